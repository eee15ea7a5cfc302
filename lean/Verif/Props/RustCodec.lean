import Verif.Proofs.RustFramed
/-!
Property theorems C01–C08: the codec in generated Rust code.

`Rust.encode` / `Rust.decode` are the model of `StructEncode::abduct` and
`StructDecode::extract`. A body of 2^64 bytes or more cannot exist in memory; this is the
hypothesis `b.length < 2 ^ 64` below.
-/
namespace Verif.Props

open Verif Verif.Spec Verif.Rust

/-! A schema and a value that exercise every constructor; used as witness below. -/

/-- Inner struct `{ 10: [str], 11: u16? }`. -/
def demoInner : Fields := .cons 10 .str true false (.cons 11 (.num .u16) false true .nil)

/-- Enum `u8 | [str] | struct`. -/
def demoEnum : Variants :=
  .cons (.num .u8) false (.cons .str true (.cons (.struct demoInner) false .nil))

/-- Message struct `{ 1: str, 2: [u32], 3: str?, 4: enum, 5: [struct], 6: bool, 7: [bool]? }`. -/
def demoFields : Fields :=
  .cons 1 .str false false (.cons 2 (.num .u32) true false (.cons 3 .str false true
    (.cons 4 (.enum demoEnum) false false (.cons 5 (.struct demoInner) true false
      (.cons 6 .bool false false (.cons 7 .bool true true .nil))))))

def demoInnerVal : demoInner.Val := (["ab".toList, []], some ⟨7, by decide⟩, ())

def demoVal : demoFields.Val :=
  ("héé".toList, [⟨1, by decide⟩, ⟨70000, by decide⟩], some "x".toList,
    some (.inr (.inr (.inl demoInnerVal))), [demoInnerVal, demoInnerVal], true,
    some [true, false], ())

theorem demo_ok : FieldsOk demoFields := by
  simp [demoFields, demoEnum, demoInner, FieldsOk, ElemOk, VariantsOk, Fields.ids, Variants.count]

theorem demo_clean : FieldsClean demoFields demoVal := by
  have h : FieldsClean demoInner demoInnerVal := by
    simp [demoInner, demoInnerVal, FieldsClean, VecClean, ElemClean, NoContent]
    decide
  simp [demoFields, demoEnum, demoVal, FieldsClean, ElemClean, VecClean, VariantsClean, NoContent, h]
  simp [demoInner]

/-- **C01** A message struct that was encoded and decoded again is exactly the same value. -/
theorem C01_rust_round_trip (fs : Fields) (v : fs.Val) (hs : FieldsOk fs) (hv : FieldsClean fs v) :
    ∃ b, encode fs v = .ok b ∧ (b.length < 2 ^ 64 → decode fs b = .ok v) := by
  obtain ⟨hsend, hseen⟩ := fields_clean fs v hv
  obtain ⟨b, hb⟩ := fields_enc_ok fs v hsend
  refine ⟨b, hb, fun hl => ?_⟩
  obtain ⟨rs, rfl, hro, hids, hdec⟩ := fields_rt fs v b hs hsend hb hl
  rw [hseen] at hdec
  have hn : (rs.map WireRec.id).Nodup := by rw [hids]; exact fieldsOk_nodup hs
  exact dec_wire fs rs hro hn _ hdec

example : ∃ b, encode demoFields demoVal = .ok b ∧
    (b.length < 2 ^ 64 → decode demoFields b = .ok demoVal) :=
  C01_rust_round_trip _ _ demo_ok demo_clean

/-- What the receiver sees for any value that can be sent at all, also with empty optionals and
empty enum payloads: exactly `FieldsSeen` (an absent result is a decoding error). -/
theorem C01_rust_seen (fs : Fields) (v : fs.Val) (hs : FieldsOk fs) (hv : FieldsSendable fs v)
    (b : Bytes) (hb : encode fs v = .ok b) (hl : b.length < 2 ^ 64) :
    (∀ w, decode fs b = .ok w ↔ FieldsSeen fs v = some w) ∧
    (decode fs b = .err ↔ FieldsSeen fs v = none) := by
  obtain ⟨rs, rfl, hro, hids, hdec⟩ := fields_rt fs v b hs hv hb hl
  have hn : (rs.map WireRec.id).Nodup := by rw [hids]; exact fieldsOk_nodup hs
  have : decode fs (wire rs) = toRes (FieldsSeen fs v) := dec_wire fs rs hro hn _ hdec
  rw [this]
  cases FieldsSeen fs v <;> simp

/-- Schema and value for the violations of C02 and C03. -/
def optStr : Fields := .cons 1 .str false true .nil

/-- **C02 (violated)** Optional presence does not survive the wire: a field set to the empty
string arrives as not set. -/
theorem C02_violated : ∃ (fs : Fields) (v w : fs.Val) (b : Bytes), FieldsOk fs ∧
    FieldsSendable fs v ∧ encode fs v = .ok b ∧ b.length < 2 ^ 64 ∧ decode fs b = .ok w ∧
    ¬ SamePresence fs v w := by
  refine ⟨optStr, (some [], ()), (none, ()), _, ?_, ?_, rfl, ?_, rfl, ?_⟩
  · simp [optStr, FieldsOk, ElemOk, Fields.ids]
  · simp [optStr, FieldsSendable, ElemSendable]
  · decide
  · simp [optStr, SamePresence]

/-- **C02 (partial)** Full statement: for every sendable value, decoding its encoding gives a
value with the same optional fields present. Proved: this holds whenever no top-level optional
field is present without content (empty string, empty vector, struct without fields). Missing:
those values, for which it is false (`C02_violated`). -/
theorem C02_optional_presence_partial (fs : Fields) (v w : fs.Val) (hs : FieldsOk fs)
    (hv : FieldsSendable fs v) (hne : NoEmptyOptional fs v) (b : Bytes)
    (hb : encode fs v = .ok b) (hl : b.length < 2 ^ 64) (hd : decode fs b = .ok w) :
    SamePresence fs v w :=
  seen_presence fs v w hne (((C01_rust_seen fs v hs hv b hb hl).1 w).mp hd)

example : ∃ (w : optStr.Val) (b : Bytes), FieldsOk optStr ∧
    FieldsSendable optStr (some ['a'], ()) ∧ NoEmptyOptional optStr (some ['a'], ()) ∧
    encode optStr (some ['a'], ()) = .ok b ∧ b.length < 2 ^ 64 ∧ decode optStr b = .ok w := by
  refine ⟨(some ['a'], ()), _, ?_, ?_, ?_, rfl, by decide, rfl⟩
  · simp [optStr, FieldsOk, ElemOk, Fields.ids]
  · simp [optStr, FieldsSendable, ElemSendable]
  · simp [optStr, NoEmptyOptional, NoContentRep, NoContent]

/-- **C02** An optional field that is not set is not set after transport, whatever the other
fields contain. -/
theorem C02_unset_stays_unset (id : UInt16) (e : Elem) (rep : Bool) (rest : Fields)
    (xs : rest.Val) (w : (Fields.cons id e rep true rest).Val)
    (hs : FieldsOk (.cons id e rep true rest))
    (hv : FieldsSendable (.cons id e rep true rest) (none, xs)) (b : Bytes)
    (hb : encode (.cons id e rep true rest) (none, xs) = .ok b) (hl : b.length < 2 ^ 64)
    (hd : decode (.cons id e rep true rest) b = .ok w) : w.1 = none := by
  have h := ((C01_rust_seen _ _ hs hv b hb hl).1 w).mp hd
  cases rep <;> simp only [FieldsSeen] at h <;> split at h
  · rename_i a b ha hb
    simp only [Option.some.injEq] at h ha
    rw [← h, ← ha]
  · simp at h
  · rename_i a b ha hb
    simp only [Option.some.injEq] at h ha
    rw [← h, ← ha]
  · simp at h

example : ∃ (w : optStr.Val) (b : Bytes), encode optStr (none, ()) = .ok b ∧
    b.length < 2 ^ 64 ∧ decode optStr b = .ok w := ⟨(none, ()), _, rfl, by decide, rfl⟩

/-- Enum with one string variant. -/
def strEnum : Variants := .cons .str false .nil

/-- **C03 (violated)** An enum value whose payload is the empty string cannot be decoded. -/
theorem C03_violated : ∃ (vs : Variants) (w : vs.Val) (b : Bytes), VariantsOk vs ∧
    vs.count ≤ 65536 ∧ VariantsSendable vs w ∧ encodeEnum vs (some w) = .ok b ∧
    b.length < 2 ^ 64 ∧ decodeEnum vs b ≠ .ok (some w) := by
  refine ⟨strEnum, .inl [], _, ?_, by decide, ?_, rfl, by decide, ?_⟩
  · simp [strEnum, VariantsOk, ElemOk]
  · simp [strEnum, VariantsSendable, ElemSendable]
  · intro h; cases h

/-- **C03 (partial)** Full statement: for every sendable enum value `w`, decoding its encoding
gives back `w`. Proved: for all values whose payloads have content (and whose nested optionals
are not present-but-empty). Missing: payloads without content, for which it is false
(`C03_violated`). -/
theorem C03_enum_round_trip_partial (vs : Variants) (w : vs.Val) (hs : VariantsOk vs)
    (hc : vs.count ≤ 65536) (hw : VariantsClean vs w) :
    ∃ b, encodeEnum vs (some w) = .ok b ∧
      (b.length < 2 ^ 64 → decodeEnum vs b = .ok (some w)) := by
  have hclean : ElemClean (.enum vs) (some w) := by simpa [ElemClean] using hw
  obtain ⟨hsend, hseen⟩ := elem_clean (.enum vs) (some w) hclean
  obtain ⟨⟨sz, b⟩, hb⟩ := elem_enc_ok (.enum vs) (some w) hsend
  have hb' : encodeEnum vs (some w) = .ok b := by
    simp only [Elem.enc, Res.bind_eq_ok, Res.pure_eq, Res.ok.injEq, Prod.mk.injEq] at hb
    obtain ⟨buf, h1, _, rfl⟩ := hb
    exact h1
  refine ⟨b, hb', fun hl => ?_⟩
  have hok : ElemOk (.enum vs) := by simpa [ElemOk] using ⟨hs, hc⟩
  obtain ⟨_, _, hd⟩ := elem_rt (.enum vs) (some w) sz b hok hsend hb hl
  rw [hseen] at hd
  simpa [Elem.dec, decodeEnum] using hd

example : ∃ b, encodeEnum demoEnum (some (.inr (.inl ["q".toList]))) = .ok b ∧
    (b.length < 2 ^ 64 → decodeEnum demoEnum b = .ok (some (.inr (.inl ["q".toList])))) :=
  C03_enum_round_trip_partial _ _
    (by simp [demoEnum, demoInner, VariantsOk, ElemOk, FieldsOk, Fields.ids]) (by decide)
    (by simp [demoEnum, VariantsClean, VecClean]; decide)

/-- **C03** A variant with a payload without content is always a decoding error: it is never
taken for another value. -/
theorem C03_empty_payload_is_error (e : Elem) (rest : Variants) (x : e.Val)
    (hs : VariantsOk (.cons e false rest)) (hc : (Variants.cons e false rest).count ≤ 65536)
    (hv : ElemSendable e x) (hx : NoContent e x) (b : Bytes)
    (hb : encodeEnum (.cons e false rest) (some (.inl x)) = .ok b) (hl : b.length < 2 ^ 64) :
    decodeEnum (.cons e false rest) b = .err := by
  have hsend : ElemSendable (.enum (.cons e false rest)) (some (.inl x)) := by
    simpa [ElemSendable, VariantsSendable] using hv
  have hok : ElemOk (.enum (.cons e false rest)) := by simpa [ElemOk] using ⟨hs, hc⟩
  have hb' : Elem.enc (.enum (.cons e false rest)) (some (.inl x)) = .ok (.u64 b.length, b) := by
    simp only [encodeEnum] at hb
    simp [Elem.enc, hb]
  obtain ⟨_, _, hd⟩ := elem_rt _ _ _ b hok hsend hb' hl
  simp [ElemSeen, VariantsSeen, hx] at hd
  simpa [Elem.dec, decodeEnum] using hd

example : encodeEnum strEnum (some (.inl [])) = .ok [0, 0] ∧ decodeEnum strEnum [0, 0] = .err :=
  ⟨rfl, rfl⟩

/-- **C04** Different values have different encodings. -/
theorem C04_rust_encoding_injective (fs : Fields) (v w : fs.Val) (hs : FieldsOk fs)
    (hv : FieldsClean fs v) (hw : FieldsClean fs w) (b : Bytes) (hl : b.length < 2 ^ 64)
    (h1 : encode fs v = .ok b) (h2 : encode fs w = .ok b) : v = w := by
  obtain ⟨b1, e1, d1⟩ := C01_rust_round_trip fs v hs hv
  obtain ⟨b2, e2, d2⟩ := C01_rust_round_trip fs w hs hw
  rw [h1, Res.ok.injEq] at e1
  rw [h2, Res.ok.injEq] at e2
  subst e1; subst e2
  have := (d1 hl).symm.trans (d2 hl)
  simpa using this

example : ∃ b, encode optStr (some ['a'], ()) = .ok b ∧ b.length < 2 ^ 64 := ⟨_, rfl, by decide⟩

/-- Without the restriction the property is false: the present empty string and the absent
string have bodies that decode to the same value, although their bytes differ in the width of
the length field. -/
example : ∃ b c, encode optStr (some [], ()) = .ok b ∧ encode optStr (none, ()) = .ok c ∧
    b ≠ c ∧ decode optStr b = decode optStr c := ⟨_, _, rfl, rfl, by decide, rfl⟩

/-- **C05** The records of an encoded message may be permuted and mixed with records of foreign
ids: the decoded value stays the same. -/
theorem C05_rust_order_and_unknown (fs : Fields) (v : fs.Val) (hs : FieldsOk fs)
    (hv : FieldsClean fs v) (b : Bytes) (hb : encode fs v = .ok b) (hl : b.length < 2 ^ 64) :
    ∃ rs : List WireRec, (∀ r ∈ rs, r.Ok) ∧ b = wire rs ∧ rs.map WireRec.id = fs.ids ∧
      ∀ extra rs' : List WireRec, (∀ r ∈ extra, r.Ok ∧ r.id ∉ fs.ids) →
        rs'.Perm (rs ++ extra) → decode fs (wire rs') = .ok v := by
  obtain ⟨hsend, hseen⟩ := fields_clean fs v hv
  obtain ⟨rs, rfl, hro, hids, hdec⟩ := fields_rt fs v b hs hsend hb hl
  rw [hseen] at hdec
  have hn : (rs.map WireRec.id).Nodup := by rw [hids]; exact fieldsOk_nodup hs
  refine ⟨rs, hro, rfl, hids, fun extra rs' hextra hperm => ?_⟩
  have hok : ∀ r ∈ rs', r.Ok := by
    intro r hr
    rcases List.mem_append.mp (hperm.mem_iff.mp hr) with h | h
    · exact hro r h
    · exact (hextra r h).1
  unfold decode
  rw [storageNew_wire rs' hok]
  simp only [Res.ok_bind]
  refine hdec _ (fun r hr => get_recPair_of_agree ⟨r, hperm.mem_iff.mpr (by simp [hr]), rfl⟩ ?_)
  intro r' hr' he
  rcases List.mem_append.mp (hperm.mem_iff.mp hr') with h | h
  · have := get_recPair_of_mem hn h
    rw [he, get_recPair_of_mem hn hr] at this
    simpa using this.symm
  · exact absurd (by rw [he, ← hids]; exact List.mem_map.mpr ⟨r, hr, rfl⟩) (hextra r' h).2

/-- A concrete permuted body with an unknown record. -/
example : decode (.cons 1 (.num .u8) false false (.cons 2 .bool false false .nil))
    ([2, 0, 8, 1, 1] ++ [9, 0, 8, 2, 7, 7] ++ [1, 0, 8, 1, 5])
    = .ok (⟨5, by decide⟩, true, ()) := rfl

/-- **C06** If the record of a declared field is missing, decoding does not succeed, whatever
the other records are. -/
theorem C06_rust_missing_property (fs : Fields) (rs : List WireRec) (hok : ∀ r ∈ rs, r.Ok)
    (id : UInt16) (hid : id ∈ fs.ids) (hmiss : id ∉ rs.map WireRec.id) (w : fs.Val) :
    decode fs (wire rs) ≠ .ok w := by
  unfold decode
  rw [storageNew_wire rs hok]
  simp only [Res.ok_bind]
  exact dec_missing fs _ ⟨id, hid, get_recPair_none hmiss⟩ w

example : ∃ (rs : List WireRec), (∀ r ∈ rs, r.Ok) ∧ (3 : UInt16) ∈ demoFields.ids ∧
    (3 : UInt16) ∉ rs.map WireRec.id ∧ rs.length = 2 := by
  refine ⟨[⟨1, 1, [65]⟩, ⟨2, 8, []⟩], ?_, by decide, by decide, rfl⟩
  intro r hr
  simp only [List.mem_cons, List.not_mem_nil, or_false] at hr
  rcases hr with rfl | rfl <;> simp [WireRec.Ok]

/-- **C06** In particular removing any of the records from the encoding of a message makes
decoding fail. -/
theorem C06_rust_removed_property (fs : Fields) (v : fs.Val) (hs : FieldsOk fs)
    (hv : FieldsClean fs v) (b : Bytes) (hb : encode fs v = .ok b) (hl : b.length < 2 ^ 64) :
    ∃ rs : List WireRec, b = wire rs ∧ rs.map WireRec.id = fs.ids ∧
      ∀ rs1 r rs2, rs = rs1 ++ r :: rs2 → ∀ w, decode fs (wire (rs1 ++ rs2)) ≠ .ok w := by
  obtain ⟨hsend, _⟩ := fields_clean fs v hv
  obtain ⟨rs, rfl, hro, hids, _⟩ := fields_rt fs v b hs hsend hb hl
  have hn : (rs.map WireRec.id).Nodup := by rw [hids]; exact fieldsOk_nodup hs
  refine ⟨rs, rfl, hids, fun rs1 r rs2 he w => ?_⟩
  refine C06_rust_missing_property fs _ (fun x hx => hro x ?_) r.id ?_ ?_ w
  · rw [he]
    rcases List.mem_append.mp hx with h | h <;> simp [h]
  · rw [← hids, he]; simp
  · rw [he] at hn
    simp only [List.map_append, List.map_cons, List.nodup_append, List.nodup_cons] at hn
    simp only [List.map_append, List.mem_append, not_or]
    exact ⟨fun h => hn.2.2 _ h _ (by simp) rfl, hn.2.1.1⟩

example : decode optStr [] = .err := rfl

/-- **C07 (structs)** No proper prefix of the body of a message struct decodes. -/
theorem C07_rust_truncated_partial (fs : Fields) (v : fs.Val) (hs : FieldsOk fs)
    (hv : FieldsSendable fs v) (b : Bytes) (hb : encode fs v = .ok b) (hl : b.length < 2 ^ 64)
    (p : Bytes) (hp : p <+: b) (hne : p ≠ b) (w : fs.Val) : decode fs p ≠ .ok w := by
  obtain ⟨rs, rfl, hro, hids, _⟩ := fields_rt fs v b hs hv hb hl
  intro hd
  unfold decode at hd
  rw [Res.bind_eq_ok] at hd
  obtain ⟨s, hs1, hs2⟩ := hd
  obtain ⟨ps, hpo, rfl, rfl⟩ := storageNew_sound hs1
  obtain ⟨t, ht⟩ := hp
  have hn : (rs.map WireRec.id).Nodup := by rw [hids]; exact fieldsOk_nodup hs
  by_cases hlt : ps.length < rs.length
  · obtain ⟨r, hr, hni⟩ := wire_eq_of_map hpo hro hlt ⟨t, ht.symm⟩ hn
    exact dec_missing fs _ ⟨r.id, by rw [← hids]; exact List.mem_map.mpr ⟨r, hr, rfl⟩,
      get_recPair_none hni⟩ w hs2
  · have hlen : ps.length ≤ rs.length := by
      obtain ⟨k, hk⟩ := wire_prefix ps rs hpo hro ⟨t, ht.symm⟩
      have := congrArg List.length hk
      simp at this
      omega
    have h1 := wire_prefix_same ps rs hpo hro (by omega) ht.symm
    rw [h1, List.append_nil] at ht
    exact hne ht

example : ∃ (b p : Bytes), encode optStr (some ['a'], ()) = .ok b ∧ p <+: b ∧ p ≠ b ∧ p ≠ [] :=
  ⟨_, [1, 0], rfl, by decide, by decide, by decide⟩

/-- **C07 (violated for enum messages)** A message that is an enum has no record around its
payload: a cut string is accepted as a shorter string. Full statement of C07: no proper prefix
of the encoding of a message decodes; `C07_rust_truncated_partial` proves it for all message
structs, what is missing are message enums. -/
theorem C07_violated_for_enums : ∃ (vs : Variants) (w w' : vs.Val) (b p : Bytes),
    VariantsOk vs ∧ VariantsClean vs w ∧ encodeEnum vs (some w) = .ok b ∧ p <+: b ∧ p ≠ b ∧
    decodeEnum vs p = .ok (some w') ∧ w' ≠ w := by
  refine ⟨strEnum, .inl ['a', 'b'], .inl ['a'], _, [0, 0, 97], ?_, ?_, rfl, by decide, by decide,
    rfl, ?_⟩
  · simp [strEnum, VariantsOk, ElemOk]
  · simp [strEnum, VariantsClean, ElemClean, NoContent]
  · intro h; cases h

/-- **C08 (violated)** Decoding bytes from the network can panic: one byte is enough. -/
theorem C08_violated : ∃ (fs : Fields) (b : Bytes), FieldsOk fs ∧ decode fs b = .panic :=
  ⟨optStr, [0], by simp [optStr, FieldsOk, ElemOk, Fields.ids], rfl⟩

/-- A record that announces more bytes than there are also panics. -/
example : decode optStr [1, 0, 8, 5, 97] = .panic := rfl

/-- **C08 (partial)** Full statement: for every schema and every byte string decoding does not
panic. Proved: it does not panic for every body that is properly framed, that is, made of
complete records at every level, whatever the records contain. Missing: incomplete records,
for which it is false (`C08_violated`). -/
theorem C08_rust_framed_no_panic_partial (fs : Fields) (b : Bytes)
    (h : ElemFramed (.struct fs) b) : decode fs b ≠ .panic := by
  have := elem_framed (.struct fs) b h
  simpa [Elem.dec, decode] using this

/-- A framed body with wrong contents: a one byte record for a four byte number. -/
example : ElemFramed (.struct (.cons 1 (.num .u32) false false .nil)) [1, 0, 8, 1, 5] ∧
    decode (.cons 1 (.num .u32) false false .nil) [1, 0, 8, 1, 5] = .err := by
  refine ⟨?_, rfl⟩
  simp only [ElemFramed]
  refine ⟨[⟨1, 1, [5]⟩], by simp [WireRec.Ok], by decide, ?_⟩
  simp [FieldsFramed, ElemFramed]

/-- **C08** For a schema whose fields are plain numbers, bools and strings (optional or not, or
vectors of numbers and bools) the only source of a panic is an incomplete record: decoding
panics exactly if reading the records does. -/
theorem C08_rust_flat_exact (fs : Fields) (b : Bytes)
    (hflat : ∀ rs : List WireRec, FieldsFramed fs rs) :
    decode fs b = .panic ↔ storageNew b = .panic := by
  unfold decode
  rw [Res.bind_eq_panic]
  constructor
  · rintro (h | ⟨s, hs, hd⟩)
    · exact h
    · obtain ⟨rs, hok, rfl, rfl⟩ := storageNew_sound hs
      exact absurd hd (fields_framed fs rs (hflat rs))
  · exact Or.inl

example : ∀ rs : List WireRec, FieldsFramed
    (.cons 1 .str false true (.cons 2 (.num .u8) true false .nil)) rs := by
  simp [FieldsFramed, ElemFramed, VecFramed]

/-- **C53** A vector of numbers is decoded only from exactly the bytes of its items: left-over
bytes are refused. -/
theorem C53_rust_number_vector_exact (n : Num) (b : Bytes) (xs : List (Elem.num n).Val)
    (h : Elem.decVec (.num n) b = .ok xs) : b = xs.flatMap (fun x => leBytes n.size x.val) := by
  rw [Elem.decVec] at h
  exact decNumVec_sound n _ b xs (Nat.le_refl _) h

example : Elem.decVec (.num .u16) [1, 0, 2, 0] = .ok [⟨1, by decide⟩, ⟨2, by decide⟩] ∧
    Elem.decVec (.num .u16) [1, 0, 2] = .err := ⟨rfl, rfl⟩

/-- **C53** A vector of strings, structs or enums is decoded only if its body is a sequence of
complete length prefixed items and every item decodes from exactly its own bytes. -/
theorem C53_rust_item_vector_exact (e : Elem) (b : Bytes) (xs : List e.Val)
    (he : (∃ fs, e = .struct fs) ∨ (∃ vs, e = .enum vs) ∨ e = .str)
    (h : Elem.decVec e b = .ok xs) :
    ∃ (k : Nat) (items : List Bytes), (k = 4 ∨ k = 8) ∧ b = itemsBytes k items ∧
      items.map (Elem.dec e) = xs.map Res.ok := by
  rcases he with ⟨fs, rfl⟩ | ⟨vs, rfl⟩ | rfl
  · rw [Elem.decVec] at h
    obtain ⟨items, h1, h2⟩ := decPrefixed_sound 8 (by omega) _ _ b xs (Nat.le_refl _) h
    refine ⟨8, items, Or.inr rfl, h1, ?_⟩
    rw [← h2]
    exact List.map_congr_left (fun x _ => by rw [Elem.dec])
  · rw [Elem.decVec] at h
    obtain ⟨items, h1, h2⟩ := decPrefixed_sound 8 (by omega) _ _ b xs (Nat.le_refl _) h
    refine ⟨8, items, Or.inr rfl, h1, ?_⟩
    rw [← h2]
    exact List.map_congr_left (fun x _ => by rw [Elem.dec])
  · rw [Elem.decVec] at h
    obtain ⟨items, h1, h2⟩ := decPrefixed_sound 4 (by omega) _ _ b xs (Nat.le_refl _) h
    refine ⟨4, items, Or.inl rfl, h1, ?_⟩
    rw [← h2]
    exact List.map_congr_left (fun x _ => by rw [Elem.dec])

example : Elem.decVec .str [1, 0, 0, 0, 97, 0, 0, 0, 0] = .ok [['a'], []] := rfl

end Verif.Props
