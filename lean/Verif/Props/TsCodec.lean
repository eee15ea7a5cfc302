import Verif.Proofs.TsSame
import Verif.Model.TsObject
import Verif.Props.RustCodec
set_option autoImplicit false
/-!
Property theorems C18, C19, C56–C59: the codec in generated TypeScript code and its agreement with
the Rust one.
-/
namespace Verif.Props

open Verif Verif.Spec

theorem demo_tsOk : TsFieldsOk demoFields := by
  simp [demoFields, demoEnum, demoInner, TsFieldsOk, TsElemOk, TsVariantsOk, Fields.ids,
    Variants.count]

theorem demo_tsClean : TsFieldsClean demoFields demoVal := by
  have h : TsFieldsClean demoInner demoInnerVal := by
    simp [demoInner, demoInnerVal, TsFieldsClean, TsArrayClean, TsElemClean, TsNoContent, NoBom]
    decide
  simp [demoFields, demoEnum, demoVal, TsFieldsClean, TsElemClean, TsArrayClean, TsVariantsClean,
    TsNoContent, NoBom, h]

set_option maxRecDepth 20000 in
/-- **C18 (violated)** A string that starts with U+FEFF, sent by Rust, arrives without its first
character. -/
theorem C18_violated : ∃ (fs : Fields) (v w : fs.Val) (b : Bytes), FieldsOk fs ∧ TsFieldsOk fs ∧
    FieldsClean fs v ∧ Rust.encode fs v = .ok b ∧ Rust.decode fs b = .ok v ∧
    Ts.decode fs b = .ok w ∧ v ≠ w := by
  refine ⟨.cons 1 .str false false .nil, ([Char.ofNat 0xFEFF, 'a'], ()), (['a'], ()), _, ?_, ?_, ?_,
    rfl, rfl, rfl, ?_⟩
  · simp [FieldsOk, ElemOk, Fields.ids]
  · simp [TsFieldsOk, TsElemOk, Fields.ids]
  · simp [FieldsClean, ElemClean]
  · intro h
    simp at h

/-- **C18** Both encoders produce the same bytes for every value that can be sent at all. -/
theorem C18_same_bytes (fs : Fields) (v : fs.Val) (hs : TsFieldsOk fs) (hv : FieldsSendable fs v) :
    Ts.encode fs v = Rust.encode fs v :=
  Ts.fields_same fs v hs hv

example : FieldsSendable demoFields demoVal := (Rust.fields_clean _ _ demo_clean).1

/-- **C18** The same for enum messages. -/
theorem C18_same_bytes_enum (vs : Variants) (w : vs.Val) (hs : TsVariantsOk vs)
    (hv : VariantsSendable vs w) :
    Ts.encodeEnum vs (some w) = Rust.encodeEnum vs (some w) :=
  Ts.variants_same vs w 0 hs hv

example : TsVariantsOk demoEnum ∧ VariantsSendable demoEnum (.inr (.inl ["a".toList, []])) := by
  simp [demoEnum, demoInner, TsVariantsOk, TsFieldsOk, TsElemOk, Fields.ids, VariantsSendable,
    VecSendable]
  decide

/-- **C18 (partial)** Full statement: what one side encodes the other side decodes to the same value.
Proved for all values that are exact within each language (`FieldsClean`, `TsFieldsClean`):
either side's encoding exists and is decoded by both sides to the value itself.
Missing: strings that start with U+FEFF (`C18_violated`). -/
theorem C18_wire_partial (fs : Fields) (v : fs.Val) (h1 : FieldsOk fs) (h2 : TsFieldsOk fs)
    (hv : FieldsClean fs v) (hw : TsFieldsClean fs v) :
    ∃ b, Rust.encode fs v = .ok b ∧ Ts.encode fs v = .ok b ∧
      (b.length < 2 ^ 64 → Rust.decode fs b = .ok v ∧ Ts.decode fs b = .ok v) := by
  obtain ⟨b, hb, hd⟩ := C01_rust_round_trip fs v h1 hv
  have hsame := C18_same_bytes fs v h2 (Rust.fields_clean fs v hv).1
  rw [hb] at hsame
  refine ⟨b, hb, hsame, fun hl => ⟨hd hl, ?_⟩⟩
  obtain ⟨rs, rfl, hro, hids, hdec⟩ := Ts.fields_rt fs v b h2 hw hsame hl
  obtain ⟨hn, hsm⟩ := Ts.tsOk_nodup h2
  rw [← hids] at hn hsm
  exact Ts.dec_wire fs rs hro hn (fun r hr => hsm _ (List.mem_map.mpr ⟨r, hr, rfl⟩)) _ hdec

example : FieldsOk demoFields ∧ TsFieldsOk demoFields ∧ FieldsClean demoFields demoVal ∧
    TsFieldsClean demoFields demoVal := ⟨demo_ok, demo_tsOk, demo_clean, demo_tsClean⟩

/-- **C18 (partial)** The same for enum messages. -/
theorem C18_wire_enum_partial (vs : Variants) (w : vs.Val) (h1 : VariantsOk vs)
    (h2 : TsVariantsOk vs) (hc : vs.count ≤ 65536)
    (hv : VariantsClean vs w) (hw : TsVariantsClean vs w) :
    ∃ b, Rust.encodeEnum vs (some w) = .ok b ∧ Ts.encodeEnum vs (some w) = .ok b ∧
      (b.length < 2 ^ 64 →
        Rust.decodeEnum vs b = .ok (some w) ∧ Ts.decodeEnum vs b = .ok (some w)) := by
  obtain ⟨b, hb, hd⟩ := C03_enum_round_trip_partial vs w h1 hc hv
  have hsame := C18_same_bytes_enum vs w h2 (Rust.variants_clean vs w hv).1
  rw [hb] at hsame
  refine ⟨b, hb, hsame, fun hl => ⟨hd hl, ?_⟩⟩
  obtain ⟨j, pl, rfl, hj, hdec⟩ := Ts.variants_rt vs w 0 b h2 hw hsame hl (by omega)
  rw [Ts.decodeEnum, if_neg (by simp), List.take_left' (by simp), List.drop_left' (by simp),
    leNat_leBytes_of_lt (by omega)]
  simp [hdec]

example : VariantsOk demoEnum ∧ TsVariantsOk demoEnum ∧ demoEnum.count ≤ 65536 ∧
    VariantsClean demoEnum (.inr (.inl ["a".toList])) ∧
    TsVariantsClean demoEnum (.inr (.inl ["a".toList])) := by
  refine ⟨?_, ?_, by decide, ?_, ?_⟩
  · simp [demoEnum, demoInner, VariantsOk, FieldsOk, ElemOk, Fields.ids]
  · simp [demoEnum, demoInner, TsVariantsOk, TsFieldsOk, TsElemOk, Fields.ids]
  · simp [demoEnum, VariantsClean, VecClean]; decide
  · simp [demoEnum, TsVariantsClean, TsArrayClean, NoBom]; decide

/-- **C19 (violated)** Ids 1 and 257 are mixed up: the body of property 257 is found under id 1,
and nothing under 257. A struct with such ids cannot even be read back by its own sender. -/
theorem C19_violated :
    (∃ (r1 r2 : WireRec) (s : Ts.Storage), r1.Ok ∧ r2.Ok ∧ r1.id ≠ r2.id ∧ r1.body ≠ r2.body ∧
      Ts.getStorage (wire [r1, r2]) = .ok s ∧
      s.get r1.id.toNat = some r2.body ∧ s.get r2.id.toNat = none) ∧
    ∃ (fs : Fields) (v : fs.Val) (b : Bytes), FieldsOk fs ∧ FieldsClean fs v ∧
      Ts.encode fs v = .ok b ∧ Rust.decode fs b = .ok v ∧ Ts.decode fs b = .err := by
  refine ⟨⟨⟨1, 1, [7]⟩, ⟨257, 1, [8]⟩, [(1, [8]), (1, [7])], by simp [WireRec.Ok],
    by simp [WireRec.Ok], by decide, by decide, rfl, rfl, rfl⟩,
    .cons 257 (.num .u8) false false .nil, (⟨5, by decide⟩, ()), _, ?_, ?_, rfl, rfl, rfl⟩
  · simp [FieldsOk, ElemOk, Fields.ids]
  · simp [FieldsClean, ElemClean]

/-- **C19 (partial)** Full statement: records with different ids are kept apart for all 16 bit ids.
Proved: if all ids of a body are below 256 and distinct, each record is found under its id, and
nothing is found under any other number. Missing: ids from 256 on (`C19_violated`). -/
theorem C19_ts_ids_partial (rs : List WireRec) (hok : ∀ r ∈ rs, r.Ok)
    (hn : (rs.map WireRec.id).Nodup) (hs : ∀ r ∈ rs, r.id.toNat < 256) :
    ∃ s, Ts.getStorage (wire rs) = .ok s ∧ (∀ r ∈ rs, s.get r.id.toNat = some r.body) ∧
      ∀ id : UInt16, id ∉ rs.map WireRec.id → s.get id.toNat = none := by
  refine ⟨_, Ts.getStorage_wire rs hok, fun r hr => Ts.get_wire hn hs hr, ?_⟩
  intro id hid
  unfold Ts.Storage.get
  rw [List.lookup_eq_none_iff]
  intro p hp
  simp only [List.mem_reverse, List.mem_map] at hp
  obtain ⟨r, hr, rfl⟩ := hp
  simp only [Ts.recPair, bne_iff_ne, ne_eq]
  rw [Nat.mod_eq_of_lt (hs r hr)]
  intro he
  exact hid (List.mem_map.mpr ⟨r, hr, (UInt16.toNat_inj.mp he).symm⟩)

example : let rs : List WireRec := [⟨1, 1, [7]⟩, ⟨255, 8, [8]⟩]
    (∀ r ∈ rs, r.Ok) ∧ (rs.map WireRec.id).Nodup ∧ ∀ r ∈ rs, r.id.toNat < 256 := by
  simp [WireRec.Ok]

/-- **C19** What really happens for arbitrary ids: a record is kept under the low byte of its id. -/
theorem C19_ts_low_byte (rs : List WireRec) (hok : ∀ r ∈ rs, r.Ok) (k : Nat) (hk : 256 ≤ k) :
    ∃ s, Ts.getStorage (wire rs) = .ok s ∧ s.get k = none := by
  refine ⟨_, Ts.getStorage_wire rs hok, ?_⟩
  unfold Ts.Storage.get
  rw [List.lookup_eq_none_iff]
  intro p hp
  simp only [List.mem_reverse, List.mem_map] at hp
  obtain ⟨r, _, rfl⟩ := hp
  simp only [Ts.recPair, bne_iff_ne, ne_eq]
  omega

example : ∀ r ∈ [(⟨300, 1, [7]⟩ : WireRec)], r.Ok := by simp [WireRec.Ok]

/-- **C56 (violated)** An optional string that is present but empty arrives as `undefined`; a string
that starts with U+FEFF loses it. -/
theorem C56_violated : ∃ (fs : Fields) (v w : fs.Val) (b : Bytes), TsFieldsOk fs ∧
    Ts.encode fs v = .ok b ∧ Ts.decode fs b = .ok w ∧ v ≠ w := by
  refine ⟨.cons 1 .str false true .nil, (some [], ()), (none, ()), _, ?_, rfl, rfl, ?_⟩
  · simp [TsFieldsOk, TsElemOk, Fields.ids]
  · intro h; simp at h

/-- **C56 (partial)** Full statement: what TypeScript encodes, TypeScript decodes to the same value.
Proved for all supported schemas and all values without strings that start with U+FEFF and without
present-but-empty optionals; enums without option and with empty payload are included. Missing:
those two cases (`C56_violated`, `C18_violated`). -/
theorem C56_ts_round_trip_partial (fs : Fields) (v : fs.Val) (hs : TsFieldsOk fs)
    (hv : TsFieldsClean fs v) :
    ∃ b, Ts.encode fs v = .ok b ∧ (b.length < 2 ^ 64 → Ts.decode fs b = .ok v) := by
  obtain ⟨b, hb⟩ := Ts.fields_enc_ok fs v hs hv
  refine ⟨b, hb, fun hl => ?_⟩
  obtain ⟨rs, rfl, hro, hids, hdec⟩ := Ts.fields_rt fs v b hs hv hb hl
  obtain ⟨hn, hsm⟩ := Ts.tsOk_nodup hs
  rw [← hids] at hn hsm
  exact Ts.dec_wire fs rs hro hn (fun r hr => hsm _ (List.mem_map.mpr ⟨r, hr, rfl⟩)) _ hdec

/-- **C56 (partial)** The same for enum messages. -/
theorem C56_ts_enum_round_trip_partial (vs : Variants) (w : vs.Val) (hs : TsVariantsOk vs) (hc : vs.count ≤ 65536)
    (hv : TsVariantsClean vs w) :
    ∃ b, Ts.encodeEnum vs (some w) = .ok b ∧ (b.length < 2 ^ 64 → Ts.decodeEnum vs b = .ok (some w)) := by
  obtain ⟨b, hb⟩ := Ts.variants_enc_ok vs w 0 hs hv
  refine ⟨b, hb, fun hl => ?_⟩
  obtain ⟨j, pl, rfl, hj, hdec⟩ := Ts.variants_rt vs w 0 b hs hv hb hl (by omega)
  rw [Ts.decodeEnum, if_neg (by simp), List.take_left' (by simp), List.drop_left' (by simp),
    leNat_leBytes_of_lt (by omega)]
  simp [hdec]

/-- An option with an empty string, which Rust could not transport. -/
example : TsVariantsOk (.cons .str false .nil) ∧ TsVariantsClean (.cons .str false .nil) (.inl []) := by
  simp [TsVariantsOk, TsElemOk, TsVariantsClean, TsElemClean, NoBom]

/-- A struct with two enum fields. -/
def twoEnums : Fields :=
  .cons 1 (.enum (.cons .str false .nil)) false false
    (.cons 2 (.enum (.cons .str false .nil)) false false .nil)

/-- A value Rust could not transport: an enum with an empty string and an enum without option. -/
example : TsFieldsOk twoEnums ∧ TsFieldsClean twoEnums (some (.inl []), none, ()) ∧
    ¬ FieldsClean twoEnums (some (.inl []), none, ()) := by
  refine ⟨?_, ?_, ?_⟩
  · simp [twoEnums, TsFieldsOk, TsElemOk, TsVariantsOk, Fields.ids, Variants.count]
  · simp [twoEnums, TsFieldsClean, TsElemClean, TsVariantsClean, NoBom]
  · simp [twoEnums, FieldsClean, ElemClean, VariantsClean, NoContent]

/-- **C57 (violated)** One stray byte behind the items of a string array: decoding throws. -/
theorem C57_violated : ∃ (fs : Fields) (b : Bytes), TsFieldsOk fs ∧ Ts.decode fs b = .panic := by
  refine ⟨.cons 1 .str true false .nil, wire [⟨1, 1, [0, 0, 0, 0, 9]⟩], ?_, rfl⟩
  simp [TsFieldsOk, TsElemOk, Fields.ids]

mutual
theorem plain_elem : ∀ (e : Elem) (b : Bytes), TsPlainElem e → Ts.Elem.dec e b ≠ .panic
  | .num n, b, _ => by rw [Ts.Elem.dec]; exact Ts.decNum_total n b
  | .bool, b, _ => by rw [Ts.Elem.dec]; exact Ts.decBool_total b
  | .str, b, _ => by simp [Ts.Elem.dec]
  | .struct fs, b, h => by
    simp only [TsPlainElem] at h
    rw [Ts.Elem.dec, ne_eq, Res.bind_eq_panic]
    rintro (h1 | ⟨s, _, h2⟩)
    · exact Ts.getStorage_total b h1
    · exact plain_fields fs s h h2
  | .enum _, b, h => by simp [TsPlainElem] at h
theorem plain_fields : ∀ (fs : Fields) (s : Ts.Storage), TsPlain fs → Ts.Fields.dec fs s ≠ .panic
  | .nil, s, _ => by simp [Ts.Fields.dec]
  | .cons id e rep opt rest, s, h => by
    simp only [TsPlain] at h
    have hrest := plain_fields rest s h.2.2
    rw [Ts.Fields.dec]
    split
    · simp
    · rename_i buf _
      have he := plain_elem e buf h.1
      have ha : rep = true → Ts.Elem.decArray e buf ≠ .panic := by
        intro hr
        rcases h.2.1 hr with ⟨n, rfl⟩ | rfl
        · rw [Ts.Elem.decArray]; exact Ts.decNumArray_total _ _ _
        · simp [Ts.Elem.decArray]
      rw [ne_eq, Res.bind_eq_panic]
      rintro (h1 | ⟨x, _, h2⟩)
      · cases rep <;> cases opt <;> simp only at h1
        · exact he h1
        · split at h1
          · simp at h1
          · rw [Res.bind_eq_panic] at h1
            rcases h1 with h1 | ⟨_, _, h1⟩
            · exact he h1
            · simp at h1
        · exact ha rfl h1
        · split at h1
          · simp at h1
          · rw [Res.bind_eq_panic] at h1
            rcases h1 with h1 | ⟨_, _, h1⟩
            · exact ha rfl h1
            · simp at h1
      · rw [Res.bind_eq_panic] at h2
        rcases h2 with h2 | ⟨_, _, h2⟩
        · exact hrest h2
        · simp at h2
end

/-- **C57 (partial)** Full statement: decoding a body returns a value or an `Error` for every byte
string, it never throws. Proved for schemas without enums whose arrays are arrays of numbers or
bools (structs nested to any depth, optionals). Missing: arrays of strings and structs, enums
(`C57_violated`, `C57_ts_string_array_throws`). -/
theorem C57_ts_no_throw_partial (fs : Fields) (b : Bytes) (h : TsPlain fs) :
    Ts.decode fs b ≠ .panic := by
  rw [Ts.decode, ne_eq, Res.bind_eq_panic]
  rintro (h1 | ⟨s, _, h2⟩)
  · exact Ts.getStorage_total b h1
  · exact plain_fields fs s h h2

example : TsPlain (.cons 1 (.struct (.cons 3 .str false true .nil)) false false
    (.cons 2 (.num .u64) true false .nil)) := by
  simp [TsPlain, TsPlainElem]

/-- **C57** The exact condition for string arrays: the decoder throws if and only if one to three
bytes are left over behind at least one complete item. -/
theorem C57_ts_string_array_throws (b : Bytes) :
    Ts.Elem.decArray .str b = .panic ↔
      ∃ (xs : List Bytes) (tail : Bytes), xs ≠ [] ∧ (∀ x ∈ xs, x.length < 2 ^ 32) ∧
        0 < tail.length ∧ tail.length < 4 ∧ b = itemsBytes 4 xs ++ tail := by
  rw [Ts.Elem.decArray, Ts.decItems_throws (by omega) Ts.decStr true b.length b (Nat.le_refl _)]
  simp

example : Ts.Elem.decArray .str [1, 0, 0, 0, 97, 5, 5] = .panic := rfl

/-- **C58 (violated)** An item that announces five bytes and has one is accepted. -/
theorem C58_violated : ∃ (b : Bytes) (ss : List (List Char)),
    Ts.Elem.decArray .str b = .ok ss ∧ ¬ ∃ xs : List Bytes, b = itemsBytes 4 xs := by
  refine ⟨[5, 0, 0, 0, 97], [['a']], rfl, ?_⟩
  rintro ⟨xs, h⟩
  cases xs with
  | nil => simp [itemsBytes] at h
  | cons x xs =>
    have h1 : [5, 0, 0, 0, 97] = leBytes 4 x.length ++ (x ++ itemsBytes 4 xs) := by
      rw [h]; simp [itemsBytes]
    have hl := congrArg List.length h1
    simp only [List.length_cons, List.length_nil, List.length_append, length_leBytes] at hl
    have h2 := congrArg (List.take 4) h1
    rw [List.take_left' (by simp)] at h2
    have h3 := congrArg leNat h2
    rw [leNat_leBytes_of_lt (by omega)] at h3
    have h4 : leNat (List.take 4 [5, 0, 0, 0, 97]) = 5 := rfl
    omega

/-- **C58 (partial)** Full statement: an array is accepted only if its body consists of exactly its
items. Proved: this holds for numbers; for strings and structs the body consists of complete items
except that the last one may be shorter than announced. Missing: that last item (`C58_violated`). -/
theorem C58_ts_array_partial (e : Elem) (b : Bytes) (xs : List e.Val)
    (h : Ts.Elem.decArray e b = .ok xs) :
    (∀ n (hn : e = .num n), b = (hn ▸ xs : List (Elem.num n).Val).flatMap
        (fun x => leBytes n.size x.val)) ∧
    (e = .str ∨ (∃ fs, e = .struct fs) → ∃ (k : Nat) (items : List Bytes), (k = 4 ∨ k = 8) ∧
      items.map (Ts.Elem.dec e) = xs.map Res.ok ∧
      (b = itemsBytes k items ∨ ∃ (ys : List Bytes) (y : Bytes) (n : Nat), items = ys ++ [y] ∧
        y.length < n ∧ b = itemsBytes k ys ++ (leBytes k n ++ y))) := by
  refine ⟨?_, ?_⟩
  · rintro n rfl
    rw [Ts.Elem.decArray] at h
    exact Ts.decNumArray_exact n _ b xs (Nat.le_refl _) h
  · intro he
    have key : ∀ (k : Nat) (g : Bytes → Res e.Val), 0 < k → (∀ y, g y = Ts.Elem.dec e y) →
        Ts.decItems k g true b.length b = .ok xs → (k = 4 ∨ k = 8) →
        ∃ (k : Nat) (items : List Bytes), (k = 4 ∨ k = 8) ∧
          items.map (Ts.Elem.dec e) = xs.map Res.ok ∧
          (b = itemsBytes k items ∨ ∃ (ys : List Bytes) (y : Bytes) (n : Nat), items = ys ++ [y] ∧
            y.length < n ∧ b = itemsBytes k ys ++ (leBytes k n ++ y)) := by
      intro k g hk hg hd hk2
      obtain ⟨ps, h1, h2, h3⟩ := Ts.decItems_sound hk g true b.length b xs (Nat.le_refl _) hd
      refine ⟨k, ps.map Prod.snd, hk2, ?_, ?_⟩
      · rw [← h1, List.map_map, List.map_map]
        refine List.map_congr_left (fun p hp => ?_)
        simp only [Function.comp]
        rw [← hg, (h2 p hp).2]
      · rcases h3 with h3 | ⟨qs, q, n, rfl, h4, _, h5⟩
        · exact Or.inl h3
        · exact Or.inr ⟨qs.map Prod.snd, q.2, n, by simp, h4, h5⟩
    rcases he with rfl | ⟨fs, rfl⟩
    · rw [Ts.Elem.decArray] at h
      exact key 4 _ (by omega) (fun y => by rw [Ts.Elem.dec]) h (Or.inl rfl)
    · rw [Ts.Elem.decArray] at h
      exact key 8 _ (by omega) (fun y => by rw [Ts.Elem.dec]) h (Or.inr rfl)

example : Ts.Elem.decArray .str [1, 0, 0, 0, 97, 9, 0, 0, 0, 98] = .ok [['a'], ['b']] ∧
    Ts.Elem.decArray (.num .u16) [1, 0, 2, 0] = .ok [⟨1, by decide⟩, ⟨2, by decide⟩] := ⟨rfl, rfl⟩

/-- **C59 (violated)** An enum field that is assigned after construction is sent with its old
value. -/
theorem C59_violated : ∃ (fs : Fields) (v w : fs.Val), TsFieldsOk fs ∧ v ≠ w ∧
    ((Ts.Obj.new v).assign (fun _ => w)).encode = Ts.encode fs v ∧
    Ts.encode fs v ≠ Ts.encode fs w := by
  refine ⟨.cons 1 (.enum (.cons (.num .u8) false .nil)) false false .nil,
    (some (.inl ⟨1, by decide⟩), ()), (some (.inl ⟨2, by decide⟩), ()), ?_, ?_, rfl, ?_⟩
  · simp [TsFieldsOk, TsElemOk, TsVariantsOk, Fields.ids, Variants.count]
  · intro h; simp at h
  · intro h
    have h1 : ([1, 0, 64, 3, 0, 0, 0, 0, 0, 0, 0, 0, 0, 1] : Bytes)
        = [1, 0, 64, 3, 0, 0, 0, 0, 0, 0, 0, 0, 0, 2] := Res.ok.inj h
    exact absurd h1 (by decide)

theorem picked_self : ∀ (fs : Fields) (v : fs.Val), TsFieldsOk fs → Ts.picked fs v v = v
  | .nil, _, _ => rfl
  | .cons id e rep opt rest, (x, xs), h => by
    simp only [TsFieldsOk] at h
    have ih := picked_self rest xs h.2.2.2.2
    cases e with
    | enum vs =>
      cases rep with
      | true => exact absurd ⟨rfl, vs, rfl⟩ h.2.2.2.1
      | false =>
        cases opt with
        | false => simp [Ts.picked, ih]
        | true => cases x <;> simp [Ts.picked, ih]
    | _ => simp [Ts.picked, ih]

theorem picked_setField : ∀ (fs : Fields) (i : Nat) f (v h : fs.Val), ¬ isEnumField fs i →
    Ts.picked fs (setField fs i f v) h = setField fs i f (Ts.picked fs v h)
  | .nil, _, _, _, _, _ => rfl
  | .cons id e rep opt rest, 0, f, (x, xs), (y, ys), hi => by
    cases e with
    | enum vs => exact absurd ⟨vs, rfl⟩ hi
    | _ => simp [setField, Ts.picked]
  | .cons id e rep opt rest, i + 1, f, (x, xs), (y, ys), hi => by
    have ih := picked_setField rest i f xs ys hi
    cases e with
    | enum vs =>
      cases rep with
      | true => simp [setField, Ts.picked, ih]
      | false =>
        cases opt with
        | false => simp [setField, Ts.picked, ih]
        | true => cases x <;> simp [setField, Ts.picked, ih]
    | _ => simp [setField, Ts.picked, ih]

/-- **C59 (partial)** Full statement: a message object is always encoded with the field values it
shows. Proved: this holds after construction or decoding and any number of assignments to fields
that are not enums. Missing: enum fields (`C59_violated`). -/
theorem C59_ts_current_values_partial (fs : Fields) (hs : TsFieldsOk fs) (v : fs.Val)
    (changes : List (Nat × ((e : Elem) → (rep opt : Bool) →
      Opt (Rep e.Val rep) opt → Opt (Rep e.Val rep) opt)))
    (hc : ∀ c ∈ changes, ¬ isEnumField fs c.1) :
    let o := changes.foldl (fun o c => o.assign (setField fs c.1 c.2)) (Ts.Obj.new v)
    o.encode = Ts.encode fs o.shown := by
  have key : ∀ (cs : List (Nat × ((e : Elem) → (rep opt : Bool) →
      Opt (Rep e.Val rep) opt → Opt (Rep e.Val rep) opt))) (o : Ts.Obj fs),
      (∀ c ∈ cs, ¬ isEnumField fs c.1) → Ts.picked fs o.shown o.hidden = o.shown →
      let o' := cs.foldl (fun o c => o.assign (setField fs c.1 c.2)) o
      Ts.picked fs o'.shown o'.hidden = o'.shown := by
    intro cs
    induction cs with
    | nil => intro o _ h; exact h
    | cons c cs ih =>
      intro o hcs h
      refine ih (o.assign (setField fs c.1 c.2)) (fun c' hc' => hcs c' (by simp [hc'])) ?_
      simp only [Ts.Obj.assign]
      rw [picked_setField fs c.1 c.2 _ _ (hcs c (by simp)), h]
  have := key changes (Ts.Obj.new v) hc (picked_self fs v hs)
  simp only at this
  simp only [Ts.Obj.encode]
  rw [this]

example : ¬ isEnumField demoFields 0 ∧ isEnumField demoFields 3 := by
  simp [demoFields, isEnumField]

end Verif.Props
