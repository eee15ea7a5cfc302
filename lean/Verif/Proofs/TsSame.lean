import Verif.Proofs.TsCodec
set_option autoImplicit false
/-!
TypeScript and Rust encoders print the same bytes; further facts about the TypeScript decoder.
-/
namespace Verif.Ts

open Verif Verif.Spec

theorem encStrArray_same : ∀ ss : List (List Char), (∀ s ∈ ss, (utf8 s).length < 2 ^ 32) →
    encStrArray ss = Rust.encPrefixed 4 (fun v => .ok (utf8 v)) ss
  | [], _ => rfl
  | s :: ss, h => by
    rw [encStrArray, if_pos (h s (by simp)), Rust.encPrefixed,
      encStrArray_same ss (fun x hx => h x (by simp [hx]))]
    simp

theorem encSelfArray_same {α : Type} {f g : α → Res Bytes} : ∀ xs : List α, (∀ x ∈ xs, f x = g x) →
    encSelfArray f xs = Rust.encPrefixed 8 g xs
  | [], _ => rfl
  | x :: xs, h => by
    rw [encSelfArray, Rust.encPrefixed, h x (by simp),
      encSelfArray_same xs (fun x hx => h x (by simp [hx]))]
    simp

theorem recU64_same (id : UInt16) (b : Bytes) :
    recU64 id b = Rust.getValueBuffer (some id) (.u64 b.length) b := by
  simp [recU64, Rust.getValueBuffer, Rust.ESize.bytes]

theorem recU8_same (id : UInt16) (n : Nat) (b : Bytes) :
    recU8 id n b = Rust.getValueBuffer (some id) (.u8 n) b := by
  simp [recU8, Rust.getValueBuffer, Rust.ESize.bytes]

mutual
theorem elem_same : ∀ (e : Elem) (id : UInt16) (v : e.Val), TsElemOk e → ElemSendable e v →
    Elem.rec e id v = (do
      let r ← Rust.Elem.enc e v
      pure (Rust.getValueBuffer (some id) r.1 r.2))
  | .num n, id, v, _, _ => by simp [Elem.rec, Rust.Elem.enc, recU8_same]
  | .bool, id, v, _, _ => by
    simp [Elem.rec, Rust.Elem.enc, recU8_same, boolByte, Rust.boolByte]
  | .str, id, v, _, _ => by simp [Elem.rec, Rust.Elem.enc, recU64_same]
  | .struct fs, id, v, hok, hs => by
    simp only [TsElemOk] at hok
    simp only [ElemSendable] at hs
    rw [Elem.rec, fields_same fs v hok hs, Rust.Elem.enc]
    cases Rust.Fields.enc fs v <;> simp [recU64_same]
  | .enum vs, id, none, _, hs => by simp [ElemSendable] at hs
  | .enum vs, id, some w, hok, hs => by
    simp only [TsElemOk] at hok
    simp only [ElemSendable] at hs
    rw [Elem.rec, variants_same vs w 0 hok.1 hs, Rust.Elem.enc]
    cases Rust.Variants.enc vs 0 w <;> simp [recU64_same]
theorem array_same : ∀ (e : Elem) (id : UInt16) (v : List e.Val), TsElemOk e →
    (¬ ∃ vs, e = .enum vs) → VecSendable e v →
    Elem.recArray e id v = (do
      let r ← Rust.Elem.encVec e v
      pure (Rust.getValueBuffer (some id) r.1 r.2))
  | .num n, id, v, _, _, _ => by
    have := length_encNumArray n v
    simp only [Elem.recArray, Rust.Elem.encVec, recU64_same, this]
    rfl
  | .bool, id, v, _, _, _ => by
    have : (encBoolArray v).length = v.length * 1 := by
      rw [Nat.mul_one]
      exact Rust.length_encPlain_bool v
    simp only [Elem.recArray, Rust.Elem.encVec, recU64_same, this]
    rfl
  | .str, id, v, _, _, hs => by
    simp only [VecSendable] at hs
    rw [Elem.recArray, encStrArray_same v hs, Rust.Elem.encVec]
    cases Rust.encPrefixed 4 (fun v => .ok (utf8 v)) v <;> simp [recU64_same]
  | .struct fs, id, v, hok, _, hs => by
    simp only [TsElemOk] at hok
    simp only [VecSendable] at hs
    rw [Elem.recArray, encSelfArray_same v (fun x hx => fields_same fs x hok (hs x hx)),
      Rust.Elem.encVec]
    cases Rust.encPrefixed 8 (Rust.Fields.enc fs) v <;> simp [recU64_same]
  | .enum vs, id, v, _, hne, _ => absurd ⟨vs, rfl⟩ hne
theorem fields_same : ∀ (fs : Fields) (v : fs.Val), TsFieldsOk fs → FieldsSendable fs v →
    Fields.enc fs v = Rust.Fields.enc fs v
  | .nil, v, _, _ => by simp [Fields.enc, Rust.Fields.enc]
  | .cons id e false false rest, (x, xs), hok, hs => by
    simp only [TsFieldsOk] at hok
    simp only [FieldsSendable] at hs
    simp only [Fields.enc, Rust.Fields.enc]
    rw [elem_same e id x hok.1 hs.1, fields_same rest xs hok.2.2.2.2 hs.2]
  | .cons id e true false rest, (x, xs), hok, hs => by
    simp only [TsFieldsOk] at hok
    simp only [FieldsSendable] at hs
    have hne : ¬ ∃ vs, e = .enum vs := fun h => hok.2.2.2.1 ⟨trivial, h⟩
    simp only [Fields.enc, Rust.Fields.enc]
    rw [array_same e id x hok.1 hne hs.1, fields_same rest xs hok.2.2.2.2 hs.2]
  | .cons id e false true rest, (none, xs), hok, hs => by
    simp only [TsFieldsOk] at hok
    simp only [FieldsSendable] at hs
    simp only [Fields.enc, Rust.Fields.enc]
    rw [fields_same rest xs hok.2.2.2.2 hs.2, recU8_same]
    rfl
  | .cons id e true true rest, (none, xs), hok, hs => by
    simp only [TsFieldsOk] at hok
    simp only [FieldsSendable] at hs
    simp only [Fields.enc, Rust.Fields.enc]
    rw [fields_same rest xs hok.2.2.2.2 hs.2, recU8_same]
    rfl
  | .cons id e false true rest, (some x, xs), hok, hs => by
    simp only [TsFieldsOk] at hok
    simp only [FieldsSendable] at hs
    simp only [Fields.enc, Rust.Fields.enc]
    rw [elem_same e id x hok.1 (hs.1 x rfl), fields_same rest xs hok.2.2.2.2 hs.2]
  | .cons id e true true rest, (some x, xs), hok, hs => by
    simp only [TsFieldsOk] at hok
    simp only [FieldsSendable] at hs
    have hne : ¬ ∃ vs, e = .enum vs := fun h => hok.2.2.2.1 ⟨trivial, h⟩
    simp only [Fields.enc, Rust.Fields.enc]
    rw [array_same e id x hok.1 hne (hs.1 x rfl), fields_same rest xs hok.2.2.2.2 hs.2]
theorem variants_same : ∀ (vs : Variants) (w : vs.Val) (i : Nat), TsVariantsOk vs →
    VariantsSendable vs w → Variants.enc vs i w = Rust.Variants.enc vs i w
  | .cons (.num n) false rest, .inl x, i, _, _ => by
    simp [Variants.enc, Rust.Variants.enc, Rust.Elem.enc, Rust.getValueBuffer]
  | .cons .bool false rest, .inl x, i, _, _ => by
    simp [Variants.enc, Rust.Variants.enc, Rust.Elem.enc, Rust.getValueBuffer, boolByte, Rust.boolByte]
  | .cons .str false rest, .inl x, i, _, _ => by
    simp [Variants.enc, Rust.Variants.enc, Rust.Elem.enc, Rust.getValueBuffer]
  | .cons (.struct fs) false rest, .inl x, i, hok, hs => by
    simp only [TsVariantsOk, TsElemOk] at hok
    simp only [VariantsSendable, ElemSendable] at hs
    rw [Variants.enc, Rust.Variants.enc, fields_same fs x hok.1 hs, Rust.Elem.enc]
    cases Rust.Fields.enc fs x <;> simp [Rust.getValueBuffer]
  | .cons (.enum _) false rest, .inl x, i, hok, _ => by simp [TsVariantsOk] at hok
  | .cons (.num n) true rest, .inl x, i, _, _ => by
    simp [Variants.enc, Rust.Variants.enc, Rust.Elem.encVec, Rust.getValueBuffer, encNumArray,
      Rust.encPlain]
  | .cons .bool true rest, .inl x, i, _, _ => by
    simp only [Variants.enc, Rust.Variants.enc, Rust.Elem.encVec, Rust.getValueBuffer, encBoolArray,
      Rust.encPlain]
    rfl
  | .cons .str true rest, .inl x, i, _, hs => by
    simp only [VariantsSendable, VecSendable] at hs
    rw [Variants.enc, Rust.Variants.enc, encStrArray_same x hs, Rust.Elem.encVec]
    cases Rust.encPrefixed 4 (fun v => .ok (utf8 v)) x <;> simp [Rust.getValueBuffer]
  | .cons (.struct _) true rest, .inl x, i, hok, _ => by simp [TsVariantsOk] at hok
  | .cons (.enum _) true rest, .inl x, i, hok, _ => by simp [TsVariantsOk] at hok
  | .cons e rep rest, .inr y, i, hok, hs => by
    have hs' : VariantsSendable rest y := by
      cases rep <;> simpa [VariantsSendable] using hs
    simp only [TsVariantsOk] at hok
    have := variants_same rest y (i + 1) hok.2.2.2 hs'
    cases e <;> cases rep <;> simpa [Variants.enc, Rust.Variants.enc] using this
end

/-! Every clean value can be encoded -/

theorem encStrArray_ok : ∀ ss : List (List Char), (∀ s ∈ ss, (utf8 s).length < 2 ^ 32) →
    ∃ b, encStrArray ss = .ok b
  | [], _ => ⟨[], rfl⟩
  | s :: ss, h => by
    obtain ⟨b, hb⟩ := encStrArray_ok ss (fun x hx => h x (by simp [hx]))
    exact ⟨_, by rw [encStrArray, if_pos (h s (by simp)), hb]; rfl⟩

theorem encSelfArray_ok {α : Type} {f : α → Res Bytes} : ∀ xs : List α,
    (∀ x ∈ xs, ∃ b, f x = .ok b) → ∃ b, encSelfArray f xs = .ok b
  | [], _ => ⟨[], rfl⟩
  | x :: xs, h => by
    obtain ⟨b, hb⟩ := h x (by simp)
    obtain ⟨c, hc⟩ := encSelfArray_ok xs (fun x hx => h x (by simp [hx]))
    exact ⟨_, by rw [encSelfArray, hb, hc]; rfl⟩

mutual
theorem elem_enc_ok : ∀ (e : Elem) (id : UInt16) (v : e.Val), TsElemOk e → TsElemClean e v →
    ∃ b, Elem.rec e id v = .ok b
  | .num n, id, v, _, _ => ⟨_, by rw [Elem.rec]⟩
  | .bool, id, v, _, _ => ⟨_, by rw [Elem.rec]⟩
  | .str, id, v, _, _ => ⟨_, by rw [Elem.rec]⟩
  | .struct fs, id, v, hok, hc => by
    simp only [TsElemOk] at hok
    simp only [TsElemClean] at hc
    obtain ⟨b, hb⟩ := fields_enc_ok fs v hok hc
    exact ⟨_, by rw [Elem.rec, hb]; rfl⟩
  | .enum vs, id, none, _, _ => ⟨_, by rw [Elem.rec]⟩
  | .enum vs, id, some w, hok, hc => by
    simp only [TsElemOk] at hok
    simp only [TsElemClean] at hc
    obtain ⟨b, hb⟩ := variants_enc_ok vs w 0 hok.1 hc
    exact ⟨_, by rw [Elem.rec, hb]; rfl⟩
theorem array_enc_ok : ∀ (e : Elem) (id : UInt16) (v : List e.Val), TsElemOk e → TsArrayClean e v →
    ∃ b, Elem.recArray e id v = .ok b
  | .num n, id, v, _, _ => ⟨_, by rw [Elem.recArray]⟩
  | .bool, id, v, _, _ => ⟨_, by rw [Elem.recArray]⟩
  | .str, id, v, _, hc => by
    simp only [TsArrayClean] at hc
    obtain ⟨b, hb⟩ := encStrArray_ok v (fun s hs => (hc s hs).2)
    exact ⟨_, by rw [Elem.recArray, hb]; rfl⟩
  | .struct fs, id, v, hok, hc => by
    simp only [TsElemOk] at hok
    simp only [TsArrayClean] at hc
    obtain ⟨b, hb⟩ := encSelfArray_ok v (fun x hx => fields_enc_ok fs x hok (hc x hx))
    exact ⟨_, by rw [Elem.recArray, hb]; rfl⟩
  | .enum vs, id, v, _, hc => by simp [TsArrayClean] at hc
theorem fields_enc_ok : ∀ (fs : Fields) (v : fs.Val), TsFieldsOk fs → TsFieldsClean fs v →
    ∃ b, Fields.enc fs v = .ok b
  | .nil, v, _, _ => ⟨_, by rw [Fields.enc]⟩
  | .cons id e false false rest, (x, xs), hok, hc => by
    simp only [TsFieldsOk] at hok
    simp only [TsFieldsClean] at hc
    obtain ⟨b, hb⟩ := elem_enc_ok e id x hok.1 hc.1
    obtain ⟨c, hcc⟩ := fields_enc_ok rest xs hok.2.2.2.2 hc.2
    exact ⟨b ++ c, by simp [Fields.enc, hb, hcc]⟩
  | .cons id e true false rest, (x, xs), hok, hc => by
    simp only [TsFieldsOk] at hok
    simp only [TsFieldsClean] at hc
    obtain ⟨b, hb⟩ := array_enc_ok e id x hok.1 hc.1
    obtain ⟨c, hcc⟩ := fields_enc_ok rest xs hok.2.2.2.2 hc.2
    exact ⟨b ++ c, by simp [Fields.enc, hb, hcc]⟩
  | .cons id e false true rest, (none, xs), hok, hc => by
    simp only [TsFieldsOk] at hok
    simp only [TsFieldsClean] at hc
    obtain ⟨c, hcc⟩ := fields_enc_ok rest xs hok.2.2.2.2 hc.2
    exact ⟨recU8 id 0 [] ++ c, by simp [Fields.enc, hcc]⟩
  | .cons id e true true rest, (none, xs), hok, hc => by
    simp only [TsFieldsOk] at hok
    simp only [TsFieldsClean] at hc
    obtain ⟨c, hcc⟩ := fields_enc_ok rest xs hok.2.2.2.2 hc.2
    exact ⟨recU8 id 0 [] ++ c, by simp [Fields.enc, hcc]⟩
  | .cons id e false true rest, (some x, xs), hok, hc => by
    simp only [TsFieldsOk] at hok
    simp only [TsFieldsClean] at hc
    obtain ⟨b, hb⟩ := elem_enc_ok e id x hok.1 (hc.1 x rfl).1
    obtain ⟨c, hcc⟩ := fields_enc_ok rest xs hok.2.2.2.2 hc.2
    exact ⟨b ++ c, by simp [Fields.enc, hb, hcc]⟩
  | .cons id e true true rest, (some x, xs), hok, hc => by
    simp only [TsFieldsOk] at hok
    simp only [TsFieldsClean] at hc
    obtain ⟨b, hb⟩ := array_enc_ok e id x hok.1 (hc.1 x rfl).1
    obtain ⟨c, hcc⟩ := fields_enc_ok rest xs hok.2.2.2.2 hc.2
    exact ⟨b ++ c, by simp [Fields.enc, hb, hcc]⟩
theorem variants_enc_ok : ∀ (vs : Variants) (w : vs.Val) (i : Nat), TsVariantsOk vs →
    TsVariantsClean vs w → ∃ b, Variants.enc vs i w = .ok b
  | .cons (.num n) false rest, .inl x, i, _, _ => ⟨_, by rw [Variants.enc]⟩
  | .cons .bool false rest, .inl x, i, _, _ => ⟨_, by rw [Variants.enc]⟩
  | .cons .str false rest, .inl x, i, _, _ => ⟨_, by rw [Variants.enc]⟩
  | .cons (.struct fs) false rest, .inl x, i, hok, hc => by
    simp only [TsVariantsOk, TsElemOk] at hok
    simp only [TsVariantsClean, TsElemClean] at hc
    obtain ⟨b, hb⟩ := fields_enc_ok fs x hok.1 hc
    exact ⟨_, by rw [Variants.enc, hb]; rfl⟩
  | .cons (.enum _) false rest, .inl x, i, hok, _ => by simp [TsVariantsOk] at hok
  | .cons (.num n) true rest, .inl x, i, _, _ => ⟨_, by rw [Variants.enc]⟩
  | .cons .bool true rest, .inl x, i, _, _ => ⟨_, by rw [Variants.enc]⟩
  | .cons .str true rest, .inl x, i, _, hc => by
    simp only [TsVariantsClean, TsArrayClean] at hc
    obtain ⟨b, hb⟩ := encStrArray_ok x (fun s hs => (hc s hs).2)
    exact ⟨_, by rw [Variants.enc, hb]; rfl⟩
  | .cons (.struct _) true rest, .inl x, i, hok, _ => by simp [TsVariantsOk] at hok
  | .cons (.enum _) true rest, .inl x, i, hok, _ => by simp [TsVariantsOk] at hok
  | .cons e rep rest, .inr y, i, hok, hc => by
    have hc' : TsVariantsClean rest y := by
      cases rep <;> simpa [TsVariantsClean] using hc
    simp only [TsVariantsOk] at hok
    obtain ⟨b, hb⟩ := variants_enc_ok rest y (i + 1) hok.2.2.2 hc'
    exact ⟨b, by cases e <;> cases rep <;> simpa [Variants.enc] using hb⟩
end

/-! Decoding arbitrary bytes -/

theorem storageNext_total (b : Bytes) : storageNext b ≠ .panic := by
  unfold storageNext
  repeat' split
  all_goals simp
  all_goals (repeat' split) <;> simp

theorem storageLoop_total (fuel : Nat) (acc : Storage) (b : Bytes) :
    storageLoop fuel acc b ≠ .panic := by
  induction fuel generalizing acc b with
  | zero => simp [storageLoop]
  | succ fuel ih =>
    rw [storageLoop]
    split
    · simp
    · split
      · exact ih _ _
      · simp
      · rename_i h; exact absurd h (storageNext_total b)

theorem getStorage_total (b : Bytes) : getStorage b ≠ .panic := storageLoop_total _ _ _

theorem decNum_total (n : Num) (b : Bytes) : decNum n b ≠ .panic := by
  unfold decNum; split <;> simp

theorem decBool_total (b : Bytes) : decBool b ≠ .panic := by
  unfold decBool; split <;> simp

theorem decNumArray_total (n : Num) (fuel : Nat) (b : Bytes) : decNumArray n fuel b ≠ .panic := by
  induction fuel generalizing b with
  | zero => simp [decNumArray]
  | succ fuel ih =>
    rw [decNumArray]
    split
    · simp
    · split
      · simp
      · rw [ne_eq, Res.bind_eq_panic]
        rintro (h | ⟨x, _, h⟩)
        · exact decNum_total _ _ h
        · rw [Res.bind_eq_panic] at h
          rcases h with h | ⟨_, _, h⟩
          · exact ih _ h
          · simp at h

/-- An accepted number array consists of exactly its items. -/
theorem decNumArray_exact (n : Num) (fuel : Nat) (b : Bytes) (xs : List (Fin (256 ^ n.size)))
    (hf : b.length ≤ fuel) (h : decNumArray n fuel b = .ok xs) : b = encNumArray n xs := by
  induction fuel generalizing b xs with
  | zero =>
    simp only [Nat.le_zero_eq, List.length_eq_zero_iff] at hf
    simp only [decNumArray, Res.ok.injEq] at h
    simp [hf, ← h, encNumArray]
  | succ fuel ih =>
    rw [decNumArray] at h
    split at h
    · rename_i he
      simp only [Res.ok.injEq] at h
      simp only [List.isEmpty_iff] at he
      simp [he, ← h, encNumArray]
    · split at h
      · simp at h
      · rename_i hl
        simp only [Res.bind_eq_ok, Res.pure_eq, Res.ok.injEq] at h
        obtain ⟨x, hx, ys, hys, rfl⟩ := h
        have hp := Rust.num_size_pos n
        have h1 := ih (b.drop n.size) ys (by simp; omega) hys
        unfold decNum at hx
        split at hx
        · rename_i hlen
          simp only [Res.ok.injEq] at hx
          subst hx
          have h2 : encNumArray n (⟨leNat (b.take n.size), by
              have := leNat_lt (b.take n.size); rwa [hlen] at this⟩ :: ys)
              = leBytes n.size (leNat (b.take n.size)) ++ encNumArray n ys := rfl
          rw [h2, ← h1]
          have h3 := leBytes_leNat (b.take n.size)
          rw [hlen] at h3
          rw [h3, List.take_append_drop]
        · simp at hx

/-- What an accepted array of length prefixed items looks like: complete items, and possibly a
last one that is shorter than announced. -/
theorem decItems_sound {α : Type} {k : Nat} (hk : 0 < k) (g : Bytes → Res α) (first : Bool)
    (fuel : Nat) (b : Bytes) (xs : List α) (hf : b.length ≤ fuel)
    (h : decItems k g first fuel b = .ok xs) :
    ∃ ps : List (α × Bytes), ps.map Prod.fst = xs ∧
      (∀ p ∈ ps, p.2.length < 256 ^ k ∧ g p.2 = .ok p.1) ∧
      (b = itemsBytes k (ps.map Prod.snd) ∨
        ∃ (qs : List (α × Bytes)) (q : α × Bytes) (n : Nat), ps = qs ++ [q] ∧ q.2.length < n ∧
          n < 256 ^ k ∧ b = itemsBytes k (qs.map Prod.snd) ++ (leBytes k n ++ q.2)) := by
  induction fuel generalizing b xs first with
  | zero =>
    simp only [Nat.le_zero_eq, List.length_eq_zero_iff] at hf
    simp only [decItems, Res.ok.injEq] at h
    exact ⟨[], by simp [← h], by simp, Or.inl (by simp [hf, itemsBytes])⟩
  | succ fuel ih =>
    rw [decItems] at h
    split at h
    · rename_i he
      simp only [Res.ok.injEq] at h
      simp only [List.isEmpty_iff] at he
      exact ⟨[], by simp [← h], by simp, Or.inl (by simp [he, itemsBytes])⟩
    · split at h
      · split at h <;> simp at h
      · rename_i hl
        simp only [Res.bind_eq_ok, Res.pure_eq, Res.ok.injEq] at h
        obtain ⟨x, hx, ys, hys, rfl⟩ := h
        have hll : (b.take k).length = k := by simp; omega
        have hn : leNat (b.take k) < 256 ^ k := by
          have := leNat_lt (b.take k); rwa [hll] at this
        have hle : leBytes k (leNat (b.take k)) = b.take k := by
          have := leBytes_leNat (b.take k); rwa [hll] at this
        generalize hlen : leNat (b.take k) = len at *
        obtain ⟨ps, hps1, hps2, hps3⟩ := ih false _ ys (by simp; omega) hys
        refine ⟨(x, (b.drop k).take len) :: ps, by simp [hps1], ?_, ?_⟩
        · intro p hp
          simp only [List.mem_cons] at hp
          rcases hp with rfl | hp
          · exact ⟨by simp; omega, hx⟩
          · exact hps2 p hp
        · by_cases hcut : (b.drop k).length < len
          · -- the item is cut: nothing is left
            have hb0 : b.drop (k + ((b.drop k).take len).length) = [] := by
              simp only [List.length_take, List.length_drop] at *
              rw [List.drop_eq_nil_iff]
              omega
            have hps0 : ps = [] := by
              rcases hps3 with h3 | ⟨qs, q, n, rfl, _, _, h3⟩
              · rw [hb0] at h3
                have := (itemsBytes_nil hk).mp h3.symm
                simpa using this
              · rw [hb0] at h3
                have := congrArg List.length h3
                simp at this
                omega
            subst hps0
            refine Or.inr ⟨[], _, len, rfl, ?_, hn, ?_⟩
            · simp only [List.length_take]; omega
            · simp only [List.map_nil, itemsBytes, List.flatMap_nil, List.nil_append]
              rw [List.take_of_length_le (Nat.le_of_lt hcut), hle, List.take_append_drop]
          · have hbl : ((b.drop k).take len).length = len := by
              rw [List.length_take]; omega
            have hsplit : b = leBytes k len ++ ((b.drop k).take len ++ b.drop (k + len)) := by
              rw [hle, ← List.drop_drop, List.take_append_drop, List.take_append_drop]
            rw [hbl] at hps3
            rcases hps3 with h3 | ⟨qs, q, n, rfl, hq, hn', h3⟩
            · left
              simp only [List.map_cons, itemsBytes, List.flatMap_cons]
              rw [hbl]
              simp only [itemsBytes] at h3
              rw [← h3, List.append_assoc]
              exact hsplit
            · right
              refine ⟨(x, (b.drop k).take len) :: qs, q, n, rfl, hq, hn', ?_⟩
              simp only [List.map_cons, itemsBytes, List.flatMap_cons]
              rw [hbl]
              simp only [itemsBytes] at h3
              rw [List.append_assoc, ← h3, List.append_assoc]
              exact hsplit

/-- When the item decoder never throws, the loop throws exactly on left over bytes after at least
one item. -/
theorem decItems_throws {α : Type} {k : Nat} (hk : 0 < k) (f : Bytes → α) (first : Bool)
    (fuel : Nat) (b : Bytes) (hf : b.length ≤ fuel) :
    decItems k (fun x => .ok (f x)) first fuel b = .panic ↔
      ∃ (xs : List Bytes) (tail : Bytes), (first = true → xs ≠ []) ∧ (∀ x ∈ xs, x.length < 256 ^ k) ∧
        0 < tail.length ∧ tail.length < k ∧ b = itemsBytes k xs ++ tail := by
  induction fuel generalizing b first with
  | zero =>
    simp only [Nat.le_zero_eq, List.length_eq_zero_iff] at hf
    simp only [decItems, reduceCtorEq, false_iff]
    rintro ⟨xs, tail, _, _, h3, _, h5⟩
    have := congrArg List.length h5
    simp [hf] at this
    omega
  | succ fuel ih =>
    rw [decItems]
    split
    · rename_i he
      simp only [List.isEmpty_iff] at he
      simp only [reduceCtorEq, false_iff]
      rintro ⟨xs, tail, _, _, h3, _, h5⟩
      have := congrArg List.length h5
      simp [he] at this
      omega
    · rename_i hne
      have hpos : 0 < b.length := by
        rw [List.length_pos_iff]; simpa using hne
      split
      · rename_i hl
        cases first with
        | true =>
          simp only [if_true, reduceCtorEq, false_iff]
          rintro ⟨xs, tail, h1, _, h3, _, h5⟩
          cases xs with
          | nil => exact h1 trivial rfl
          | cons x xs =>
            have := congrArg List.length h5
            simp [itemsBytes] at this
            omega
        | false =>
          simp only [Bool.false_eq_true, if_false, true_iff]
          exact ⟨[], b, by simp, by simp, hpos, hl, by simp [itemsBytes]⟩
      · rename_i hl
        have hll : (b.take k).length = k := by simp; omega
        have hn : leNat (b.take k) < 256 ^ k := by
          have := leNat_lt (b.take k); rwa [hll] at this
        have hle : leBytes k (leNat (b.take k)) = b.take k := by
          have := leBytes_leNat (b.take k); rwa [hll] at this
        generalize hlen : leNat (b.take k) = len at *
        have hstep : (do
            let x ← (Res.ok (f ((b.drop k).take len)) : Res α)
            let xs ← decItems k (fun x => .ok (f x)) false fuel
              (b.drop (k + ((b.drop k).take len).length))
            pure (x :: xs) : Res (List α)) = .panic ↔
            decItems k (fun x => .ok (f x)) false fuel
              (b.drop (k + ((b.drop k).take len).length)) = .panic := by
          simp only [Res.ok_bind]
          cases decItems k (fun x => .ok (f x)) false fuel
              (b.drop (k + ((b.drop k).take len).length)) <;> simp
        refine hstep.trans ?_
        rw [ih false _ (by simp; omega)]
        constructor
        · rintro ⟨xs, tail, _, h2, h3, h4, h5⟩
          have hlong : len ≤ (b.drop k).length := by
            rcases Nat.lt_or_ge (b.drop k).length len with hcut | hge
            · exfalso
              have hb0 : b.drop (k + ((b.drop k).take len).length) = [] := by
                simp only [List.length_take, List.length_drop] at *
                rw [List.drop_eq_nil_iff]
                omega
              rw [hb0] at h5
              have := congrArg List.length h5
              simp at this
              omega
            · exact hge
          have hbl : ((b.drop k).take len).length = len := by
            rw [List.length_take]; omega
          refine ⟨(b.drop k).take len :: xs, tail, by simp, ?_, h3, h4, ?_⟩
          · intro x hx
            simp only [List.mem_cons] at hx
            rcases hx with rfl | hx
            · rw [hbl]; exact hn
            · exact h2 x hx
          · have hsplit : b = leBytes k len ++ ((b.drop k).take len ++ b.drop (k + len)) := by
              rw [hle, ← List.drop_drop, List.take_append_drop, List.take_append_drop]
            rw [hbl] at h5
            simp only [itemsBytes, List.flatMap_cons]
            rw [hbl]
            simp only [itemsBytes] at h5
            rw [List.append_assoc, ← h5, List.append_assoc]
            exact hsplit
        · rintro ⟨xs, tail, h1, h2, h3, h4, h5⟩
          cases xs with
          | nil =>
            have := congrArg List.length h5
            simp [itemsBytes] at this
            omega
          | cons x xs =>
            have h6 : b = leBytes k x.length ++ (x ++ (itemsBytes k xs ++ tail)) := by
              rw [h5]; simp [itemsBytes]
            have hx := h2 x (by simp)
            have hlx : len = x.length := by
              rw [← hlen, h6, List.take_left' (by simp), leNat_leBytes_of_lt hx]
            have hbx : (b.drop k).take len = x := by
              rw [h6, List.drop_left' (by simp), hlx, List.take_left' rfl]
            refine ⟨xs, tail, by simp, fun y hy => h2 y (by simp [hy]), h3, h4, ?_⟩
            rw [hbx, h6, ← List.append_assoc, List.drop_left' (by simp)]

end Verif.Ts
