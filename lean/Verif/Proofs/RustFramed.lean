import Verif.Proofs.RustCodecMore
namespace Verif.Rust

open Verif Verif.Spec

/-! ### The fuel of the decoding loops is large enough -/

theorem storageNext_rest_lt {b : Bytes} {r : UInt16 × Bytes} {rest : Bytes}
    (h : storageNext b = .ok (r, rest)) : rest.length < b.length := by
  obtain ⟨w, _, _, _, hb⟩ := storageNext_sound (id := r.1) (body := r.2) h
  have hl := wireRec_length w
  rw [hb, List.length_append]; omega

theorem storageLoop_fuel : ∀ (f g : Nat) (acc : Storage) (b : Bytes), b ≠ [] → b.length ≤ f →
    b.length ≤ g → storageLoop f acc b = storageLoop g acc b
  | 0, _, _, b, hne, hf, _ => absurd (List.length_eq_zero_iff.mp (by omega)) hne
  | _ + 1, 0, _, b, hne, _, hg => absurd (List.length_eq_zero_iff.mp (by omega)) hne
  | f + 1, g + 1, acc, b, hne, hf, hg => by
    rw [storageLoop, storageLoop]
    cases hn : storageNext b with
    | err => rfl
    | panic => rfl
    | ok p =>
      obtain ⟨r, rest⟩ := p
      have := storageNext_rest_lt hn
      simp only
      split
      · rfl
      · rename_i he
        exact storageLoop_fuel f g _ rest (by simpa using he) (by omega) (by omega)

theorem decNumVec_fuel (n : Num) : ∀ (f g : Nat) (b : Bytes), b.length ≤ f → b.length ≤ g →
    decNumVec n f b = decNumVec n g b
  | 0, 0, _, _, _ => rfl
  | 0, g + 1, b, hf, _ => by
    have : b = [] := List.length_eq_zero_iff.mp (by omega)
    simp [decNumVec, this]
  | f + 1, 0, b, _, hg => by
    have : b = [] := List.length_eq_zero_iff.mp (by omega)
    simp [decNumVec, this]
  | f + 1, g + 1, b, hf, hg => by
    have hp := num_size_pos n
    rw [decNumVec, decNumVec]
    split
    · rfl
    · split
      · rfl
      · rw [decNumVec_fuel n f g (b.drop n.size) (by simp; omega) (by simp; omega)]

theorem decPrefixed_fuel {α : Type} (k : Nat) (hk : 0 < k) (d : Bytes → Res α) :
    ∀ (f g : Nat) (b : Bytes), b.length ≤ f → b.length ≤ g →
    decPrefixed k d f b = decPrefixed k d g b
  | 0, 0, _, _, _ => rfl
  | 0, g + 1, b, hf, _ => by
    have : b = [] := List.length_eq_zero_iff.mp (by omega)
    simp [decPrefixed, this]
  | f + 1, 0, b, _, hg => by
    have : b = [] := List.length_eq_zero_iff.mp (by omega)
    simp [decPrefixed, this]
  | f + 1, g + 1, b, hf, hg => by
    rw [decPrefixed, decPrefixed]
    split
    · rfl
    · split
      · rfl
      · simp only
        rw [decPrefixed_fuel k hk d f g (b.drop _) (by simp; omega) (by simp; omega)]

/-! ### A vector is read completely -/

theorem decNum_sound {n : Num} {b : Bytes} {x : Fin (256 ^ n.size)} (h : decNum n b = .ok x) :
    n.size ≤ b.length ∧ leBytes n.size x.val = b.take n.size := by
  unfold decNum at h
  split at h
  · simp at h
  · rename_i hl
    simp only [Res.ok.injEq] at h
    refine ⟨by omega, ?_⟩
    rw [← h]
    have := leBytes_leNat (b.take n.size)
    rwa [List.length_take, Nat.min_eq_left (by omega)] at this

theorem decNumVec_sound (n : Num) : ∀ (f : Nat) (b : Bytes) (xs : List (Fin (256 ^ n.size))),
    b.length ≤ f → decNumVec n f b = .ok xs → b = xs.flatMap (fun x => leBytes n.size x.val)
  | 0, b, xs, hf, h => by
    simp only [decNumVec, Res.ok.injEq] at h
    rw [← h]
    exact List.length_eq_zero_iff.mp (by omega)
  | f + 1, b, xs, hf, h => by
    have hp := num_size_pos n
    rw [decNumVec] at h
    split at h
    · rename_i he
      simp only [Res.ok.injEq] at h
      rw [← h]; simpa using he
    · split at h
      · simp at h
      · rename_i hl
        simp only [Res.bind_eq_ok, Res.pure_eq, Res.ok.injEq] at h
        obtain ⟨x, h1, ys, h2, rfl⟩ := h
        have hs := decNum_sound h1
        have hr := decNumVec_sound n f (b.drop n.size) ys (by simp; omega) h2
        rw [List.flatMap_cons, hs.2, ← hr, List.take_append_drop]

/-- Every item of a length prefixed vector is decoded from its own bytes and nothing is left. -/
theorem decPrefixed_sound {α : Type} (k : Nat) (hk : 0 < k) (d : Bytes → Res α) :
    ∀ (f : Nat) (b : Bytes) (xs : List α), b.length ≤ f → decPrefixed k d f b = .ok xs →
    ∃ items : List Bytes, b = itemsBytes k items ∧ items.map d = xs.map Res.ok
  | 0, b, xs, hf, h => by
    simp only [decPrefixed, Res.ok.injEq] at h
    exact ⟨[], by simpa [itemsBytes] using List.length_eq_zero_iff.mp (by omega), by simp [← h]⟩
  | f + 1, b, xs, hf, h => by
    rw [decPrefixed] at h
    split at h
    · rename_i he
      simp only [Res.ok.injEq] at h
      exact ⟨[], by simpa [itemsBytes] using he, by simp [← h]⟩
    · split at h
      · simp at h
      · rename_i hl
        simp only at h
        split at h
        · simp at h
        · split at h
          · simp at h
          · rename_i hfit
            simp only [Res.bind_eq_ok, Res.pure_eq, Res.ok.injEq] at h
            obtain ⟨x, h1, ys, h2, rfl⟩ := h
            obtain ⟨items, hi, hm⟩ := decPrefixed_sound k hk d f _ ys (by simp; omega) h2
            refine ⟨(b.drop k).take (leNat (b.take k)) :: items, ?_, by simp [h1, hm]⟩
            have hlen : ((b.drop k).take (leNat (b.take k))).length = leNat (b.take k) := by
              simp; omega
            have hb : leBytes k (leNat (b.take k)) = b.take k := by
              have := leBytes_leNat (b.take k)
              rwa [List.length_take, Nat.min_eq_left (by omega)] at this
            have h0 : itemsBytes k ((b.drop k).take (leNat (b.take k)) :: items)
                = leBytes k ((b.drop k).take (leNat (b.take k))).length ++
                  (b.drop k).take (leNat (b.take k)) ++ itemsBytes k items := by
              simp [itemsBytes]
            rw [h0, hlen, hb, ← hi, List.append_assoc, ← List.drop_drop, List.take_append_drop,
              List.take_append_drop]

/-! ### Properly framed bodies cannot panic -/

theorem decNum_ne_panic (n : Num) (b : Bytes) : decNum n b ≠ .panic := by
  unfold decNum; split <;> simp

theorem decBool_ne_panic (b : Bytes) : decBool b ≠ .panic := by
  cases b <;> simp [decBool]

theorem decNumVec_ne_panic (n : Num) : ∀ (f : Nat) (b : Bytes), decNumVec n f b ≠ .panic
  | 0, _ => by simp [decNumVec]
  | f + 1, b => by
    rw [decNumVec]
    split
    · simp
    · split
      · simp
      · intro h
        rw [Res.bind_eq_panic] at h
        rcases h with h | ⟨x, _, h⟩
        · exact decNum_ne_panic _ _ h
        · rw [Res.bind_eq_panic] at h
          rcases h with h | ⟨_, _, h⟩
          · exact decNumVec_ne_panic n f _ h
          · simp at h

theorem decPrefixed_ne_panic {α : Type} (k : Nat) (d : Bytes → Res α) : ∀ (f : Nat) (b : Bytes),
    (∀ xs n tail, n < 256 ^ k → b = itemsBytes k xs ++ leBytes k n ++ tail →
      k + n < 2 ^ 64 ∧ (n ≤ tail.length → d (tail.take n) ≠ .panic)) →
    decPrefixed k d f b ≠ .panic
  | 0, _, _ => by simp [decPrefixed]
  | f + 1, b, h => by
    rw [decPrefixed]
    split
    · simp
    · split
      · simp
      · rename_i hne hlen
        have hb : b = leBytes k (leNat (b.take k)) ++ b.drop k := by
          have := leBytes_leNat (b.take k)
          rw [List.length_take, Nat.min_eq_left (by omega)] at this
          rw [this, List.take_append_drop]
        have hn : leNat (b.take k) < 256 ^ k := by
          have := leNat_lt (b.take k)
          rwa [List.length_take, Nat.min_eq_left (by omega)] at this
        obtain ⟨h1, h2⟩ := h [] (leNat (b.take k)) (b.drop k) hn (by
          simp only [itemsBytes, List.flatMap_nil, List.nil_append]; exact hb)
        simp only
        rw [if_neg (by omega)]
        split
        · simp
        · rename_i hfit
          intro hp
          rw [Res.bind_eq_panic] at hp
          rcases hp with hp | ⟨x, _, hp⟩
          · exact h2 (by simp; omega) hp
          · rw [Res.bind_eq_panic] at hp
            rcases hp with hp | ⟨_, _, hp⟩
            · refine decPrefixed_ne_panic k d f _ ?_ hp
              intro xs n tail hn' hdrop
              refine h ((b.drop k).take (leNat (b.take k)) :: xs) n tail hn' ?_
              have hl : ((b.drop k).take (leNat (b.take k))).length = leNat (b.take k) := by
                simp; omega
              simp only [itemsBytes, List.flatMap_cons] at hdrop ⊢
              rw [hl, List.append_assoc, List.append_assoc, List.append_assoc]
              rw [List.append_assoc] at hdrop
              rw [← hdrop, ← List.drop_drop, List.take_append_drop]
              exact hb
            · simp at hp

mutual
theorem elem_framed : ∀ (e : Elem) (b : Bytes), ElemFramed e b → Elem.dec e b ≠ .panic
  | .num n, b, _ => by simpa [Elem.dec] using decNum_ne_panic n b
  | .bool, b, _ => by simpa [Elem.dec] using decBool_ne_panic b
  | .str, b, _ => by simp [Elem.dec]
  | .struct fs, b, h => by
    simp only [ElemFramed] at h
    obtain ⟨rs, hok, rfl, hf⟩ := h
    simp only [Elem.dec, storageNew_wire rs hok, Res.ok_bind]
    exact fields_framed fs rs hf
  | .enum vs, b, h => by
    simp only [ElemFramed] at h
    rw [Elem.dec]
    split
    · simp
    · intro hp
      rw [Res.bind_eq_panic] at hp
      rcases hp with hp | ⟨_, _, hp⟩
      · exact variants_framed vs _ _ (h (by omega)) hp
      · simp at hp
theorem vec_framed : ∀ (e : Elem) (b : Bytes), VecFramed e b → Elem.decVec e b ≠ .panic
  | .num n, b, _ => by simpa [Elem.decVec] using decNumVec_ne_panic n _ b
  | .bool, b, _ => by simp [Elem.decVec]
  | .str, b, _ => by
    rw [Elem.decVec]
    apply decPrefixed_ne_panic
    intro xs n tail hn _
    exact ⟨by omega, by simp⟩
  | .struct fs, b, h => by
    simp only [VecFramed] at h
    rw [Elem.decVec]
    apply decPrefixed_ne_panic
    intro xs n tail hn hb
    obtain ⟨h1, h2⟩ := h xs n tail (by simpa using hn) hb
    refine ⟨h1, fun hle => ?_⟩
    obtain ⟨rs, hok, hw, hf⟩ := h2 hle
    simp only [hw, storageNew_wire rs hok, Res.ok_bind]
    exact fields_framed fs rs hf
  | .enum vs, b, h => by
    simp only [VecFramed] at h
    rw [Elem.decVec]
    apply decPrefixed_ne_panic
    intro xs n tail hn hb
    obtain ⟨h1, h2⟩ := h xs n tail (by simpa using hn) hb
    refine ⟨h1, fun hle => ?_⟩
    split
    · simp
    · rename_i hl
      intro hp
      rw [Res.bind_eq_panic] at hp
      rcases hp with hp | ⟨_, _, hp⟩
      · exact variants_framed vs _ _ (h2 hle (by simp at hl; omega)) hp
      · simp at hp
theorem fields_framed : ∀ (fs : Fields) (rs : List WireRec), FieldsFramed fs rs →
    Fields.dec fs (rs.map recPair).reverse ≠ .panic
  | .nil, rs, _ => by simp [Fields.dec]
  | .cons id e rep opt rest, rs, h => by
    rw [Fields.dec]
    split
    · simp
    · rename_i buf hg
      have hm : ∃ r ∈ rs, r.id = id ∧ r.body = buf := by
        unfold Storage.get at hg
        rw [List.lookup_eq_some_iff] at hg
        obtain ⟨l1, l2, hl, _⟩ := hg
        have hm : (id, buf) ∈ (rs.map recPair).reverse := by rw [hl]; simp
        simp only [List.mem_reverse, List.mem_map] at hm
        obtain ⟨r, hr, he⟩ := hm
        simp only [recPair, Prod.mk.injEq] at he
        exact ⟨r, hr, he.1, he.2⟩
      obtain ⟨r, hr, hid, rfl⟩ := hm
      have hrest : FieldsFramed rest rs := by
        cases rep <;> simp only [FieldsFramed] at h <;> exact h.2
      intro hp
      rw [Res.bind_eq_panic] at hp
      rcases hp with hp | ⟨_, _, hp⟩
      · revert hp
        cases rep <;> cases opt <;> simp only [FieldsFramed] at h
        · exact elem_framed e _ (h.1 r hr hid)
        · have := elem_framed e _ (h.1 r hr hid)
          simp only
          split
          · simp
          · intro hp
            rw [Res.bind_eq_panic] at hp
            rcases hp with hp | ⟨_, _, hp⟩
            · exact this hp
            · simp at hp
        · exact vec_framed e _ (h.1 r hr hid)
        · have := vec_framed e _ (h.1 r hr hid)
          simp only
          split
          · simp
          · intro hp
            rw [Res.bind_eq_panic] at hp
            rcases hp with hp | ⟨_, _, hp⟩
            · exact this hp
            · simp at hp
      · rw [Res.bind_eq_panic] at hp
        rcases hp with hp | ⟨_, _, hp⟩
        · exact fields_framed rest rs hrest hp
        · simp at hp
theorem variants_framed : ∀ (vs : Variants) (i : Nat) (b : Bytes), VariantsFramed vs i b →
    Variants.dec vs i b ≠ .panic
  | .nil, _, _, _ => by simp [Variants.dec]
  | .cons e false rest, 0, b, h => by
    simp only [VariantsFramed] at h
    rw [Variants.dec]
    intro hp
    rw [Res.bind_eq_panic] at hp
    rcases hp with hp | ⟨_, _, hp⟩
    · exact elem_framed e b h hp
    · simp at hp
  | .cons e true rest, 0, b, h => by
    simp only [VariantsFramed] at h
    rw [Variants.dec]
    intro hp
    rw [Res.bind_eq_panic] at hp
    rcases hp with hp | ⟨_, _, hp⟩
    · exact vec_framed e b h hp
    · simp at hp
  | .cons e rep rest, i + 1, b, h => by
    have h' : VariantsFramed rest i b := by
      cases rep <;> simpa [VariantsFramed] using h
    have : Variants.dec (.cons e rep rest) (i + 1) b
        = (do let y ← Variants.dec rest i b; pure (.inr y)) := by
      cases rep <;> rw [Variants.dec]
    rw [this]
    intro hp
    rw [Res.bind_eq_panic] at hp
    rcases hp with hp | ⟨_, _, hp⟩
    · exact variants_framed rest i b h' hp
    · simp at hp
end

end Verif.Rust
