import Verif.Proofs.RustCodec
namespace Verif.Rust

open Verif Verif.Spec

/-! ### What a successfully read body looks like -/

theorem rankLen_eq {k j : Nat} (h : rankLen k = some j) :
    (j = 1 ∨ j = 2 ∨ j = 4 ∨ j = 8) ∧ k = 8 * j := by
  unfold rankLen at h
  split at h
  · simp at h; omega
  · split at h
    · simp at h; omega
    · split at h
      · simp at h; omega
      · split at h
        · simp at h; omega
        · simp at h

theorem storageNext_sound {b : Bytes} {id : UInt16} {body rest : Bytes}
    (h : storageNext b = .ok ((id, body), rest)) :
    ∃ r : WireRec, r.Ok ∧ r.id = id ∧ r.body = body ∧ b = r.bytes ++ rest := by
  unfold storageNext at h
  split at h
  · simp at h
  · rename_i h2
    simp only at h
    split at h
    · simp at h
    · rename_i rank buf2 hd
      split at h
      · simp at h
      · rename_i k hk
        split at h
        · simp at h
        · rename_i hk2
          split at h
          · simp at h
          · rename_i hlen
            simp only [Res.ok.injEq, Prod.mk.injEq] at h
            obtain ⟨⟨rfl, rfl⟩, rfl⟩ := h
            obtain ⟨hj, hrank⟩ := rankLen_eq hk
            have hlb : leNat (buf2.take k) < 256 ^ k := by
              have := leNat_lt (buf2.take k)
              rwa [List.length_take, Nat.min_eq_left (by omega)] at this
            refine ⟨⟨UInt16.ofNat (leNat (b.take 2)), k, (buf2.drop k).take (leNat (buf2.take k))⟩,
              ⟨hj, ?_⟩, rfl, rfl, ?_⟩
            · simp only [List.length_take]
              omega
            · have hb : b = b.take 2 ++ (rank :: buf2) := by rw [← hd, List.take_append_drop]
              have h2l : leNat (b.take 2) < 65536 := by
                have := leNat_lt (b.take 2)
                rwa [List.length_take, Nat.min_eq_left (by omega)] at this
              have hid : leBytes 2 (UInt16.ofNat (leNat (b.take 2))).toNat = b.take 2 := by
                have : (UInt16.ofNat (leNat (b.take 2))).toNat = leNat (b.take 2) := by
                  simp [UInt16.toNat_ofNat']; omega
                rw [this]
                have := leBytes_leNat (b.take 2)
                rwa [List.length_take, Nat.min_eq_left (by omega)] at this
              have hr : UInt8.ofNat (8 * k) = rank := by
                rw [← hrank]; simp
              have hl : leBytes k ((buf2.drop k).take (leNat (buf2.take k))).length = buf2.take k := by
                rw [List.length_take, Nat.min_eq_left (by omega)]
                have := leBytes_leNat (buf2.take k)
                rwa [List.length_take, Nat.min_eq_left (by omega)] at this
              simp only [WireRec.bytes]
              rw [hid, hr, hl]
              conv => lhs; rw [hb]
              simp only [List.append_assoc, List.take_append_drop, List.cons_append, List.nil_append]

theorem storageLoop_sound : ∀ (fuel : Nat) (acc : Storage) (b : Bytes) (s : Storage),
    b.length ≤ fuel → b ≠ [] → storageLoop fuel acc b = .ok s →
    ∃ rs : List WireRec, (∀ r ∈ rs, r.Ok) ∧ b = wire rs ∧ s = (rs.map recPair).reverse ++ acc
  | 0, acc, b, s, hf, hne, _ => absurd (List.length_eq_zero_iff.mp (by omega)) hne
  | fuel + 1, acc, b, s, hf, hne, h => by
    rw [storageLoop] at h
    split at h
    · rename_i r0 rest hn
      obtain ⟨r, hok, hid, hbody, hb⟩ := storageNext_sound (id := r0.1) (body := r0.2) (rest := rest) hn
      have hr0 : r0 = recPair r := by simp [recPair, hid, hbody]
      split at h
      · rename_i he
        simp only [Res.ok.injEq] at h
        refine ⟨[r], by simpa using hok, ?_, by simp [← h, hr0]⟩
        simp only [List.isEmpty_iff] at he
        rw [hb, he]; simp [wire]
      · rename_i he
        simp only [List.isEmpty_iff] at he
        have hl := wireRec_length r
        have hbl : b.length = r.bytes.length + rest.length := by rw [hb]; simp
        obtain ⟨rs, hrs, hw, hs⟩ := storageLoop_sound fuel (r0 :: acc) rest s (by omega) he h
        refine ⟨r :: rs, ?_, by rw [hb, hw, wire_cons], ?_⟩
        · intro x hx
          simp only [List.mem_cons] at hx
          rcases hx with rfl | hx
          · exact hok
          · exact hrs x hx
        · rw [hs, hr0]; simp
    · simp at h
    · simp at h

/-- A body is read successfully exactly if it is a sequence of well formed records. -/
theorem storageNew_sound {b : Bytes} {s : Storage} (h : storageNew b = .ok s) :
    ∃ rs : List WireRec, (∀ r ∈ rs, r.Ok) ∧ b = wire rs ∧ s = (rs.map recPair).reverse := by
  unfold storageNew at h
  split at h
  · rename_i he
    simp only [List.isEmpty_iff] at he
    simp only [Res.ok.injEq] at h
    exact ⟨[], by simp, by simp [he, wire], by simp [← h]⟩
  · rename_i he
    simp only [List.isEmpty_iff] at he
    simpa using storageLoop_sound _ _ _ _ (Nat.le_refl _) he h

/-- Records are self delimiting. -/
theorem wire_prefix : ∀ (ps rs : List WireRec), (∀ r ∈ ps, r.Ok) → (∀ r ∈ rs, r.Ok) →
    (∃ t, wire rs = wire ps ++ t) → ∃ k, ps.map recPair = (rs.map recPair).take k
  | [], _, _, _, _ => ⟨0, by simp⟩
  | p :: ps, [], _, _, ⟨t, h⟩ => by
    have : wire (p :: ps) = [] := by
      have h0 : wire ([] : List WireRec) = [] := rfl
      rw [h0] at h
      exact (List.append_eq_nil_iff.mp h.symm).1
    simp [wire_eq_nil] at this
  | p :: ps, r :: rs, hp, hr, ⟨t, h⟩ => by
    rw [wire_cons, wire_cons, List.append_assoc] at h
    have h1 := storageNext_rec r (hr r (by simp)) (wire rs)
    have h2 := storageNext_rec p (hp p (by simp)) (wire ps ++ t)
    rw [h, h2] at h1
    simp only [Res.ok.injEq, Prod.mk.injEq] at h1
    obtain ⟨⟨hid, hbody⟩, hrest⟩ := h1
    obtain ⟨k, hk⟩ := wire_prefix ps rs (fun x hx => hp x (by simp [hx]))
      (fun x hx => hr x (by simp [hx])) ⟨t, hrest.symm⟩
    exact ⟨k + 1, by simp [hk, recPair, hid, hbody]⟩

theorem wire_prefix_same : ∀ (ps rs : List WireRec), (∀ r ∈ ps, r.Ok) → (∀ r ∈ rs, r.Ok) →
    ps.length = rs.length → ∀ {t : Bytes}, wire rs = wire ps ++ t → t = []
  | [], [], _, _, _, t, h => by simpa [wire] using h.symm
  | [], _ :: _, _, _, hl, _, _ => by simp at hl
  | _ :: _, [], _, _, hl, _, _ => by simp at hl
  | p :: ps, r :: rs, hp, hr, hl, t, h => by
    rw [wire_cons, wire_cons, List.append_assoc] at h
    have h1 := storageNext_rec r (hr r (by simp)) (wire rs)
    have h2 := storageNext_rec p (hp p (by simp)) (wire ps ++ t)
    rw [h, h2] at h1
    simp only [Res.ok.injEq, Prod.mk.injEq] at h1
    exact wire_prefix_same ps rs (fun x hx => hp x (by simp [hx]))
      (fun x hx => hr x (by simp [hx])) (by simpa using hl) h1.2.symm

theorem wire_eq_of_map : ∀ {rs ss : List WireRec}, (∀ r ∈ rs, r.Ok) → (∀ r ∈ ss, r.Ok) →
    rs.length < ss.length → (∃ t, wire ss = wire rs ++ t) →
    (ss.map WireRec.id).Nodup → ∃ r ∈ ss, r.id ∉ rs.map WireRec.id := by
  intro rs ss hrs hss hlt hpre hn
  obtain ⟨k, hk⟩ := wire_prefix rs ss hrs hss hpre
  have hkl : rs.length = min k ss.length := by
    have := congrArg List.length hk
    simpa using this
  have hids : rs.map WireRec.id = (ss.map WireRec.id).take rs.length := by
    have := congrArg (List.map Prod.fst) hk
    rw [List.map_take] at this
    simp only [List.map_map] at this
    have hf : (Prod.fst ∘ recPair) = WireRec.id := rfl
    rw [hf] at this
    rw [this, hkl]
    by_cases hks : k ≤ ss.length
    · rw [Nat.min_eq_left hks]
    · omega
  refine ⟨ss[rs.length], by simp, ?_⟩
  rw [hids]
  intro hm
  have hd : ss.map WireRec.id = (ss.map WireRec.id).take rs.length ++ (ss.map WireRec.id).drop rs.length := by
    rw [List.take_append_drop]
  rw [hd, List.nodup_append] at hn
  have hin : ss[rs.length].id ∈ (ss.map WireRec.id).drop rs.length := by
    rw [List.mem_drop_iff_getElem]
    exact ⟨0, by simpa using hlt, by simp⟩
  exact hn.2.2 _ hm _ hin rfl

/-- Lookup in a list of records where all records with the id carry the same body. -/
theorem get_recPair_of_agree {rs : List WireRec} {id : UInt16} {body : Bytes}
    (hex : ∃ r ∈ rs, r.id = id) (hall : ∀ r ∈ rs, r.id = id → r.body = body) :
    Storage.get (rs.map recPair).reverse id = some body := by
  cases hg : Storage.get (rs.map recPair).reverse id with
  | none =>
    obtain ⟨r, hr, he⟩ := hex
    unfold Storage.get at hg
    rw [List.lookup_eq_none_iff] at hg
    have := hg (recPair r) (by simpa using ⟨r, hr, rfl⟩)
    simp [recPair, he] at this
  | some b =>
    unfold Storage.get at hg
    rw [List.lookup_eq_some_iff] at hg
    obtain ⟨l1, l2, hl, _⟩ := hg
    have hm : (id, b) ∈ (rs.map recPair).reverse := by rw [hl]; simp
    simp only [List.mem_reverse, List.mem_map] at hm
    obtain ⟨r, hr, he⟩ := hm
    simp only [recPair, Prod.mk.injEq] at he
    rw [← he.2, hall r hr he.1]

/-! ### A missing field -/

theorem dec_missing : ∀ (fs : Fields) (s : Storage), (∃ id ∈ fs.ids, s.get id = none) →
    ∀ v, Fields.dec fs s ≠ .ok v
  | .nil, _, ⟨_, hm, _⟩, _ => by simp [Fields.ids] at hm
  | .cons id e rep opt rest, s, ⟨i, hm, hg⟩, v => by
    intro h
    simp only [Fields.dec] at h
    simp only [Fields.ids, List.mem_cons] at hm
    split at h
    · simp at h
    · rename_i buf hb
      rcases hm with rfl | hm
      · rw [hg] at hb; simp at hb
      · simp only [Res.bind_eq_ok] at h
        obtain ⟨_, _, xs, hxs, _⟩ := h
        exact dec_missing rest s ⟨i, hm, hg⟩ xs hxs

/-! ### Sendable values can be encoded, clean values are seen unchanged -/

theorem encPrefixed_ok {α : Type} {k : Nat} {f : α → Res Bytes} {xs : List α}
    (h : ∀ x ∈ xs, ∃ b, f x = .ok b) : ∃ b, encPrefixed k f xs = .ok b := by
  induction xs with
  | nil => exact ⟨[], rfl⟩
  | cons x xs ih =>
    obtain ⟨b, hb⟩ := h x (by simp)
    obtain ⟨c, hc⟩ := ih (fun y hy => h y (by simp [hy]))
    exact ⟨_, by simp only [encPrefixed, hb, hc, Res.ok_bind, Res.pure_eq]; rfl⟩

mutual
theorem elem_enc_ok : ∀ (e : Elem) (v : e.Val), ElemSendable e v → ∃ p, Elem.enc e v = .ok p
  | .num n, v, _ => ⟨_, by simp only [Elem.enc]; rfl⟩
  | .bool, v, _ => ⟨_, by simp only [Elem.enc]; rfl⟩
  | .str, v, _ => ⟨_, by simp only [Elem.enc]; rfl⟩
  | .struct fs, v, h => by
    simp only [ElemSendable] at h
    obtain ⟨b, hb⟩ := fields_enc_ok fs v h
    exact ⟨_, by simp only [Elem.enc, hb, Res.ok_bind, Res.pure_eq]; rfl⟩
  | .enum vs, none, h => by simp [ElemSendable] at h
  | .enum vs, some w, h => by
    simp only [ElemSendable] at h
    obtain ⟨b, hb⟩ := variants_enc_ok vs w 0 h
    exact ⟨_, by simp only [Elem.enc, hb, Res.ok_bind, Res.pure_eq]; rfl⟩
theorem vec_enc_ok : ∀ (e : Elem) (v : List e.Val), VecSendable e v → ∃ p, Elem.encVec e v = .ok p
  | .num n, v, _ => ⟨_, by simp only [Elem.encVec]; rfl⟩
  | .bool, v, _ => ⟨_, by simp only [Elem.encVec]; rfl⟩
  | .str, v, _ => by
    obtain ⟨b, hb⟩ := encPrefixed_ok (k := 4) (f := fun v => Res.ok (utf8 v)) (xs := v)
      (fun x _ => ⟨_, rfl⟩)
    exact ⟨_, by simp only [Elem.encVec, hb, Res.ok_bind, Res.pure_eq]; rfl⟩
  | .struct fs, v, h => by
    simp only [VecSendable] at h
    obtain ⟨b, hb⟩ := encPrefixed_ok (k := 8) (f := Fields.enc fs) (xs := v)
      (fun x hx => fields_enc_ok fs x (h x hx))
    exact ⟨_, by simp only [Elem.encVec, hb, Res.ok_bind, Res.pure_eq]; rfl⟩
  | .enum vs, v, h => by
    simp only [VecSendable] at h
    obtain ⟨b, hb⟩ := encPrefixed_ok (k := 8) (f := fun v => match v with
      | none => Res.err
      | some w => Variants.enc vs 0 w) (xs := v)
      (fun x hx => by
        obtain ⟨w, rfl, hw⟩ := h x hx
        exact variants_enc_ok vs w 0 hw)
    exact ⟨(.u64 b.length, b), by rw [Elem.encVec]; exact Res.bind_eq_ok.mpr ⟨b, hb, rfl⟩⟩
theorem fields_enc_ok : ∀ (fs : Fields) (v : fs.Val), FieldsSendable fs v →
    ∃ b, Fields.enc fs v = .ok b
  | .nil, v, _ => ⟨[], by simp only [Fields.enc]⟩
  | .cons id e false false rest, (x, xs), h => by
    simp only [FieldsSendable] at h
    obtain ⟨p, hp⟩ := elem_enc_ok e x h.1
    obtain ⟨b, hb⟩ := fields_enc_ok rest xs h.2
    exact ⟨_, by simp only [Fields.enc, hp, hb, Res.ok_bind, Res.pure_eq]; rfl⟩
  | .cons id e true false rest, (x, xs), h => by
    simp only [FieldsSendable] at h
    obtain ⟨p, hp⟩ := vec_enc_ok e x h.1
    obtain ⟨b, hb⟩ := fields_enc_ok rest xs h.2
    exact ⟨_, by simp only [Fields.enc, hp, hb, Res.ok_bind, Res.pure_eq]; rfl⟩
  | .cons id e false true rest, (none, xs), h => by
    simp only [FieldsSendable] at h
    obtain ⟨b, hb⟩ := fields_enc_ok rest xs h.2
    exact ⟨_, by simp only [Fields.enc, hb, Res.ok_bind, Res.pure_eq]; rfl⟩
  | .cons id e true true rest, (none, xs), h => by
    simp only [FieldsSendable] at h
    obtain ⟨b, hb⟩ := fields_enc_ok rest xs h.2
    exact ⟨_, by simp only [Fields.enc, hb, Res.ok_bind, Res.pure_eq]; rfl⟩
  | .cons id e false true rest, (some x, xs), h => by
    simp only [FieldsSendable] at h
    obtain ⟨p, hp⟩ := elem_enc_ok e x (h.1 x rfl)
    obtain ⟨b, hb⟩ := fields_enc_ok rest xs h.2
    exact ⟨_, by simp only [Fields.enc, hp, hb, Res.ok_bind, Res.pure_eq]; rfl⟩
  | .cons id e true true rest, (some x, xs), h => by
    simp only [FieldsSendable] at h
    obtain ⟨p, hp⟩ := vec_enc_ok e x (h.1 x rfl)
    obtain ⟨b, hb⟩ := fields_enc_ok rest xs h.2
    exact ⟨_, by simp only [Fields.enc, hp, hb, Res.ok_bind, Res.pure_eq]; rfl⟩
theorem variants_enc_ok : ∀ (vs : Variants) (w : vs.Val) (i : Nat), VariantsSendable vs w →
    ∃ b, Variants.enc vs i w = .ok b
  | .cons e false rest, .inl x, i, h => by
    simp only [VariantsSendable] at h
    obtain ⟨p, hp⟩ := elem_enc_ok e x h
    exact ⟨_, by simp only [Variants.enc, hp, Res.ok_bind, Res.pure_eq]; rfl⟩
  | .cons e true rest, .inl x, i, h => by
    simp only [VariantsSendable] at h
    obtain ⟨p, hp⟩ := vec_enc_ok e x h
    exact ⟨_, by simp only [Variants.enc, hp, Res.ok_bind, Res.pure_eq]; rfl⟩
  | .cons e rep rest, .inr y, i, h => by
    have h' : VariantsSendable rest y := by
      cases rep <;> simpa [VariantsSendable] using h
    obtain ⟨b, hb⟩ := variants_enc_ok rest y (i + 1) h'
    exact ⟨b, by cases rep <;> simpa [Variants.enc] using hb⟩
end

mutual
theorem elem_clean : ∀ (e : Elem) (v : e.Val), ElemClean e v →
    ElemSendable e v ∧ ElemSeen e v = some v
  | .num n, v, _ => by simp [ElemSendable, ElemSeen]
  | .bool, v, _ => by simp [ElemSendable, ElemSeen]
  | .str, v, _ => by simp [ElemSendable, ElemSeen]
  | .struct fs, v, h => by
    simp only [ElemClean] at h
    simpa [ElemSendable, ElemSeen] using fields_clean fs v h
  | .enum vs, none, h => by simp [ElemClean] at h
  | .enum vs, some w, h => by
    simp only [ElemClean] at h
    obtain ⟨h1, h2⟩ := variants_clean vs w h
    simp [ElemSendable, ElemSeen, h1, h2]
theorem vec_clean : ∀ (e : Elem) (v : List e.Val), VecClean e v →
    VecSendable e v ∧ VecSeen e v = some v
  | .num n, v, _ => by simp [VecSendable, VecSeen]
  | .bool, v, _ => by simp [VecSendable, VecSeen]
  | .str, v, h => by simpa [VecClean, VecSendable, VecSeen] using h
  | .struct fs, v, h => by
    simp only [VecClean] at h
    simp only [VecSendable, VecSeen]
    exact ⟨fun x hx => (fields_clean fs x (h x hx)).1,
      allSome_some (fun x hx => (fields_clean fs x (h x hx)).2)⟩
  | .enum vs, v, h => by
    simp only [VecClean] at h
    simp only [VecSendable, VecSeen]
    refine ⟨fun x hx => ?_, allSome_some (fun x hx => ?_)⟩
    · obtain ⟨w, hw, hc⟩ := h x hx
      exact ⟨w, hw, (variants_clean vs w hc).1⟩
    · obtain ⟨w, rfl, hc⟩ := h x hx
      simp [(variants_clean vs w hc).2]
theorem fields_clean : ∀ (fs : Fields) (v : fs.Val), FieldsClean fs v →
    FieldsSendable fs v ∧ FieldsSeen fs v = some v
  | .nil, v, _ => by simp [FieldsSendable, FieldsSeen]
  | .cons id e false false rest, (x, xs), h => by
    simp only [FieldsClean] at h
    have h1 := elem_clean e x h.1
    have h2 := fields_clean rest xs h.2
    simp [FieldsSendable, FieldsSeen, h1, h2]
  | .cons id e true false rest, (x, xs), h => by
    simp only [FieldsClean] at h
    have h1 := vec_clean e x h.1
    have h2 := fields_clean rest xs h.2
    simp [FieldsSendable, FieldsSeen, h1, h2]
  | .cons id e false true rest, (none, xs), h => by
    simp only [FieldsClean] at h
    have h2 := fields_clean rest xs h.2
    simp [FieldsSendable, FieldsSeen, h2]
  | .cons id e true true rest, (none, xs), h => by
    simp only [FieldsClean] at h
    have h2 := fields_clean rest xs h.2
    simp [FieldsSendable, FieldsSeen, h2]
  | .cons id e false true rest, (some x, xs), h => by
    simp only [FieldsClean] at h
    have h1 := elem_clean e x (h.1 x rfl).1
    have h2 := fields_clean rest xs h.2
    have h3 := (h.1 x rfl).2
    refine ⟨?_, ?_⟩
    · simp only [FieldsSendable]
      exact ⟨by intro y hy; cases hy; exact h1.1, h2.1⟩
    · simp [FieldsSeen, h1, h2, h3]
  | .cons id e true true rest, (some x, xs), h => by
    simp only [FieldsClean] at h
    have h1 := vec_clean e x (h.1 x rfl).1
    have h2 := fields_clean rest xs h.2
    have h3 := (h.1 x rfl).2
    refine ⟨?_, ?_⟩
    · simp only [FieldsSendable]
      exact ⟨by intro y hy; cases hy; exact h1.1, h2.1⟩
    · simp [FieldsSeen, h1, h2, h3]
theorem variants_clean : ∀ (vs : Variants) (w : vs.Val), VariantsClean vs w →
    VariantsSendable vs w ∧ VariantsSeen vs w = some w
  | .cons e false rest, .inl x, h => by
    simp only [VariantsClean] at h
    have h1 := elem_clean e x h.1
    simp [VariantsSendable, VariantsSeen, h1, h.2]
  | .cons e true rest, .inl x, h => by
    simp only [VariantsClean] at h
    have h1 := vec_clean e x h.1
    simp [VariantsSendable, VariantsSeen, h1, h.2]
  | .cons e rep rest, .inr y, h => by
    have h' : VariantsClean rest y := by
      cases rep <;> simpa [VariantsClean] using h
    have h1 := variants_clean rest y h'
    cases rep <;> simp [VariantsSendable, VariantsSeen, h1]
end

/-- What is seen has the same optional fields present, up to present-but-empty ones. -/
theorem seen_presence : ∀ (fs : Fields) (v w : fs.Val), NoEmptyOptional fs v →
    FieldsSeen fs v = some w → SamePresence fs v w
  | .nil, _, _, _, _ => by simp [SamePresence]
  | .cons id e false false rest, (x, xs), (y, ys), hn, h => by
    simp only [NoEmptyOptional] at hn
    simp only [FieldsSeen] at h
    simp only [SamePresence]
    split at h
    · rename_i a b _ hb
      simp only [Option.some.injEq, Prod.mk.injEq] at h
      exact seen_presence rest xs ys hn (by rw [hb, h.2])
    · simp at h
  | .cons id e true false rest, (x, xs), (y, ys), hn, h => by
    simp only [NoEmptyOptional] at hn
    simp only [FieldsSeen] at h
    simp only [SamePresence]
    split at h
    · rename_i a b _ hb
      simp only [Option.some.injEq, Prod.mk.injEq] at h
      exact seen_presence rest xs ys hn (by rw [hb, h.2])
    · simp at h
  | .cons id e false true rest, (none, xs), (y, ys), hn, h => by
    simp only [NoEmptyOptional] at hn
    simp only [FieldsSeen] at h
    simp only [SamePresence]
    split at h
    · rename_i a b ha hb
      simp only [Option.some.injEq, Prod.mk.injEq] at h ha
      exact ⟨by rw [← h.1, ← ha], seen_presence rest xs ys hn.2 (by rw [hb, h.2])⟩
    · simp at h
  | .cons id e true true rest, (none, xs), (y, ys), hn, h => by
    simp only [NoEmptyOptional] at hn
    simp only [FieldsSeen] at h
    simp only [SamePresence]
    split at h
    · rename_i a b ha hb
      simp only [Option.some.injEq, Prod.mk.injEq] at h ha
      exact ⟨by rw [← h.1, ← ha], seen_presence rest xs ys hn.2 (by rw [hb, h.2])⟩
    · simp at h
  | .cons id e false true rest, (some x, xs), (y, ys), hn, h => by
    simp only [NoEmptyOptional] at hn
    have hc : ¬ NoContent e x := hn.1 x rfl
    simp only [FieldsSeen, hc, if_false] at h
    simp only [SamePresence]
    split at h
    · rename_i a b ha hb
      simp only [Option.some.injEq, Prod.mk.injEq] at h
      simp only [Option.map_eq_some_iff] at ha
      obtain ⟨z, _, hz⟩ := ha
      exact ⟨by rw [← h.1, ← hz]; simp, seen_presence rest xs ys hn.2 (by rw [hb, h.2])⟩
    · simp at h
  | .cons id e true true rest, (some x, xs), (y, ys), hn, h => by
    simp only [NoEmptyOptional] at hn
    have hc : ¬ x = [] := hn.1 x rfl
    simp only [FieldsSeen, hc, if_false] at h
    simp only [SamePresence]
    split at h
    · rename_i a b ha hb
      simp only [Option.some.injEq, Prod.mk.injEq] at h
      simp only [Option.map_eq_some_iff] at ha
      obtain ⟨z, _, hz⟩ := ha
      exact ⟨by rw [← h.1, ← hz]; simp, seen_presence rest xs ys hn.2 (by rw [hb, h.2])⟩
    · simp at h

end Verif.Rust
