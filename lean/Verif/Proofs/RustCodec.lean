import Verif.Proofs.RustStorage
namespace Verif.Rust

open Verif Verif.Spec

/-- An optional expected value as a decoder outcome. -/
def toRes {α : Type} : Option α → Res α
  | some a => .ok a
  | none => .err

@[simp] theorem toRes_some {α : Type} (a : α) : toRes (some a) = .ok a := rfl
@[simp] theorem toRes_none {α : Type} : toRes (none : Option α) = .err := rfl

/-- The declared size of a record describes its body. -/
def SizeOk (sz : ESize) (b : Bytes) : Prop :=
  (sz = .u8 b.length ∧ b.length < 256) ∨ sz = .u64 b.length

theorem num_size_pos (n : Num) : 0 < n.size := by cases n <;> decide

theorem decNum_enc (n : Num) (v : Fin (256 ^ n.size)) (rest : Bytes) :
    decNum n (leBytes n.size v.val ++ rest) = .ok v := by
  unfold decNum
  rw [dif_neg (by simp)]
  congr 1
  apply Fin.ext
  simp only
  rw [List.take_left' (by simp), leNat_leBytes_of_lt v.isLt]

theorem length_encPlain_num (n : Num) (vs : List (Fin (256 ^ n.size))) :
    (encPlain (fun v => leBytes n.size v.val) vs).length = vs.length * n.size := by
  induction vs with
  | nil => simp [encPlain]
  | cons v vs ih =>
    simp only [encPlain, List.flatMap_cons, List.length_append, length_leBytes, List.length_cons] at ih ⊢
    rw [ih, Nat.succ_mul]; omega

theorem decNumVec_enc (n : Num) (vs : List (Fin (256 ^ n.size))) (fuel : Nat)
    (hf : vs.length ≤ fuel) :
    decNumVec n fuel (encPlain (fun v => leBytes n.size v.val) vs) = .ok vs := by
  induction vs generalizing fuel with
  | nil => cases fuel <;> simp [decNumVec, encPlain]
  | cons v vs ih =>
    cases fuel with
    | zero => simp at hf
    | succ fuel =>
      have hp := num_size_pos n
      have he : encPlain (fun v => leBytes n.size v.val) (v :: vs)
          = leBytes n.size v.val ++ encPlain (fun v => leBytes n.size v.val) vs := rfl
      rw [he, decNumVec]
      have hne : (leBytes n.size v.val ++ encPlain (fun v => leBytes n.size v.val) vs).isEmpty = false := by
        rw [List.isEmpty_eq_false_iff]
        intro h
        have := congrArg List.length h
        simp at this
        omega
      rw [hne]
      simp only [Bool.false_eq_true, if_false]
      rw [if_neg (by simp), decNum_enc, List.drop_left' (by simp), ih fuel (by simpa using hf)]
      simp

theorem decBool_enc (b : Bool) : decBool (boolByte b) = .ok b := by cases b <;> rfl

theorem decBoolVec_enc (bs : List Bool) : decBoolVec (encPlain boolByte bs) = bs := by
  induction bs with
  | nil => rfl
  | cons b bs ih =>
    simp only [encPlain, decBoolVec, List.flatMap_cons, List.map_append] at ih ⊢
    rw [ih]
    cases b <;> rfl

theorem length_encPlain_bool (bs : List Bool) : (encPlain boolByte bs).length = bs.length := by
  induction bs with
  | nil => rfl
  | cons b bs ih =>
    simp only [encPlain, List.flatMap_cons, List.length_append] at ih ⊢
    rw [ih]; simp [boolByte]; omega

theorem encPrefixed_nil_iff {α : Type} {k : Nat} (hk : 0 < k) {f : α → Res Bytes} {xs : List α}
    {b : Bytes} (h : encPrefixed k f xs = .ok b) : b = [] ↔ xs = [] := by
  cases xs with
  | nil => simp [encPrefixed] at h; simp [h]
  | cons x xs =>
    simp only [encPrefixed, Res.bind_eq_ok] at h
    obtain ⟨b1, _, b2, _, h3⟩ := h
    simp only [Res.pure_eq, Res.ok.injEq] at h3
    constructor
    · intro hb
      have := congrArg List.length (h3.trans hb)
      simp at this
      omega
    · intro hx; simp at hx

theorem decPrefixed_enc {α : Type} {k : Nat} (hk : 0 < k) {f : α → Res Bytes}
    {g : Bytes → Res α} {seen : α → Option α} {xs : List α} {b : Bytes}
    (h : encPrefixed k f xs = .ok b) (hb : b.length < 2 ^ 64)
    (hitem : ∀ x ∈ xs, ∀ bx, f x = .ok bx → bx.length ≤ b.length →
      bx.length < 256 ^ k ∧ g bx = toRes (seen x))
    (fuel : Nat) (hf : b.length ≤ fuel) :
    decPrefixed k g fuel b = toRes (allSome seen xs) := by
  induction xs generalizing b fuel with
  | nil =>
    simp [encPrefixed] at h
    subst h
    cases fuel <;> simp [decPrefixed, allSome]
  | cons x xs ih =>
    simp only [encPrefixed, Res.bind_eq_ok] at h
    obtain ⟨b1, h1, b2, h2, h3⟩ := h
    simp only [Res.pure_eq, Res.ok.injEq] at h3
    have hlen : b.length = k + b1.length + b2.length := by rw [← h3]; simp; omega
    obtain ⟨hb1, hg⟩ := hitem x (by simp) b1 h1 (by omega)
    cases fuel with
    | zero => omega
    | succ fuel =>
      have hne : b.isEmpty = false := by
        rw [List.isEmpty_eq_false_iff]; intro h0; rw [h0] at hlen; simp at hlen; omega
      have ht : b.take k = leBytes k b1.length := by
        rw [← h3, List.append_assoc, List.take_left' (by simp)]
      have hd : b.drop k = b1 ++ b2 := by
        rw [← h3, List.append_assoc, List.drop_left' (by simp)]
      have hd2 : b.drop (k + b1.length) = b2 := by
        rw [← h3, List.drop_left' (by simp)]
      rw [decPrefixed, hne]
      simp only [Bool.false_eq_true, if_false]
      rw [if_neg (by omega), ht, leNat_leBytes_of_lt hb1, if_neg (by omega), if_neg (by omega)]
      rw [hd, hd2, List.take_left' rfl, hg]
      have hrec := ih (b := b2) h2 (by omega)
        (fun y hy by' hby hle => hitem y (by simp [hy]) by' hby (by omega)) fuel (by omega)
      rw [hrec, allSome]
      cases seen x with
      | none => simp
      | some y =>
        cases allSome seen xs with
        | none => simp
        | some ys => simp

theorem allSome_some {α : Type} {f : α → Option α} {xs : List α} (h : ∀ x ∈ xs, f x = some x) :
    allSome f xs = some xs := by
  induction xs with
  | nil => rfl
  | cons x xs ih =>
    rw [allSome, h x (by simp), ih (fun y hy => h y (by simp [hy]))]

theorem getValueBuffer_rec (id : UInt16) (sz : ESize) (b : Bytes) (h : SizeOk sz b)
    (hb : b.length < 2 ^ 64) :
    ∃ r : WireRec, getValueBuffer (some id) sz b = r.bytes ∧ r.Ok ∧ r.id = id ∧ r.body = b := by
  rcases h with ⟨rfl, hl⟩ | rfl
  · refine ⟨⟨id, 1, b⟩, ?_, ⟨by simp, by simpa using hl⟩, rfl, rfl⟩
    simp [getValueBuffer, ESize.bytes, WireRec.bytes, leBytes]
  · refine ⟨⟨id, 8, b⟩, ?_, ⟨by simp, by simpa using hb⟩, rfl, rfl⟩
    simp [getValueBuffer, ESize.bytes, WireRec.bytes, leBytes]

theorem fieldsOk_nodup : ∀ {fs : Fields}, FieldsOk fs → fs.ids.Nodup
  | .nil, _ => by simp [Fields.ids]
  | .cons id e rep opt rest, h => by
    simp only [FieldsOk] at h
    simp only [Fields.ids, List.nodup_cons]
    exact ⟨h.2.1, fieldsOk_nodup h.2.2.2⟩

theorem dec_wire (fs : Fields) (rs : List WireRec) (hok : ∀ r ∈ rs, r.Ok)
    (hn : (rs.map WireRec.id).Nodup) (x : Res fs.Val)
    (h : ∀ s : Storage, (∀ r ∈ rs, s.get r.id = some r.body) → Fields.dec fs s = x) :
    (do let s ← storageNew (wire rs); Fields.dec fs s) = x := by
  rw [storageNew_wire rs hok]
  simp only [Res.ok_bind]
  exact h _ (fun r hr => get_recPair_of_mem hn hr)

theorem numElem_nocontent {n : Num} (v : (Elem.num n).Val) : ¬ NoContent (.num n) v := by
  simp [NoContent]

theorem struct_nocontent {fs : Fields} (v : (Elem.struct fs).Val) :
    NoContent (.struct fs) v ↔ fs.ids = [] := by
  cases fs <;> simp [NoContent, Fields.ids]

mutual
theorem elem_rt : ∀ (e : Elem) (v : e.Val) (sz : ESize) (b : Bytes), ElemOk e → ElemSendable e v →
    Elem.enc e v = .ok (sz, b) → b.length < 2 ^ 64 →
    SizeOk sz b ∧ (b = [] ↔ NoContent e v) ∧ Elem.dec e b = toRes (ElemSeen e v)
  | .num n, v, sz, b, _, _, he, hb => by
    simp only [Elem.enc, Res.ok.injEq, Prod.mk.injEq] at he
    obtain ⟨rfl, rfl⟩ := he
    have hp := num_size_pos n
    refine ⟨Or.inl ⟨by simp, ?_⟩, ?_, ?_⟩
    · simp; cases n <;> decide
    · simp only [NoContent, iff_false]
      intro h
      have := congrArg List.length h
      simp at this; omega
    · have := decNum_enc n v []
      simp only [List.append_nil] at this
      simpa [Elem.dec, ElemSeen] using this
  | .bool, v, sz, b, _, _, he, hb => by
    simp only [Elem.enc, Res.ok.injEq, Prod.mk.injEq] at he
    obtain ⟨rfl, rfl⟩ := he
    refine ⟨Or.inl ⟨by simp [boolByte], by simp [boolByte]⟩, by simp [NoContent, boolByte], ?_⟩
    simpa [Elem.dec, ElemSeen] using decBool_enc v
  | .str, v, sz, b, _, _, he, hb => by
    simp only [Elem.enc, Res.ok.injEq, Prod.mk.injEq] at he
    obtain ⟨rfl, rfl⟩ := he
    refine ⟨Or.inr rfl, ?_, ?_⟩
    · simpa [NoContent] using utf8_eq_nil
    · simp [Elem.dec, ElemSeen, lossy_utf8]
  | .struct fs, v, sz, b, hok, hs, he, hb => by
    simp only [Elem.enc, Res.bind_eq_ok, Res.pure_eq, Res.ok.injEq, Prod.mk.injEq] at he
    obtain ⟨buf, h1, rfl, rfl⟩ := he
    simp only [ElemOk] at hok
    simp only [ElemSendable] at hs
    obtain ⟨rs, rfl, hro, hids, hdec⟩ := fields_rt fs v buf hok hs h1 hb
    refine ⟨Or.inr rfl, ?_, ?_⟩
    · rw [wire_eq_nil, struct_nocontent, ← hids]; simp
    · have hn : (rs.map WireRec.id).Nodup := by rw [hids]; exact fieldsOk_nodup hok
      simpa [Elem.dec, ElemSeen] using dec_wire fs rs hro hn _ hdec
  | .enum vs, none, sz, b, _, hs, _, _ => by simp [ElemSendable] at hs
  | .enum vs, some w, sz, b, hok, hs, he, hb => by
    simp only [Elem.enc, Res.bind_eq_ok, Res.pure_eq, Res.ok.injEq, Prod.mk.injEq] at he
    obtain ⟨buf, h1, rfl, rfl⟩ := he
    simp only [ElemOk] at hok
    simp only [ElemSendable] at hs
    obtain ⟨j, pl, rfl, hj, hemp, hdec⟩ := variants_rt vs w 0 buf hok.1 hs h1 hb (by omega)
    refine ⟨Or.inr rfl, ?_, ?_⟩
    · simp only [NoContent, iff_false]
      intro h
      have := congrArg List.length h
      simp at this
    · by_cases hp : pl = []
      · simp [Elem.dec, ElemSeen, hp, hemp hp]
      · have hl : ¬ (leBytes 2 (0 + j) ++ pl).length ≤ 2 := by
          have := List.length_pos_iff.mpr hp
          simp; omega
        rw [Elem.dec, if_neg hl, List.take_left' (by simp), List.drop_left' (by simp),
          leNat_leBytes_of_lt (by omega)]
        simp only [Nat.zero_add, hdec hp, ElemSeen]
        cases VariantsSeen vs w <;> simp
theorem vec_rt : ∀ (e : Elem) (v : List e.Val) (sz : ESize) (b : Bytes), ElemOk e →
    VecSendable e v → Elem.encVec e v = .ok (sz, b) → b.length < 2 ^ 64 →
    SizeOk sz b ∧ (b = [] ↔ v = []) ∧ Elem.decVec e b = toRes (VecSeen e v)
  | .num n, v, sz, b, _, _, he, hb => by
    simp only [Elem.encVec, Res.ok.injEq, Prod.mk.injEq] at he
    obtain ⟨rfl, rfl⟩ := he
    have hp := num_size_pos n
    refine ⟨Or.inr (by rw [length_encPlain_num]), ?_, ?_⟩
    · rw [← List.length_eq_zero_iff, length_encPlain_num, Nat.mul_eq_zero, List.length_eq_zero_iff]
      constructor
      · rintro (h | h)
        · exact h
        · omega
      · exact Or.inl
    · simp only [Elem.decVec, VecSeen, toRes_some]
      apply decNumVec_enc
      rw [length_encPlain_num]
      exact Nat.le_mul_of_pos_right _ hp
  | .bool, v, sz, b, _, _, he, hb => by
    simp only [Elem.encVec, Res.ok.injEq, Prod.mk.injEq] at he
    obtain ⟨rfl, rfl⟩ := he
    refine ⟨Or.inr ?_, ?_, ?_⟩
    · have := length_encPlain_bool v
      simp [this]
    · rw [← List.length_eq_zero_iff, length_encPlain_bool, List.length_eq_zero_iff]
    · simpa [Elem.decVec, VecSeen] using decBoolVec_enc v
  | .str, v, sz, b, _, hs, he, hb => by
    simp only [Elem.encVec, Res.bind_eq_ok, Res.pure_eq, Res.ok.injEq, Prod.mk.injEq] at he
    obtain ⟨buf, h1, rfl, rfl⟩ := he
    simp only [VecSendable] at hs
    refine ⟨Or.inr rfl, encPrefixed_nil_iff (by omega) h1, ?_⟩
    simp only [Elem.decVec, VecSeen]
    rw [decPrefixed_enc (seen := some) (by omega) h1 hb _ _ (Nat.le_refl _),
      allSome_some (fun _ _ => rfl)]
    intro x hx bx hbx _
    simp only [Res.ok.injEq] at hbx
    subst hbx
    exact ⟨hs x hx, by simp [lossy_utf8]⟩
  | .struct fs, v, sz, b, hok, hs, he, hb => by
    simp only [Elem.encVec, Res.bind_eq_ok, Res.pure_eq, Res.ok.injEq, Prod.mk.injEq] at he
    obtain ⟨buf, h1, rfl, rfl⟩ := he
    simp only [VecSendable] at hs
    simp only [ElemOk] at hok
    refine ⟨Or.inr rfl, encPrefixed_nil_iff (by omega) h1, ?_⟩
    simp only [Elem.decVec, VecSeen]
    refine decPrefixed_enc (by omega) h1 hb ?_ _ (Nat.le_refl _)
    intro x hx bx hbx hle
    obtain ⟨rs, rfl, hro, hids, hdec⟩ := fields_rt fs x bx hok (hs x hx) hbx (by omega)
    have hn : (rs.map WireRec.id).Nodup := by rw [hids]; exact fieldsOk_nodup hok
    exact ⟨by omega, dec_wire fs rs hro hn _ hdec⟩
  | .enum vs, v, sz, b, hok, hs, he, hb => by
    simp only [Elem.encVec, Res.bind_eq_ok, Res.pure_eq, Res.ok.injEq, Prod.mk.injEq] at he
    obtain ⟨buf, h1, rfl, rfl⟩ := he
    simp only [VecSendable] at hs
    simp only [ElemOk] at hok
    refine ⟨Or.inr rfl, encPrefixed_nil_iff (by omega) h1, ?_⟩
    simp only [Elem.decVec, VecSeen]
    refine decPrefixed_enc (by omega) h1 hb ?_ _ (Nat.le_refl _)
    intro x hx bx hbx hle
    obtain ⟨w, rfl, hw⟩ := hs x hx
    simp only at hbx
    obtain ⟨j, pl, rfl, hj, hemp, hdec⟩ := variants_rt vs w 0 bx hok.1 hw hbx (by omega) (by omega)
    refine ⟨by omega, ?_⟩
    by_cases hp : pl = []
    · simp [hp, hemp hp]
    · have hl : ¬ (leBytes 2 (0 + j) ++ pl).length ≤ 2 := by
        have := List.length_pos_iff.mpr hp
        simp; omega
      rw [if_neg hl, List.take_left' (by simp), List.drop_left' (by simp),
        leNat_leBytes_of_lt (by omega)]
      simp only [Nat.zero_add, hdec hp]
      cases VariantsSeen vs w <;> simp
theorem fields_rt : ∀ (fs : Fields) (v : fs.Val) (b : Bytes), FieldsOk fs → FieldsSendable fs v →
    Fields.enc fs v = .ok b → b.length < 2 ^ 64 →
    ∃ rs : List WireRec, b = wire rs ∧ (∀ r ∈ rs, r.Ok) ∧ rs.map WireRec.id = fs.ids ∧
      ∀ s : Storage, (∀ r ∈ rs, s.get r.id = some r.body) →
        Fields.dec fs s = toRes (FieldsSeen fs v)
  | .nil, v, b, _, _, he, _ => by
    simp [Fields.enc] at he
    exact ⟨[], by simp [wire, he], by simp, by simp [Fields.ids], fun s _ => by
      simp [Fields.dec, FieldsSeen]⟩
  | .cons id e false false rest, (x, xs), b, hok, hs, he, hb => by
    simp only [Fields.enc, Res.bind_eq_ok, Res.pure_eq, Res.ok.injEq] at he
    obtain ⟨hd, ⟨⟨sz, bx⟩, h1, rfl⟩, tl, h2, rfl⟩ := he
    simp only [FieldsOk] at hok
    simp only [FieldsSendable] at hs
    have hl : bx.length < 2 ^ 64 ∧ tl.length < 2 ^ 64 := by
      simp [getValueBuffer] at hb; omega
    obtain ⟨hsz, _, hdx⟩ := elem_rt e x sz bx hok.1 hs.1 h1 hl.1
    obtain ⟨r, hr, hrok, rfl, rfl⟩ := getValueBuffer_rec id sz bx hsz hl.1
    obtain ⟨rs, rfl, hro, hids, hdec⟩ := fields_rt rest xs tl hok.2.2.2 hs.2 h2 hl.2
    refine ⟨r :: rs, by rw [wire_cons, hr], by simpa [hrok] using hro, by simp [Fields.ids, hids], ?_⟩
    intro s hsg
    have hg := hsg r (by simp)
    simp only [Fields.dec, hg, hdx, hdec s (fun r' hr' => hsg r' (by simp [hr'])), FieldsSeen]
    cases ElemSeen e x <;> cases FieldsSeen rest xs <;> simp
  | .cons id e true false rest, (x, xs), b, hok, hs, he, hb => by
    simp only [Fields.enc, Res.bind_eq_ok, Res.pure_eq, Res.ok.injEq] at he
    obtain ⟨hd, ⟨⟨sz, bx⟩, h1, rfl⟩, tl, h2, rfl⟩ := he
    simp only [FieldsOk] at hok
    simp only [FieldsSendable] at hs
    have hl : bx.length < 2 ^ 64 ∧ tl.length < 2 ^ 64 := by
      simp [getValueBuffer] at hb; omega
    obtain ⟨hsz, _, hdx⟩ := vec_rt e x sz bx hok.1 hs.1 h1 hl.1
    obtain ⟨r, hr, hrok, rfl, rfl⟩ := getValueBuffer_rec id sz bx hsz hl.1
    obtain ⟨rs, rfl, hro, hids, hdec⟩ := fields_rt rest xs tl hok.2.2.2 hs.2 h2 hl.2
    refine ⟨r :: rs, by rw [wire_cons, hr], by simpa [hrok] using hro, by simp [Fields.ids, hids], ?_⟩
    intro s hsg
    have hg := hsg r (by simp)
    simp only [Fields.dec, hg, hdx, hdec s (fun r' hr' => hsg r' (by simp [hr'])), FieldsSeen]
    cases VecSeen e x <;> cases FieldsSeen rest xs <;> simp
  | .cons id e false true rest, (none, xs), b, hok, hs, he, hb => by
    simp only [Fields.enc, Res.bind_eq_ok, Res.pure_eq, Res.ok.injEq] at he
    obtain ⟨hd, rfl, tl, h2, rfl⟩ := he
    simp only [FieldsOk] at hok
    simp only [FieldsSendable] at hs
    have hl : tl.length < 2 ^ 64 := by
      simp at hb; omega
    obtain ⟨r, hr, hrok, rfl, hbody⟩ := getValueBuffer_rec id (.u8 0) [] (Or.inl ⟨rfl, by simp⟩) (by simp)
    obtain ⟨rs, rfl, hro, hids, hdec⟩ := fields_rt rest xs tl hok.2.2.2 hs.2 h2 hl
    refine ⟨r :: rs, by rw [wire_cons, ← hr, getEmptyBufferVal], by simpa [hrok] using hro,
      by simp [Fields.ids, hids], ?_⟩
    intro s hsg
    have hg := hsg r (by simp)
    simp only [Fields.dec, hg, hbody, hdec s (fun r' hr' => hsg r' (by simp [hr'])), FieldsSeen]
    cases FieldsSeen rest xs <;> simp
  | .cons id e true true rest, (none, xs), b, hok, hs, he, hb => by
    simp only [Fields.enc, Res.bind_eq_ok, Res.pure_eq, Res.ok.injEq] at he
    obtain ⟨hd, rfl, tl, h2, rfl⟩ := he
    simp only [FieldsOk] at hok
    simp only [FieldsSendable] at hs
    have hl : tl.length < 2 ^ 64 := by
      simp at hb; omega
    obtain ⟨r, hr, hrok, rfl, hbody⟩ := getValueBuffer_rec id (.u8 0) [] (Or.inl ⟨rfl, by simp⟩) (by simp)
    obtain ⟨rs, rfl, hro, hids, hdec⟩ := fields_rt rest xs tl hok.2.2.2 hs.2 h2 hl
    refine ⟨r :: rs, by rw [wire_cons, ← hr, getEmptyBufferVal], by simpa [hrok] using hro,
      by simp [Fields.ids, hids], ?_⟩
    intro s hsg
    have hg := hsg r (by simp)
    simp only [Fields.dec, hg, hbody, hdec s (fun r' hr' => hsg r' (by simp [hr'])), FieldsSeen]
    cases FieldsSeen rest xs <;> simp
  | .cons id e false true rest, (some x, xs), b, hok, hs, he, hb => by
    simp only [Fields.enc, Res.bind_eq_ok, Res.pure_eq, Res.ok.injEq] at he
    obtain ⟨hd, ⟨⟨sz, bx⟩, h1, rfl⟩, tl, h2, rfl⟩ := he
    simp only [FieldsOk] at hok
    simp only [FieldsSendable] at hs
    have hl : bx.length < 2 ^ 64 ∧ tl.length < 2 ^ 64 := by
      simp [getValueBuffer] at hb; omega
    obtain ⟨hsz, hnc, hdx⟩ := elem_rt e x sz bx hok.1 (hs.1 x rfl) h1 hl.1
    obtain ⟨r, hr, hrok, rfl, rfl⟩ := getValueBuffer_rec id sz bx hsz hl.1
    obtain ⟨rs, rfl, hro, hids, hdec⟩ := fields_rt rest xs tl hok.2.2.2 hs.2 h2 hl.2
    refine ⟨r :: rs, by rw [wire_cons, hr], by simpa [hrok] using hro, by simp [Fields.ids, hids], ?_⟩
    intro s hsg
    have hg := hsg r (by simp)
    simp only [Fields.dec, hg, hdx, hdec s (fun r' hr' => hsg r' (by simp [hr'])), FieldsSeen]
    by_cases hc : NoContent e x
    · simp only [hnc.mpr hc, hc]
      cases FieldsSeen rest xs <;> simp
    · have hne : r.body.isEmpty = false := by
        rw [List.isEmpty_eq_false_iff]; exact fun h => hc (hnc.mp h)
      simp only [hne, hc]
      cases ElemSeen e x <;> cases FieldsSeen rest xs <;> simp
  | .cons id e true true rest, (some x, xs), b, hok, hs, he, hb => by
    simp only [Fields.enc, Res.bind_eq_ok, Res.pure_eq, Res.ok.injEq] at he
    obtain ⟨hd, ⟨⟨sz, bx⟩, h1, rfl⟩, tl, h2, rfl⟩ := he
    simp only [FieldsOk] at hok
    simp only [FieldsSendable] at hs
    have hl : bx.length < 2 ^ 64 ∧ tl.length < 2 ^ 64 := by
      simp [getValueBuffer] at hb; omega
    obtain ⟨hsz, hnc, hdx⟩ := vec_rt e x sz bx hok.1 (hs.1 x rfl) h1 hl.1
    obtain ⟨r, hr, hrok, rfl, rfl⟩ := getValueBuffer_rec id sz bx hsz hl.1
    obtain ⟨rs, rfl, hro, hids, hdec⟩ := fields_rt rest xs tl hok.2.2.2 hs.2 h2 hl.2
    refine ⟨r :: rs, by rw [wire_cons, hr], by simpa [hrok] using hro, by simp [Fields.ids, hids], ?_⟩
    intro s hsg
    have hg := hsg r (by simp)
    simp only [Fields.dec, hg, hdx, hdec s (fun r' hr' => hsg r' (by simp [hr'])), FieldsSeen]
    by_cases hc : x = []
    · simp only [hnc.mpr hc, hc]
      cases FieldsSeen rest xs <;> simp
    · have hne : r.body.isEmpty = false := by
        rw [List.isEmpty_eq_false_iff]; exact fun h => hc (hnc.mp h)
      simp only [hne, hc]
      cases VecSeen e x <;> cases FieldsSeen rest xs <;> simp
theorem variants_rt : ∀ (vs : Variants) (w : vs.Val) (i : Nat) (b : Bytes), VariantsOk vs →
    VariantsSendable vs w → Variants.enc vs i w = .ok b → b.length < 2 ^ 64 →
    i + vs.count ≤ 65536 →
    ∃ j pl, b = leBytes 2 (i + j) ++ pl ∧ j < vs.count ∧
      (pl = [] → VariantsSeen vs w = none) ∧
      (pl ≠ [] → Variants.dec vs j pl = toRes (VariantsSeen vs w))
  | .cons e false rest, .inl x, i, b, hok, hs, he, hb, hi => by
    simp only [Variants.enc, Res.bind_eq_ok, Res.pure_eq, Res.ok.injEq] at he
    obtain ⟨⟨sz, bx⟩, h1, rfl⟩ := he
    simp only [VariantsOk] at hok
    simp only [VariantsSendable] at hs
    have hl : bx.length < 2 ^ 64 := by
      simp [getValueBuffer] at hb; omega
    obtain ⟨_, hnc, hdx⟩ := elem_rt e x sz bx hok.1 hs h1 hl
    refine ⟨0, bx, by simp [getValueBuffer], by simp [Variants.count], ?_, ?_⟩
    · intro h
      simp [VariantsSeen, hnc.mp h]
    · intro h
      have hc : ¬ NoContent e x := fun hc => h (hnc.mpr hc)
      simp only [Variants.dec, hdx, VariantsSeen, hc]
      cases ElemSeen e x <;> simp
  | .cons e true rest, .inl x, i, b, hok, hs, he, hb, hi => by
    simp only [Variants.enc, Res.bind_eq_ok, Res.pure_eq, Res.ok.injEq] at he
    obtain ⟨⟨sz, bx⟩, h1, rfl⟩ := he
    simp only [VariantsOk] at hok
    simp only [VariantsSendable] at hs
    have hl : bx.length < 2 ^ 64 := by
      simp [getValueBuffer] at hb; omega
    obtain ⟨_, hnc, hdx⟩ := vec_rt e x sz bx hok.1 hs h1 hl
    refine ⟨0, bx, by simp [getValueBuffer], by simp [Variants.count], ?_, ?_⟩
    · intro h
      simp [VariantsSeen, hnc.mp h]
    · intro h
      have hc : ¬ x = [] := fun hc => h (hnc.mpr hc)
      simp only [Variants.dec, hdx, VariantsSeen, hc]
      cases VecSeen e x <;> simp
  | .cons e rep rest, .inr y, i, b, hok, hs, he, hb, hi => by
    have he' : Variants.enc rest (i + 1) y = .ok b := by
      cases rep <;> simpa [Variants.enc] using he
    have hs' : VariantsSendable rest y := by
      cases rep <;> simpa [VariantsSendable] using hs
    simp only [VariantsOk] at hok
    simp only [Variants.count] at hi
    obtain ⟨j, pl, rfl, hj, hemp, hdec⟩ := variants_rt rest y (i + 1) b hok.2 hs' he' hb (by omega)
    refine ⟨j + 1, pl, by rw [Nat.add_assoc, Nat.add_comm 1 j], by simp [Variants.count]; omega, ?_, ?_⟩
    · intro h
      cases rep <;> simp [VariantsSeen, hemp h]
    · intro h
      have : VariantsSeen (.cons e rep rest) (.inr y) = (VariantsSeen rest y).map .inr := by
        cases rep <;> simp [VariantsSeen]
      rw [this]
      simp only [Variants.dec, hdec h]
      cases VariantsSeen rest y <;> simp
end

end Verif.Rust
