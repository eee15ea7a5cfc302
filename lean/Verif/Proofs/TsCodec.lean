import Verif.Model.TsCodec
import Verif.Spec.TsCodec
import Verif.Proofs.RustCodecMore
set_option autoImplicit false
namespace Verif.Ts

open Verif Verif.Spec
open Verif.Rust (wireRec_length wire_cons wire_append wire_eq_nil length_le_wire num_size_pos)

/-! Strings -/

theorem decStr_utf8 {s : List Char} (h : NoBom s) : decStr (utf8 s) = s := by
  unfold decStr
  split
  · rename_i hb
    exfalso
    apply h
    have hs : utf8 s = [0xEF, 0xBB, 0xBF] ++ (utf8 s).drop 3 := by
      rw [← hb, List.take_append_drop]
    have hl := lossy_utf8 s
    rw [hs] at hl
    rw [← hl]
    simp [lossy, lossyLoop, lossyStep, safeGet, isCont]
  · exact lossy_utf8 s

/-! Storage -/

/-- The pair TypeScript keeps for a record. -/
def recPair (r : WireRec) : Nat × Bytes := (r.id.toNat % 256, r.body)

theorem rankLen_spec {r : WireRec} (h : r.Ok) :
    rankLen (UInt8.ofNat (8 * r.lenBytes)).toNat = some r.lenBytes := by
  obtain ⟨h, _⟩ := h
  rcases h with h | h | h | h <;> rw [h] <;> rfl

theorem storageNext_rec (r : WireRec) (h : r.Ok) (rest : Bytes) :
    storageNext (r.bytes ++ rest) = .ok (recPair r, rest) := by
  have h2 : r.bytes ++ rest = leBytes 2 r.id.toNat ++
      (UInt8.ofNat (8 * r.lenBytes) :: (leBytes r.lenBytes r.body.length ++ (r.body ++ rest))) := by
    simp [WireRec.bytes]
  have hid : getId (r.bytes ++ rest) = some (r.id.toNat % 256) := by
    rw [h2]
    simp [getId, leBytes]
  have hd : (r.bytes ++ rest).drop 2 =
      UInt8.ofNat (8 * r.lenBytes) :: (leBytes r.lenBytes r.body.length ++ (r.body ++ rest)) := by
    rw [h2, List.drop_left' (by simp)]
  unfold storageNext
  simp only [hid, hd, rankLen_spec h]
  rw [if_neg (by simp)]
  rw [List.take_left' (by simp), List.drop_left' (by simp), leNat_leBytes_of_lt h.2]
  rw [if_neg (by simp)]
  simp [recPair]

theorem storageLoop_wire (rs : List WireRec) (h : ∀ r ∈ rs, r.Ok)
    (fuel : Nat) (hf : rs.length ≤ fuel) (acc : Storage) :
    storageLoop fuel acc (wire rs) = .ok ((rs.map recPair).reverse ++ acc) := by
  induction rs generalizing fuel acc with
  | nil => cases fuel <;> simp [storageLoop, wire]
  | cons r rs ih =>
    cases fuel with
    | zero => simp at hf
    | succ fuel =>
      have hne : (wire (r :: rs)).isEmpty = false := by
        rw [List.isEmpty_eq_false_iff]; intro hw; simp [wire_eq_nil] at hw
      rw [storageLoop, hne]
      simp only [Bool.false_eq_true, if_false]
      rw [wire_cons, storageNext_rec r (h r (by simp))]
      simp only
      rw [ih (fun x hx => h x (by simp [hx])) fuel (by simpa using hf)]
      simp

/-- Reading a body made of well formed records yields these records under the low byte of
their ids. -/
theorem getStorage_wire (rs : List WireRec) (h : ∀ r ∈ rs, r.Ok) :
    getStorage (wire rs) = .ok (rs.map recPair).reverse := by
  unfold getStorage
  rw [storageLoop_wire rs h _ (length_le_wire rs)]
  simp

theorem lookup_of_nodup {l : List (Nat × Bytes)} (hn : (l.map Prod.fst).Nodup) {p : Nat × Bytes}
    (hp : p ∈ l) : l.reverse.lookup p.1 = some p.2 := by
  induction l with
  | nil => simp at hp
  | cons x xs ih =>
    simp only [List.map_cons, List.nodup_cons] at hn
    simp only [List.reverse_cons, List.lookup_append]
    simp only [List.mem_cons] at hp
    rcases hp with rfl | hp
    · have : List.lookup p.1 xs.reverse = none := by
        rw [List.lookup_eq_none_iff]
        intro q hq
        simp only [List.mem_reverse] at hq
        simp only [bne_iff_ne, ne_eq]
        intro he
        exact hn.1 (List.mem_map.mpr ⟨q, hq, he.symm⟩)
      rw [this]
      simp [List.lookup]
    · rw [ih hn.2 hp]; rfl

theorem recPair_nodup {rs : List WireRec} (hn : (rs.map WireRec.id).Nodup)
    (hs : ∀ r ∈ rs, r.id.toNat < 256) : ((rs.map recPair).map Prod.fst).Nodup := by
  induction rs with
  | nil => simp
  | cons r rs ih =>
    simp only [List.map_cons, List.nodup_cons] at hn ⊢
    refine ⟨?_, ih hn.2 (fun x hx => hs x (by simp [hx]))⟩
    intro hm
    simp only [List.mem_map] at hm
    obtain ⟨_, ⟨x, hx, rfl⟩, he⟩ := hm
    apply hn.1
    rw [List.mem_map]
    refine ⟨x, hx, ?_⟩
    have h1 := hs x (by simp [hx])
    have h2 := hs r (by simp)
    simp only [recPair] at he
    rw [Nat.mod_eq_of_lt h1, Nat.mod_eq_of_lt h2] at he
    exact UInt16.toNat_inj.mp he

theorem get_wire {rs : List WireRec} (hn : (rs.map WireRec.id).Nodup)
    (hs : ∀ r ∈ rs, r.id.toNat < 256) {r : WireRec} (hr : r ∈ rs) :
    Storage.get (rs.map recPair).reverse r.id.toNat = some r.body := by
  have := lookup_of_nodup (recPair_nodup hn hs) (p := recPair r) (List.mem_map.mpr ⟨r, hr, rfl⟩)
  simp only [recPair] at this
  rw [Nat.mod_eq_of_lt (hs r hr)] at this
  exact this

theorem dec_wire (fs : Fields) (rs : List WireRec) (hok : ∀ r ∈ rs, r.Ok)
    (hn : (rs.map WireRec.id).Nodup) (hsm : ∀ r ∈ rs, r.id.toNat < 256) (x : Res fs.Val)
    (h : ∀ s : Storage, (∀ r ∈ rs, s.get r.id.toNat = some r.body) → Fields.dec fs s = x) :
    (do let s ← getStorage (wire rs); Fields.dec fs s) = x := by
  rw [getStorage_wire rs hok]
  simp only [Res.ok_bind]
  exact h _ (fun r hr => get_wire hn hsm hr)

theorem tsOk_nodup : ∀ {fs : Fields}, TsFieldsOk fs →
    fs.ids.Nodup ∧ ∀ i ∈ fs.ids, i.toNat < 256
  | .nil, _ => by simp [Fields.ids]
  | .cons id e rep opt rest, h => by
    simp only [TsFieldsOk] at h
    obtain ⟨h1, h2⟩ := tsOk_nodup h.2.2.2.2
    simp only [Fields.ids, List.nodup_cons, List.mem_cons, forall_eq_or_imp]
    exact ⟨⟨h.2.1, h1⟩, h.2.2.1, h2⟩

/-! Arrays -/

theorem decNum_enc (n : Num) (v : Fin (256 ^ n.size)) :
    decNum n (leBytes n.size v.val) = .ok v := by
  unfold decNum
  rw [dif_pos (by simp)]
  congr 1
  apply Fin.ext
  simp only
  rw [leNat_leBytes_of_lt v.isLt]

theorem length_encNumArray (n : Num) (vs : List (Fin (256 ^ n.size))) :
    (encNumArray n vs).length = vs.length * n.size := Rust.length_encPlain_num n vs

theorem decNumArray_enc (n : Num) (vs : List (Fin (256 ^ n.size))) (fuel : Nat)
    (hf : vs.length ≤ fuel) : decNumArray n fuel (encNumArray n vs) = .ok vs := by
  induction vs generalizing fuel with
  | nil => cases fuel <;> simp [decNumArray, encNumArray]
  | cons v vs ih =>
    cases fuel with
    | zero => simp at hf
    | succ fuel =>
      have hp := num_size_pos n
      have he : encNumArray n (v :: vs) = leBytes n.size v.val ++ encNumArray n vs := rfl
      have hne : (leBytes n.size v.val ++ encNumArray n vs).isEmpty = false := by
        rw [List.isEmpty_eq_false_iff]
        intro h
        have := congrArg List.length h
        simp at this
        omega
      rw [he, decNumArray, hne]
      simp only [Bool.false_eq_true, if_false]
      rw [if_neg (by simp), List.take_left' (by simp), decNum_enc, List.drop_left' (by simp),
        ih fuel (by simpa using hf)]
      simp

theorem encNumArray_nil {n : Num} {vs : List (Fin (256 ^ n.size))} :
    encNumArray n vs = [] ↔ vs = [] := by
  have hp := num_size_pos n
  rw [← List.length_eq_zero_iff, length_encNumArray, Nat.mul_eq_zero, List.length_eq_zero_iff]
  constructor
  · rintro (h | h)
    · exact h
    · omega
  · exact Or.inl

theorem decBool_enc (b : Bool) : decBool (boolByte b) = .ok b := by cases b <;> rfl

theorem decBoolArray_enc (bs : List Bool) : decBoolArray (encBoolArray bs) = bs := by
  induction bs with
  | nil => rfl
  | cons b bs ih =>
    simp only [encBoolArray, decBoolArray, List.flatMap_cons, List.map_append] at ih ⊢
    rw [ih]
    cases b <;> rfl

theorem encBoolArray_nil {bs : List Bool} : encBoolArray bs = [] ↔ bs = [] := by
  cases bs <;> simp [encBoolArray, boolByte]

/-- Length prefixed items, cut by the decoder. -/
theorem decItems_items {α : Type} {k : Nat} (hk : 0 < k) (g : Bytes → Res α) :
    ∀ (ps : List (α × Bytes)) (first : Bool) (fuel : Nat),
      (∀ p ∈ ps, p.2.length < 256 ^ k ∧ g p.2 = .ok p.1) →
      (itemsBytes k (ps.map Prod.snd)).length ≤ fuel →
      decItems k g first fuel (itemsBytes k (ps.map Prod.snd)) = .ok (ps.map Prod.fst)
  | [], first, fuel, _, _ => by cases fuel <;> simp [decItems, itemsBytes]
  | p :: ps, first, fuel, h, hf => by
    have he : itemsBytes k ((p :: ps).map Prod.snd)
        = leBytes k p.2.length ++ (p.2 ++ itemsBytes k (ps.map Prod.snd)) := by
      simp [itemsBytes]
    rw [he] at hf ⊢
    simp only [List.length_append, length_leBytes] at hf
    cases fuel with
    | zero => omega
    | succ fuel =>
      have hne : (leBytes k p.2.length ++ (p.2 ++ itemsBytes k (ps.map Prod.snd))).isEmpty = false := by
        rw [List.isEmpty_eq_false_iff]
        intro h
        have := congrArg List.length h
        simp at this
        omega
      obtain ⟨h1, h2⟩ := h p (by simp)
      rw [decItems, hne]
      simp only [Bool.false_eq_true, if_false]
      rw [if_neg (by simp)]
      simp only [List.take_left' (length_leBytes k p.2.length),
        List.drop_left' (length_leBytes k p.2.length), leNat_leBytes_of_lt h1]
      rw [List.take_left' rfl, h2, ← List.append_assoc, List.drop_left' (by simp)]
      rw [decItems_items hk g ps false fuel (fun q hq => h q (by simp [hq])) (by omega)]
      simp

theorem encStrArray_items {ss : List (List Char)} {b : Bytes} (h : encStrArray ss = .ok b) :
    b = itemsBytes 4 (ss.map utf8) ∧ ∀ s ∈ ss, (utf8 s).length < 2 ^ 32 := by
  induction ss generalizing b with
  | nil => simp [encStrArray] at h; simp [h, itemsBytes]
  | cons s ss ih =>
    rw [encStrArray] at h
    split at h
    · rename_i hl
      simp only [Res.bind_eq_ok, Res.pure_eq, Res.ok.injEq] at h
      obtain ⟨tl, h1, rfl⟩ := h
      obtain ⟨rfl, h2⟩ := ih h1
      refine ⟨by simp [itemsBytes], ?_⟩
      intro x hx
      simp only [List.mem_cons] at hx
      rcases hx with rfl | hx
      · exact hl
      · exact h2 x hx
    · simp at h

theorem encSelfArray_items {α : Type} {f : α → Res Bytes} {xs : List α} {b : Bytes}
    (h : encSelfArray f xs = .ok b) :
    ∃ ps : List (α × Bytes), ps.map Prod.fst = xs ∧ b = itemsBytes 8 (ps.map Prod.snd) ∧
      ∀ p ∈ ps, f p.1 = .ok p.2 ∧ p.2.length ≤ b.length := by
  induction xs generalizing b with
  | nil => simp [encSelfArray] at h; exact ⟨[], by simp, by simp [h, itemsBytes], by simp⟩
  | cons x xs ih =>
    simp only [encSelfArray, Res.bind_eq_ok, Res.pure_eq, Res.ok.injEq] at h
    obtain ⟨bx, h1, tl, h2, rfl⟩ := h
    obtain ⟨ps, rfl, rfl, h3⟩ := ih h2
    refine ⟨(x, bx) :: ps, by simp, by simp [itemsBytes], ?_⟩
    intro p hp
    simp only [List.mem_cons] at hp
    rcases hp with rfl | hp
    · exact ⟨h1, by simp; omega⟩
    · obtain ⟨h4, h5⟩ := h3 p hp
      exact ⟨h4, by simp only [List.length_append]; omega⟩

theorem itemsBytes_nil {k : Nat} (hk : 0 < k) {xs : List Bytes} : itemsBytes k xs = [] ↔ xs = [] := by
  cases xs with
  | nil => simp [itemsBytes]
  | cons x xs =>
    simp only [itemsBytes, List.flatMap_cons, reduceCtorEq, iff_false]
    intro h
    have := congrArg List.length h
    simp at this
    omega

theorem decItems_str {ss : List (List Char)} (h : ∀ s ∈ ss, NoBom s ∧ (utf8 s).length < 2 ^ 32)
    {b : Bytes} (hb : encStrArray ss = .ok b) :
    (b = [] ↔ ss = []) ∧ decItems 4 (fun b => .ok (decStr b)) true b.length b = .ok ss := by
  obtain ⟨rfl, _⟩ := encStrArray_items hb
  refine ⟨by simp [itemsBytes_nil], ?_⟩
  have := decItems_items (k := 4) (by omega) (fun b => Res.ok (decStr b))
    (ss.map (fun s => (s, utf8 s))) true (itemsBytes 4 (ss.map utf8)).length ?_ ?_
  · simpa [Function.comp_def] using this
  · intro p hp
    simp only [List.mem_map] at hp
    obtain ⟨s, hs, rfl⟩ := hp
    exact ⟨by have := (h s hs).2; simpa using this, by simp [decStr_utf8 (h s hs).1]⟩
  · simp [Function.comp_def]

/-! Records -/

theorem recU64_rec (id : UInt16) (b : Bytes) (hb : b.length < 2 ^ 64) :
    recU64 id b = (WireRec.mk id 8 b).bytes ∧ (WireRec.mk id 8 b).Ok := by
  refine ⟨by simp [recU64, WireRec.bytes, leBytes], by simp, by simpa using hb⟩

theorem recU8_rec (id : UInt16) (b : Bytes) (hb : b.length < 256) :
    recU8 id b.length b = (WireRec.mk id 1 b).bytes ∧ (WireRec.mk id 1 b).Ok := by
  refine ⟨by simp [recU8, WireRec.bytes, leBytes], by simp, by simpa using hb⟩

theorem struct_nocontent {fs : Fields} (v : (Elem.struct fs).Val) :
    TsNoContent (.struct fs) v ↔ fs.ids = [] := by
  cases fs <;> simp [TsNoContent, Fields.ids]

theorem length_recU64 (id : UInt16) (b : Bytes) : b.length ≤ (recU64 id b).length := by
  simp [recU64]; omega

/-- What a record decodes to. -/
def Carries (r : WireRec) (id : UInt16) (rb : Bytes) : Prop := rb = r.bytes ∧ r.Ok ∧ r.id = id

theorem carries_u64 (id : UInt16) (b : Bytes) (hb : b.length < 2 ^ 64) :
    Carries ⟨id, 8, b⟩ id (recU64 id b) :=
  ⟨(recU64_rec id b hb).1, (recU64_rec id b hb).2, rfl⟩

mutual
theorem elem_rt : ∀ (e : Elem) (id : UInt16) (v : e.Val) (rb : Bytes), TsElemOk e → TsElemClean e v →
    Elem.rec e id v = .ok rb → rb.length < 2 ^ 64 →
    ∃ r : WireRec, Carries r id rb ∧ (r.body = [] ↔ TsNoContent e v) ∧ Elem.dec e r.body = .ok v
  | .num n, id, v, rb, _, _, he, hb => by
    simp only [Elem.rec, Res.ok.injEq] at he
    subst he
    have hp := num_size_pos n
    have h := recU8_rec id (leBytes n.size v.val) (by simp; cases n <;> decide)
    rw [length_leBytes] at h
    refine ⟨_, ⟨h.1, h.2, rfl⟩, ?_, ?_⟩
    · simp only [TsNoContent, iff_false]
      intro h
      have := congrArg List.length h
      simp at this; omega
    · simpa [Elem.dec] using decNum_enc n v
  | .bool, id, v, rb, _, _, he, hb => by
    simp only [Elem.rec, Res.ok.injEq] at he
    subst he
    have h := recU8_rec id (boolByte v) (by simp [boolByte])
    refine ⟨_, ⟨h.1, h.2, rfl⟩, by simp [TsNoContent, boolByte], ?_⟩
    simpa [Elem.dec] using decBool_enc v
  | .str, id, v, rb, _, hc, he, hb => by
    simp only [Elem.rec, Res.ok.injEq] at he
    subst he
    simp only [TsElemClean] at hc
    have hl := length_recU64 id (utf8 v)
    refine ⟨_, carries_u64 id _ (by omega), ?_, ?_⟩
    · simpa [TsNoContent] using utf8_eq_nil
    · simp [Elem.dec, decStr_utf8 hc]
  | .struct fs, id, v, rb, hok, hc, he, hb => by
    simp only [Elem.rec, Res.bind_eq_ok, Res.pure_eq, Res.ok.injEq] at he
    obtain ⟨buf, h1, rfl⟩ := he
    simp only [TsElemOk] at hok
    simp only [TsElemClean] at hc
    have hl := length_recU64 id buf
    obtain ⟨rs, rfl, hro, hids, hdec⟩ := fields_rt fs v buf hok hc h1 (by omega)
    refine ⟨_, carries_u64 id _ (by omega), ?_, ?_⟩
    · rw [wire_eq_nil, struct_nocontent, ← hids]; simp
    · obtain ⟨hn, hsm⟩ := tsOk_nodup hok
      rw [← hids] at hn hsm
      have hsm' : ∀ r ∈ rs, r.id.toNat < 256 := fun r hr => hsm _ (List.mem_map.mpr ⟨r, hr, rfl⟩)
      simpa [Elem.dec] using dec_wire fs rs hro hn hsm' _ hdec
  | .enum vs, id, none, rb, _, _, he, _ => by
    simp only [Elem.rec, Res.ok.injEq] at he
    subst he
    exact ⟨_, carries_u64 id _ (by simp), by simp [TsNoContent], by simp [Elem.dec]⟩
  | .enum vs, id, some w, rb, hok, hc, he, hb => by
    simp only [Elem.rec, Res.bind_eq_ok, Res.pure_eq, Res.ok.injEq] at he
    obtain ⟨buf, h1, rfl⟩ := he
    simp only [TsElemOk] at hok
    simp only [TsElemClean] at hc
    have hl := length_recU64 id buf
    obtain ⟨j, pl, rfl, hj, hdec⟩ := variants_rt vs w 0 buf hok.1 hc h1 (by omega) (by omega)
    have hne : (leBytes 2 (0 + j) ++ pl).isEmpty = false := by
      rw [List.isEmpty_eq_false_iff]
      intro h
      have := congrArg List.length h
      simp at this
    refine ⟨_, carries_u64 id _ (by omega), ?_, ?_⟩
    · simp only [TsNoContent, reduceCtorEq, iff_false]
      exact List.isEmpty_eq_false_iff.mp hne
    · rw [Elem.dec, hne]
      simp only [Bool.false_eq_true, if_false]
      rw [if_neg (by simp), List.take_left' (by simp), List.drop_left' (by simp),
        leNat_leBytes_of_lt (by omega)]
      simp [hdec]
theorem array_rt : ∀ (e : Elem) (id : UInt16) (v : List e.Val) (rb : Bytes), TsElemOk e →
    TsArrayClean e v → Elem.recArray e id v = .ok rb → rb.length < 2 ^ 64 →
    ∃ r : WireRec, Carries r id rb ∧ (r.body = [] ↔ v = []) ∧ Elem.decArray e r.body = .ok v
  | .num n, id, v, rb, _, _, he, hb => by
    simp only [Elem.recArray, Res.ok.injEq] at he
    subst he
    have hl := length_recU64 id (encNumArray n v)
    refine ⟨_, carries_u64 id _ (by omega), encNumArray_nil, ?_⟩
    simp only [Elem.decArray]
    apply decNumArray_enc
    rw [length_encNumArray]
    exact Nat.le_mul_of_pos_right _ (num_size_pos n)
  | .bool, id, v, rb, _, _, he, hb => by
    simp only [Elem.recArray, Res.ok.injEq] at he
    subst he
    have hl := length_recU64 id (encBoolArray v)
    refine ⟨_, carries_u64 id _ (by omega), encBoolArray_nil, ?_⟩
    simp [Elem.decArray, decBoolArray_enc]
  | .str, id, v, rb, _, hc, he, hb => by
    simp only [Elem.recArray, Res.bind_eq_ok, Res.pure_eq, Res.ok.injEq] at he
    obtain ⟨buf, h1, rfl⟩ := he
    simp only [TsArrayClean] at hc
    have hl := length_recU64 id buf
    obtain ⟨h2, h3⟩ := decItems_str hc h1
    exact ⟨_, carries_u64 id _ (by omega), h2, by simpa [Elem.decArray] using h3⟩
  | .struct fs, id, v, rb, hok, hc, he, hb => by
    simp only [Elem.recArray, Res.bind_eq_ok, Res.pure_eq, Res.ok.injEq] at he
    obtain ⟨buf, h1, rfl⟩ := he
    simp only [TsArrayClean] at hc
    simp only [TsElemOk] at hok
    have hl := length_recU64 id buf
    obtain ⟨ps, rfl, rfl, hps⟩ := encSelfArray_items h1
    refine ⟨_, carries_u64 id _ (by omega), by simp [itemsBytes_nil], ?_⟩
    simp only [Elem.decArray]
    apply decItems_items (by omega) _ _ _ _ _ (Nat.le_refl _)
    intro p hp
    obtain ⟨h2, h3⟩ := hps p hp
    obtain ⟨rs, h4, hro, hids, hdec⟩ := fields_rt fs p.1 p.2 hok
      (hc p.1 (List.mem_map.mpr ⟨p, hp, rfl⟩)) h2 (by omega)
    refine ⟨by simp; omega, ?_⟩
    rw [h4]
    obtain ⟨hn, hsm⟩ := tsOk_nodup hok
    rw [← hids] at hn hsm
    have hsm' : ∀ r ∈ rs, r.id.toNat < 256 := fun r hr => hsm _ (List.mem_map.mpr ⟨r, hr, rfl⟩)
    exact dec_wire fs rs hro hn hsm' _ hdec
  | .enum vs, id, v, rb, _, hc, _, _ => by simp [TsArrayClean] at hc
theorem fields_rt : ∀ (fs : Fields) (v : fs.Val) (b : Bytes), TsFieldsOk fs → TsFieldsClean fs v →
    Fields.enc fs v = .ok b → b.length < 2 ^ 64 →
    ∃ rs : List WireRec, b = wire rs ∧ (∀ r ∈ rs, r.Ok) ∧ rs.map WireRec.id = fs.ids ∧
      ∀ s : Storage, (∀ r ∈ rs, s.get r.id.toNat = some r.body) → Fields.dec fs s = .ok v
  | .nil, v, b, _, _, he, _ => by
    simp [Fields.enc] at he
    exact ⟨[], by simp [wire, he], by simp, by simp [Fields.ids], fun s _ => by
      simp [Fields.dec]⟩
  | .cons id e false false rest, (x, xs), b, hok, hc, he, hb => by
    simp only [Fields.enc, Res.bind_eq_ok, Res.pure_eq, Res.ok.injEq] at he
    obtain ⟨hd, h1, tl, h2, rfl⟩ := he
    simp only [TsFieldsOk] at hok
    simp only [TsFieldsClean] at hc
    simp only [List.length_append] at hb
    obtain ⟨r, ⟨rfl, hrok, rfl⟩, _, hdx⟩ := elem_rt e id x hd hok.1 hc.1 h1 (by omega)
    obtain ⟨rs, rfl, hro, hids, hdec⟩ := fields_rt rest xs tl hok.2.2.2.2 hc.2 h2 (by omega)
    refine ⟨r :: rs, wire_cons r rs, by simpa [hrok] using hro, by simp [Fields.ids, hids], ?_⟩
    intro s hsg
    simp [Fields.dec, hsg r (by simp), hdx, hdec s (fun r' hr' => hsg r' (by simp [hr']))]
  | .cons id e true false rest, (x, xs), b, hok, hc, he, hb => by
    simp only [Fields.enc, Res.bind_eq_ok, Res.pure_eq, Res.ok.injEq] at he
    obtain ⟨hd, h1, tl, h2, rfl⟩ := he
    simp only [TsFieldsOk] at hok
    simp only [TsFieldsClean] at hc
    simp only [List.length_append] at hb
    obtain ⟨r, ⟨rfl, hrok, rfl⟩, _, hdx⟩ := array_rt e id x hd hok.1 hc.1 h1 (by omega)
    obtain ⟨rs, rfl, hro, hids, hdec⟩ := fields_rt rest xs tl hok.2.2.2.2 hc.2 h2 (by omega)
    refine ⟨r :: rs, wire_cons r rs, by simpa [hrok] using hro, by simp [Fields.ids, hids], ?_⟩
    intro s hsg
    simp [Fields.dec, hsg r (by simp), hdx, hdec s (fun r' hr' => hsg r' (by simp [hr']))]
  | .cons id e false true rest, (none, xs), b, hok, hc, he, hb => by
    simp only [Fields.enc, Res.bind_eq_ok, Res.pure_eq, Res.ok.injEq] at he
    obtain ⟨hd, rfl, tl, h2, rfl⟩ := he
    simp only [TsFieldsOk] at hok
    simp only [TsFieldsClean] at hc
    simp only [List.length_append] at hb
    have hr := recU8_rec id [] (by simp)
    obtain ⟨rs, rfl, hro, hids, hdec⟩ := fields_rt rest xs tl hok.2.2.2.2 hc.2 h2 (by omega)
    refine ⟨⟨id, 1, []⟩ :: rs, by rw [wire_cons, ← hr.1]; rfl, by simpa [hr.2] using hro,
      by simp [Fields.ids, hids], ?_⟩
    intro s hsg
    have hg := hsg ⟨id, 1, []⟩ (by simp)
    simp only at hg
    simp [Fields.dec, hg, hdec s (fun r' hr' => hsg r' (by simp [hr']))]
  | .cons id e true true rest, (none, xs), b, hok, hc, he, hb => by
    simp only [Fields.enc, Res.bind_eq_ok, Res.pure_eq, Res.ok.injEq] at he
    obtain ⟨hd, rfl, tl, h2, rfl⟩ := he
    simp only [TsFieldsOk] at hok
    simp only [TsFieldsClean] at hc
    simp only [List.length_append] at hb
    have hr := recU8_rec id [] (by simp)
    obtain ⟨rs, rfl, hro, hids, hdec⟩ := fields_rt rest xs tl hok.2.2.2.2 hc.2 h2 (by omega)
    refine ⟨⟨id, 1, []⟩ :: rs, by rw [wire_cons, ← hr.1]; rfl, by simpa [hr.2] using hro,
      by simp [Fields.ids, hids], ?_⟩
    intro s hsg
    have hg := hsg ⟨id, 1, []⟩ (by simp)
    simp only at hg
    simp [Fields.dec, hg, hdec s (fun r' hr' => hsg r' (by simp [hr']))]
  | .cons id e false true rest, (some x, xs), b, hok, hc, he, hb => by
    simp only [Fields.enc, Res.bind_eq_ok, Res.pure_eq, Res.ok.injEq] at he
    obtain ⟨hd, h1, tl, h2, rfl⟩ := he
    simp only [TsFieldsOk] at hok
    simp only [TsFieldsClean] at hc
    simp only [List.length_append] at hb
    obtain ⟨hcx, hnc⟩ := hc.1 x rfl
    obtain ⟨r, ⟨rfl, hrok, rfl⟩, hemp, hdx⟩ := elem_rt e id x hd hok.1 hcx h1 (by omega)
    obtain ⟨rs, rfl, hro, hids, hdec⟩ := fields_rt rest xs tl hok.2.2.2.2 hc.2 h2 (by omega)
    refine ⟨r :: rs, wire_cons r rs, by simpa [hrok] using hro, by simp [Fields.ids, hids], ?_⟩
    intro s hsg
    have hne : r.body.isEmpty = false := by
      rw [List.isEmpty_eq_false_iff]; exact fun h => hnc (hemp.mp h)
    simp [Fields.dec, hsg r (by simp), hne, hdx, hdec s (fun r' hr' => hsg r' (by simp [hr']))]
  | .cons id e true true rest, (some x, xs), b, hok, hc, he, hb => by
    simp only [Fields.enc, Res.bind_eq_ok, Res.pure_eq, Res.ok.injEq] at he
    obtain ⟨hd, h1, tl, h2, rfl⟩ := he
    simp only [TsFieldsOk] at hok
    simp only [TsFieldsClean] at hc
    simp only [List.length_append] at hb
    obtain ⟨hcx, hnc⟩ := hc.1 x rfl
    obtain ⟨r, ⟨rfl, hrok, rfl⟩, hemp, hdx⟩ := array_rt e id x hd hok.1 hcx h1 (by omega)
    obtain ⟨rs, rfl, hro, hids, hdec⟩ := fields_rt rest xs tl hok.2.2.2.2 hc.2 h2 (by omega)
    refine ⟨r :: rs, wire_cons r rs, by simpa [hrok] using hro, by simp [Fields.ids, hids], ?_⟩
    intro s hsg
    have hne : r.body.isEmpty = false := by
      rw [List.isEmpty_eq_false_iff]; exact fun h => hnc (hemp.mp h)
    simp [Fields.dec, hsg r (by simp), hne, hdx, hdec s (fun r' hr' => hsg r' (by simp [hr']))]
theorem variants_rt : ∀ (vs : Variants) (w : vs.Val) (i : Nat) (b : Bytes), TsVariantsOk vs →
    TsVariantsClean vs w → Variants.enc vs i w = .ok b → b.length < 2 ^ 64 →
    i + vs.count ≤ 65536 →
    ∃ j pl, b = leBytes 2 (i + j) ++ pl ∧ j < vs.count ∧ Variants.dec vs j pl = .ok w
  | .cons (.num n) false rest, .inl x, i, b, _, _, he, _, _ => by
    simp only [Variants.enc, Res.ok.injEq] at he
    exact ⟨0, _, he.symm, by simp [Variants.count], by simp [Variants.dec, decNum_enc]⟩
  | .cons .bool false rest, .inl x, i, b, _, _, he, _, _ => by
    simp only [Variants.enc, Res.ok.injEq] at he
    exact ⟨0, _, he.symm, by simp [Variants.count], by simp [Variants.dec, decBool_enc]⟩
  | .cons .str false rest, .inl x, i, b, _, hc, he, _, _ => by
    simp only [Variants.enc, Res.ok.injEq] at he
    simp only [TsVariantsClean, TsElemClean] at hc
    exact ⟨0, _, he.symm, by simp [Variants.count], by simp [Variants.dec, decStr_utf8 hc]⟩
  | .cons (.struct fs) false rest, .inl x, i, b, hok, hc, he, hb, _ => by
    simp only [Variants.enc, Res.bind_eq_ok, Res.pure_eq, Res.ok.injEq] at he
    obtain ⟨buf, h1, rfl⟩ := he
    simp only [TsVariantsOk, TsElemOk] at hok
    simp only [TsVariantsClean, TsElemClean] at hc
    simp only [List.length_append] at hb
    obtain ⟨rs, rfl, hro, hids, hdec⟩ := fields_rt fs x buf hok.1 hc h1 (by omega)
    obtain ⟨hn, hsm⟩ := tsOk_nodup hok.1
    rw [← hids] at hn hsm
    have hsm' : ∀ r ∈ rs, r.id.toNat < 256 := fun r hr => hsm _ (List.mem_map.mpr ⟨r, hr, rfl⟩)
    have := dec_wire fs rs hro hn hsm' _ hdec
    refine ⟨0, _, rfl, by simp [Variants.count], ?_⟩
    rw [Res.bind_eq_ok] at this
    obtain ⟨s, hs1, hs2⟩ := this
    simp [Variants.dec, hs1, hs2]
  | .cons (.enum _) false rest, .inl x, i, b, hok, _, _, _, _ => by
    simp [TsVariantsOk] at hok
  | .cons (.num n) true rest, .inl x, i, b, _, _, he, _, _ => by
    simp only [Variants.enc, Res.ok.injEq] at he
    refine ⟨0, _, he.symm, by simp [Variants.count], ?_⟩
    rw [Variants.dec, decNumArray_enc]
    · simp
    · rw [length_encNumArray]
      exact Nat.le_mul_of_pos_right _ (num_size_pos n)
  | .cons .bool true rest, .inl x, i, b, _, _, he, _, _ => by
    simp only [Variants.enc, Res.ok.injEq] at he
    exact ⟨0, _, he.symm, by simp [Variants.count], by simp [Variants.dec, decBoolArray_enc]⟩
  | .cons .str true rest, .inl x, i, b, _, hc, he, _, _ => by
    simp only [Variants.enc, Res.bind_eq_ok, Res.pure_eq, Res.ok.injEq] at he
    obtain ⟨buf, h1, rfl⟩ := he
    simp only [TsVariantsClean, TsArrayClean] at hc
    obtain ⟨_, h3⟩ := decItems_str hc h1
    exact ⟨0, _, rfl, by simp [Variants.count], by simp [Variants.dec, h3]⟩
  | .cons (.struct _) true rest, .inl x, i, b, hok, _, _, _, _ => by
    simp [TsVariantsOk] at hok
  | .cons (.enum _) true rest, .inl x, i, b, hok, _, _, _, _ => by
    simp [TsVariantsOk] at hok
  | .cons e rep rest, .inr y, i, b, hok, hc, he, hb, hi => by
    have he' : Variants.enc rest (i + 1) y = .ok b := by
      cases e <;> cases rep <;> simpa [Variants.enc] using he
    have hc' : TsVariantsClean rest y := by
      cases rep <;> simpa [TsVariantsClean] using hc
    simp only [TsVariantsOk] at hok
    simp only [Variants.count] at hi
    obtain ⟨j, pl, rfl, hj, hdec⟩ := variants_rt rest y (i + 1) b hok.2.2.2 hc' he' hb (by omega)
    refine ⟨j + 1, pl, by rw [Nat.add_assoc, Nat.add_comm 1 j], by simp [Variants.count]; omega, ?_⟩
    cases e <;> cases rep <;> simp [Variants.dec, hdec]
end

end Verif.Ts
