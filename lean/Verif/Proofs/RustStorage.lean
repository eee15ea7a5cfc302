import Verif.Model.RustCodec
import Verif.Spec.Codec
import Verif.Proofs.Utf8
namespace Verif.Rust

open Verif Verif.Spec

theorem u16_ofNat_le (i : UInt16) : UInt16.ofNat (leNat (leBytes 2 i.toNat)) = i := by
  have := i.toNat_lt
  rw [leNat_leBytes_of_lt (by simpa using this)]
  simp

theorem rankLen_spec {r : WireRec} (h : r.Ok) :
    rankLen (UInt8.ofNat (8 * r.lenBytes)).toNat = some r.lenBytes := by
  obtain ⟨h, _⟩ := h
  rcases h with h | h | h | h <;> rw [h] <;> rfl

theorem storageNext_rec (r : WireRec) (h : r.Ok) (rest : Bytes) :
    storageNext (r.bytes ++ rest) = .ok ((r.id, r.body), rest) := by
  have h2 : r.bytes ++ rest = leBytes 2 r.id.toNat ++
      (UInt8.ofNat (8 * r.lenBytes) :: (leBytes r.lenBytes r.body.length ++ (r.body ++ rest))) := by
    simp [WireRec.bytes]
  have hl : ¬ (r.bytes ++ rest).length < 2 := by
    rw [h2]; simp
  have ht : (r.bytes ++ rest).take 2 = leBytes 2 r.id.toNat := by
    rw [h2, List.take_left' (by simp)]
  have hd : (r.bytes ++ rest).drop 2 =
      UInt8.ofNat (8 * r.lenBytes) :: (leBytes r.lenBytes r.body.length ++ (r.body ++ rest)) := by
    rw [h2, List.drop_left' (by simp)]
  unfold storageNext
  rw [if_neg hl]
  simp only [ht, hd, u16_ofNat_le, rankLen_spec h]
  rw [if_neg (by simp)]
  rw [List.take_left' (by simp), List.drop_left' (by simp), leNat_leBytes_of_lt h.2]
  rw [if_neg (by simp)]
  simp

theorem wireRec_length (r : WireRec) : r.bytes.length = 3 + r.lenBytes + r.body.length := by
  simp [WireRec.bytes]; omega

theorem wire_cons (r : WireRec) (rs : List WireRec) : wire (r :: rs) = r.bytes ++ wire rs := rfl

theorem wire_append (rs ss : List WireRec) : wire (rs ++ ss) = wire rs ++ wire ss := by
  simp [wire]

theorem wire_eq_nil {rs : List WireRec} : wire rs = [] ↔ rs = [] := by
  constructor
  · cases rs with
    | nil => simp
    | cons r rs =>
      intro h
      have := congrArg List.length h
      rw [wire_cons, List.length_append, wireRec_length] at this
      simp at this
  · rintro rfl; rfl

/-- The id/body pair kept for a record. -/
def recPair (r : WireRec) : UInt16 × Bytes := (r.id, r.body)

theorem storageLoop_wire (rs : List WireRec) (h : ∀ r ∈ rs, r.Ok) (hne : rs ≠ [])
    (fuel : Nat) (hf : rs.length ≤ fuel) (acc : Storage) :
    storageLoop fuel acc (wire rs) = .ok ((rs.map recPair).reverse ++ acc) := by
  induction rs generalizing fuel acc with
  | nil => exact absurd rfl hne
  | cons r rs ih =>
    cases fuel with
    | zero => simp at hf
    | succ fuel =>
      rw [wire_cons, storageLoop, storageNext_rec r (h r (by simp))]
      simp only
      cases rs with
      | nil => simp [wire, recPair]
      | cons r' rs' =>
        have hne' : wire (r' :: rs') ≠ [] := fun hw => by simp [wire_eq_nil] at hw
        rw [if_neg (by simpa using hne')]
        rw [ih (fun x hx => h x (by simp [hx])) (by simp) fuel (by simpa using hf)]
        simp [recPair]

theorem length_le_wire (rs : List WireRec) : rs.length ≤ (wire rs).length := by
  induction rs with
  | nil => simp
  | cons r rs ih =>
    rw [wire_cons, List.length_append, wireRec_length]
    simp; omega

/-- Reading a body made of well formed records yields exactly these records. -/
theorem storageNew_wire (rs : List WireRec) (h : ∀ r ∈ rs, r.Ok) :
    storageNew (wire rs) = .ok (rs.map recPair).reverse := by
  unfold storageNew
  cases rs with
  | nil => simp [wire]
  | cons r rs =>
    rw [if_neg (by simpa using fun hw => by simp [wire_eq_nil] at hw)]
    rw [storageLoop_wire _ h (by simp) _ (length_le_wire _)]
    simp

/-- The map read from records, looked up by id. -/
theorem get_recPair_of_mem {rs : List WireRec} (hn : (rs.map WireRec.id).Nodup)
    {r : WireRec} (hr : r ∈ rs) : Storage.get (rs.map recPair).reverse r.id = some r.body := by
  unfold Storage.get
  induction rs with
  | nil => simp at hr
  | cons x xs ih =>
    simp only [List.map_cons, List.nodup_cons] at hn
    simp only [List.map_cons, List.reverse_cons, List.lookup_append]
    simp only [List.mem_cons] at hr
    rcases hr with rfl | hr
    · have : List.lookup r.id (List.map recPair xs).reverse = none := by
        rw [List.lookup_eq_none_iff]
        intro p hp
        simp only [List.mem_reverse, List.mem_map] at hp
        obtain ⟨y, hy, rfl⟩ := hp
        simp only [recPair, bne_iff_ne, ne_eq]
        intro he
        apply hn.1
        rw [List.mem_map]
        exact ⟨y, hy, he.symm⟩
      rw [this]
      simp [recPair, List.lookup]
    · rw [ih hn.2 hr]; rfl

theorem get_recPair_none {rs : List WireRec} {id : UInt16} (h : id ∉ rs.map WireRec.id) :
    Storage.get (rs.map recPair).reverse id = none := by
  unfold Storage.get
  rw [List.lookup_eq_none_iff]
  intro p hp
  simp only [List.mem_reverse, List.mem_map] at hp
  obtain ⟨y, hy, rfl⟩ := hp
  simp only [recPair, bne_iff_ne, ne_eq]
  intro he
  exact h (List.mem_map.mpr ⟨y, hy, he.symm⟩)

end Verif.Rust
