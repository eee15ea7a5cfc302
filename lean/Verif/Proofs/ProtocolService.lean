import Verif.Proofs.ProtocolRefs
set_option autoImplicit false
/-!
Service structs keep the invariant about ids.
-/
namespace Verif.Prot

open Verif

theorem numberFields_count (parent : Nat) : ∀ (fs : List Field) (seq i : Nat),
    ((numberFields parent seq fs).map Field.id).count i =
      if seq < i ∧ i ≤ seq + fs.length then 1 else 0
  | [], seq, i => by simp [numberFields]
  | f :: fs, seq, i => by
    simp only [numberFields, List.map_cons, List.count_cons, numberFields_count parent fs,
      List.length_cons, beq_iff_eq]
    split <;> split <;> split <;> omega

theorem idsOk_addService {s : Store} (hi : IdsOk s) (name : Name) (fields : List Field) :
    IdsOk (s.addService name fields) := by
  have key : ∀ s1 : Store, IdsOk s1 → ∀ g : Group, IdsOk { s1 with
      sequence := s1.sequence + 1 + fields.length
      groups := s1.groups.map (fun x =>
        if x.id == g.id then { x with structs := x.structs ++ [s1.sequence + 1] } else x)
      structs := s1.structs ++ [⟨s1.sequence + 1, g.id, name,
        numberFields (s1.sequence + 1) (s1.sequence + 1) fields, s1.pathByParent g.id⟩] } := by
    intro s1 h1 g i
    have h2 := h1 i
    have hg : (s1.groups.map (fun x : Group =>
        if x.id == g.id then { x with structs := x.structs ++ [s1.sequence + 1] } else x)).map
          Group.id = s1.groups.map Group.id := by
      rw [List.map_map]
      apply List.map_congr_left
      intro x _
      simp only [Function.comp]
      split <;> rfl
    simp only [allIds] at h2 ⊢
    rw [hg]
    simp only [List.map_append, List.flatMap_append, List.count_append, List.map_cons,
      List.map_nil, List.flatMap_cons, List.flatMap_nil, List.append_nil, List.count_cons,
      List.count_nil, numberFields_count, beq_iff_eq] at h2 ⊢
    split at h2 <;> (repeat' split) <;> omega
  have hs1 : IdsOk (if s.groups.any (fun g => g.name == serviceGroup && g.parent == 0) then s
    else { s with
      sequence := s.sequence + 1
      groups := s.groups ++ [⟨s.sequence + 1, 0, serviceGroup, [], [], []⟩] }) := by
    split
    · exact hi
    · intro i
      have h2 := hi i
      simp only [allIds, List.map_append, List.count_append, List.map_cons,
        List.map_nil, List.count_cons, List.count_nil, beq_iff_eq] at h2 ⊢
      split at h2 <;> (repeat' split) <;> omega
  simp only [Store.addService]
  split
  · exact hs1
  · exact key _ hs1 _

theorem idsOk_declared {s : Store} (hi : IdsOk s) :
    (declaredIds s).Nodup ∧ ∀ i ∈ declaredIds s, 1 ≤ i ∧ i ≤ s.sequence := by
  have hle : ∀ i, (declaredIds s).count i ≤ (allIds s).count i := by
    intro i
    simp only [declaredIds, allIds, List.count_append]
    omega
  refine ⟨?_, ?_⟩
  · rw [List.nodup_iff_count]
    intro i
    have h1 := hle i
    have h2 := hi i
    split at h2 <;> omega
  · intro i hm
    have h1 := hle i
    have h2 := hi i
    have h3 := List.one_le_count_iff.mpr hm
    split at h2
    · assumption
    · omega

end Verif.Prot
