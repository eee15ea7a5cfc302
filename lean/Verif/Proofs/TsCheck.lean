import Verif.Spec.TsCode
set_option autoImplicit false
/-!
Decidable forms of the name conditions of `Spec/TsCode.lean`, for concrete protocols.
-/
namespace Verif.Prot

open Verif

/-- The types called `w` in scope `par`. -/
def typesL (s : Store) (par : Nat) (w : Name) : List Nat :=
  (s.enums.filter (fun e => e.name == w && e.parent == par)).map Enum.id ++
  (s.structs.filter (fun t => t.name == w && t.parent == par)).map Struct.id

theorem mem_typesL {s : Store} {par : Nat} {w : Name} {id : Nat} :
    id ∈ typesL s par w ↔ TypeIn s par w id := by
  simp only [typesL, TypeIn, List.mem_append, List.mem_map, List.mem_filter, Bool.and_eq_true,
    beq_iff_eq]
  constructor
  · rintro (⟨e, ⟨h1, h2, h3⟩, h4⟩ | ⟨e, ⟨h1, h2, h3⟩, h4⟩)
    · exact .inl ⟨e, h1, h4, h2, h3⟩
    · exact .inr ⟨e, h1, h4, h2, h3⟩
  · rintro (⟨e, h1, h4, h2, h3⟩ | ⟨e, h1, h4, h2, h3⟩)
    · exact .inl ⟨e, ⟨h1, h2, h3⟩, h4⟩
    · exact .inr ⟨e, ⟨h1, h2, h3⟩, h4⟩

/-- The types a path leads to. -/
def leadsL (s : Store) : Nat → List Name → List Nat
  | _, [] => []
  | par, w :: rest =>
    (if rest = [] then typesL s par w else []) ++
      (s.groups.filter (fun g => g.name == w && g.parent == par)).flatMap
        (fun g => leadsL s g.id rest)

theorem mem_leadsL {s : Store} : ∀ {path : List Name} {par id : Nat},
    id ∈ leadsL s par path ↔ Leads s.groups s par path id
  | [], par, id => by
    simp only [leadsL, List.not_mem_nil, false_iff]
    exact fun h => nomatch h
  | w :: rest, par, id => by
    simp only [leadsL, List.mem_append, List.mem_flatMap, List.mem_filter, Bool.and_eq_true,
      beq_iff_eq]
    constructor
    · rintro (h | ⟨g, ⟨h1, h2, h3⟩, h4⟩)
      · split at h
        · rename_i h2
          subst h2
          exact .here (mem_typesL.mp h)
        · simp at h
      · exact .into h1 h2 h3 (mem_leadsL.mp h4)
    · intro h
      cases h with
      | here ht => exact .inl (by rw [if_pos rfl]; exact mem_typesL.mpr ht)
      | into h1 h2 h3 h4 => exact .inr ⟨_, ⟨h1, h2, h3⟩, mem_leadsL.mpr h4⟩

/-- Scope `par` has the name. -/
def DeclL (s : Store) (par : Nat) (w : Name) : Prop :=
  typesL s par w ≠ [] ∨ ∃ g ∈ s.groups, g.name = w ∧ g.parent = par

instance (s : Store) (par : Nat) (w : Name) : Decidable (DeclL s par w) := by
  unfold DeclL; infer_instance

theorem declL_iff {s : Store} {par : Nat} {w : Name} :
    DeclL s par w ↔ Declares s.groups s par w := by
  unfold DeclL Declares
  refine or_congr ⟨fun h => ?_, ?_⟩ Iff.rfl
  · obtain ⟨i, hi⟩ := List.exists_mem_of_ne_nil _ h
    exact ⟨i, mem_typesL.mp hi⟩
  · rintro ⟨i, hi⟩ h
    have := mem_typesL.mpr hi
    rw [h] at this
    simp at this

/-- The types a path written in scope `par` names. -/
def namesL (s : Store) : Nat → Nat → List Name → List Nat
  | 0, _, _ => []
  | _ + 1, _, [] => []
  | n + 1, par, w :: rest =>
    if DeclL s par w then leadsL s par (w :: rest)
    else (s.groups.filter (fun g => g.id == par)).flatMap
      (fun g => namesL s n g.parent (w :: rest))

theorem names_of_mem {s : Store} : ∀ {n par : Nat} {path : List Name} {id : Nat},
    id ∈ namesL s n par path → TsNames s.groups s par path id
  | 0, _, _, _, h => by simp [namesL] at h
  | _ + 1, _, [], _, h => by simp [namesL] at h
  | n + 1, par, w :: rest, id, h => by
    rw [namesL] at h
    split at h
    · rename_i hd
      exact .here (declL_iff.mp hd) (mem_leadsL.mp h)
    · rename_i hd
      simp only [List.mem_flatMap, List.mem_filter, beq_iff_eq] at h
      obtain ⟨g, ⟨h1, rfl⟩, h3⟩ := h
      exact .up h1 (fun h => hd (declL_iff.mpr h)) (names_of_mem h3)

theorem mem_of_names {s : Store} (ho : ∀ g ∈ s.groups, g.parent < g.id) {par : Nat}
    {path : List Name} {id : Nat} (h : TsNames s.groups s par path id) : ∀ {n : Nat}, par < n →
    id ∈ namesL s n par path := by
  induction h with
  | here hd hl =>
    rintro (_ | n) hn
    · omega
    · rw [namesL, if_pos (declL_iff.mpr hd)]
      exact mem_leadsL.mpr hl
  | @up g id w rest hg hd _ ih =>
    rintro (_ | n) hn
    · omega
    · rw [namesL, if_neg (fun h => hd (declL_iff.mp h))]
      have := ho g hg
      simp only [List.mem_flatMap, List.mem_filter, beq_iff_eq]
      exact ⟨g, ⟨hg, rfl⟩, ih (by omega)⟩

/-- The groups around scope `par`. -/
def aroundL (gs : List Group) : Nat → Nat → List Nat
  | 0, _ => []
  | n + 1, par => (gs.filter (fun g => g.id == par)).flatMap
      (fun g => g.id :: aroundL gs n g.parent)

theorem mem_aroundL {gs : List Group} (ho : ∀ g ∈ gs, g.parent < g.id) {i par : Nat}
    (h : Around gs i par) : ∀ {n : Nat}, par < n → i ∈ aroundL gs n par := by
  induction h with
  | @self g hg =>
    rintro (_ | n) hn
    · omega
    · simp only [aroundL, List.mem_flatMap, List.mem_filter, beq_iff_eq]
      exact ⟨g, ⟨hg, rfl⟩, List.mem_cons_self⟩
  | @out g i hg _ ih =>
    rintro (_ | n) hn
    · omega
    · have := ho g hg
      simp only [aroundL, List.mem_flatMap, List.mem_filter, beq_iff_eq]
      exact ⟨g, ⟨hg, rfl⟩, List.mem_cons_of_mem _ (ih (by omega))⟩

/-- No group around scope `par` has the first name of the path. -/
def FreeL (s : Store) (n par : Nat) (path : List Name) : Prop :=
  ∀ w ∈ path.head?, ∀ i ∈ aroundL s.groups n par, ¬ DeclL s i w

instance (s : Store) (n par : Nat) (path : List Name) : Decidable (FreeL s n par path) := by
  unfold FreeL; infer_instance

theorem free_of {s : Store} (ho : ∀ g ∈ s.groups, g.parent < g.id) {n par : Nat}
    {path : List Name} (hn : par < n) (h : FreeL s n par path) : HeadFree s par path := by
  rintro w rest rfl i hi hd
  exact h w rfl i (mem_aroundL ho hi hn) (declL_iff.mpr hd)

/-- The paths of a group. -/
def pathsL (gs : List Group) : Nat → Nat → List (List Name)
  | 0, _ => []
  | n + 1, i => (if i = 0 then [[]] else []) ++ (gs.filter (fun g => g.id == i)).flatMap
      (fun g => (pathsL gs n g.parent).map (· ++ [g.name]))

theorem mem_pathsL {gs : List Group} (ho : ∀ g ∈ gs, g.parent < g.id) {i : Nat} {p : List Name}
    (h : GroupPath gs i p) : ∀ {n : Nat}, i < n → p ∈ pathsL gs n i := by
  induction h with
  | root =>
    rintro (_ | n) hn
    · omega
    · simp [pathsL]
  | @down g p hg _ ih =>
    rintro (_ | n) hn
    · omega
    · have := ho g hg
      simp only [pathsL, List.mem_append, List.mem_flatMap, List.mem_filter, beq_iff_eq,
        List.mem_map]
      exact .inr ⟨g, ⟨hg, rfl⟩, p, ih (by omega), rfl⟩

/-- All scopes are below `n`. -/
def BoundL (s : Store) (n : Nat) : Prop :=
  (∀ g ∈ s.groups, g.parent < g.id) ∧ (∀ t ∈ s.structs, t.parent < n) ∧ ∀ e ∈ s.enums, e.parent < n

instance (s : Store) (n : Nat) : Decidable (BoundL s n) := by unfold BoundL; infer_instance

/-- `TsVisible`, decidable. -/
def VisibleL (s : Store) (n : Nat) : Prop :=
  (∀ t ∈ s.structs, ∀ f ∈ t.fields, ∀ u ∈ s.structs, f.refTypeId = some u.id →
    (u.id ∈ leadsL s t.parent f.typePath ∨ FreeL s n t.parent f.typePath) ∧
    (∀ p ∈ pathsL s.groups n u.parent, FreeL s n t.parent (p ++ [u.name])) ∧
    (f.repeated = true → u.id ∈ namesL s n t.parent [u.name])) ∧
  (∀ t ∈ s.structs, ∀ f ∈ t.fields, ∀ e ∈ s.enums, f.refTypeId = some e.id →
    e.id ∈ namesL s n t.parent [e.name]) ∧
  (∀ e ∈ s.enums, ∀ v ∈ e.variants, ∀ u ∈ s.structs, v.refTypeId = some u.id →
    ∀ p ∈ pathsL s.groups n u.parent, FreeL s n e.parent (p ++ [u.name]))

instance (s : Store) (n : Nat) : Decidable (VisibleL s n) := by unfold VisibleL; infer_instance

theorem visible_of {s : Store} {n : Nat} (hb : BoundL s n) (h : VisibleL s n) : TsVisible s where
  written t ht f hf u hu hr := by
    rcases (h.1 t ht f hf u hu hr).1 with h1 | h1
    · exact .inl (mem_leadsL.mp h1)
    · exact .inr (free_of hb.1 (hb.2.1 t ht) h1)
  full t ht f hf u hu hr p hp :=
    free_of hb.1 (hb.2.1 t ht) ((h.1 t ht f hf u hu hr).2.1 p (mem_pathsL hb.1 hp (hb.2.1 u hu)))
  bare t ht f hf u hu hr hrep := names_of_mem ((h.1 t ht f hf u hu hr).2.2 hrep)
  enums t ht f hf e he hr := names_of_mem (h.2.1 t ht f hf e he hr)
  items e he v hv u hu hr p hp :=
    free_of hb.1 (hb.2.2 e he) (h.2.2 e he v hv u hu hr p (mem_pathsL hb.1 hp (hb.2.1 u hu)))

/-- `OptionsVisible`, decidable. -/
def OptionsL (s : Store) (n : Nat) : Prop :=
  ∀ t ∈ s.structs, ∀ f ∈ t.fields, ∀ e ∈ s.enums, f.refTypeId = some e.id → ∀ v ∈ e.variants,
    ∀ u ∈ s.structs, v.refTypeId = some u.id → u.id ∈ namesL s n t.parent [u.name]

instance (s : Store) (n : Nat) : Decidable (OptionsL s n) := by unfold OptionsL; infer_instance

theorem options_of {s : Store} {n : Nat} (h : OptionsL s n) : OptionsVisible s :=
  fun t ht f hf e he hr v hv u hu hvr => names_of_mem (h t ht f hf e he hr v hv u hu hvr)

/-- No struct needs a deeper one, decidable. -/
def ShallowL (s : Store) (n : Nat) : Prop :=
  ∀ t ∈ s.structs, ∀ u ∈ s.structs,
    (∃ f ∈ t.fields, f.refTypeId = some u.id ∨
      ∃ e ∈ s.enums, f.refTypeId = some e.id ∧ ∃ v ∈ e.variants, v.refTypeId = some u.id) →
    ∀ c ∈ s.groups, c.parent = t.parent → c.id ∉ aroundL s.groups n u.parent

instance (s : Store) (n : Nat) : Decidable (ShallowL s n) := by unfold ShallowL; infer_instance

theorem shallow_of {s : Store} {n : Nat} (hb : BoundL s n) (h : ShallowL s n) :
    ∀ t ∈ s.structs, ∀ u ∈ s.structs, Needs s t u → ¬ DeeperThan s t u := by
  rintro t ht u hu hn ⟨c, h1, h2, h3⟩
  exact h t ht u hu hn c h1 h2 (mem_aroundL hb.1 h3 (hb.2.1 u hu))

end Verif.Prot
