import Verif.Proofs.ProtocolBody
import Verif.Proofs.ProtocolRefs
set_option autoImplicit false
/-!
Group ids and full names: which store goes with which declarations, and what a lookup finds in
terms of full names.
-/
namespace Verif.Prot.Syntax

open Verif Verif.Prot

/-- Every full name belongs to one group. -/
def Inj (s : Store) : Prop :=
  ∀ i j x, GroupPath (allGroups s) i x → GroupPath (allGroups s) j x → i = j

/-- Full names of the types in a store. -/
def typeNames (s : Store) : List (List Name) :=
  s.structs.map (fun t => t.path ++ [t.name]) ++ s.enums.map (fun e => e.path ++ [e.name])

/-- The store goes with the types `known` and the groups `gs`, in group `g`. -/
structure Abs (s : Store) (known gs : List (List Name)) (g : List Name) : Prop where
  reach : Reach s
  cs : s.cStruct = none
  ce : s.cEnum = none
  cf : s.cField = none
  types : ∀ x, x ∈ known ↔ x ∈ typeNames s
  here : GroupPath (allGroups s) s.groupId g
  groups : ∀ x, x ∈ gs ↔ ∃ h ∈ allGroups s, GroupPath (allGroups s) h.id x
  len : (allGroups s).length = gs.length

theorem allGroups_count (s : Store) (hi : IdsOk s) (i : Nat) :
    ((allGroups s).map Group.id).count i ≤ 1 := by
  have := count_group s hi i
  simpa [allGroups, List.count_append] using this

theorem allGroups_eq {s : Store} (hi : IdsOk s) {g h : Group} (hg : g ∈ allGroups s)
    (hh : h ∈ allGroups s) (he : g.id = h.id) : g = h := by
  have h1 := find_group hg (allGroups_count s hi g.id)
  have h2 := find_group hh (allGroups_count s hi h.id)
  rw [he, h2] at h1
  exact (Option.some.inj h1).symm

theorem groupId_pos {s : Store} (hi : IdsOk s) {g : Group} (hg : g ∈ allGroups s) :
    1 ≤ g.id ∧ g.id ≤ s.sequence := by
  have h1 := hi g.id
  have h2 : 1 ≤ (allIds s).count g.id := by
    refine List.one_le_count_iff.mpr ?_
    simp only [allIds, List.mem_append]
    simp only [allGroups, List.mem_append] at hg
    rcases hg with hg | hg
    · exact .inr (.inr (.inr (.inl (List.mem_map.mpr ⟨g, hg, rfl⟩))))
    · refine .inr (.inr (.inr (.inr (.inr (.inr (.inr (.inl ?_)))))))
      exact List.mem_map.mpr ⟨g, hg, rfl⟩
  split at h1
  · assumption
  · omega

/-- A group has one full name. -/
theorem groupPath_unique {s : Store} (hi : IdsOk s) {i : Nat} {x : List Name}
    (h : GroupPath (allGroups s) i x) : ∀ {y : List Name}, GroupPath (allGroups s) i y → x = y := by
  induction h with
  | root =>
    intro y hy
    generalize hz : 0 = z at hy
    cases hy with
    | root => rfl
    | down hg _ => have := groupId_pos hi hg; omega
  | @down g p hg _ ih =>
    intro y hy
    generalize hz : g.id = z at hy
    cases hy with
    | root => have := groupId_pos hi hg; omega
    | @down h q hh hq =>
      have := allGroups_eq hi hg hh hz
      subst this
      rw [ih hq]

/-- What leads to a type has its full name. -/
theorem leads_full {s : Store} (hi : IdsOk s) (hg : GInv s)
    {gs : List Group} (hsub : ∀ h ∈ gs, h ∈ allGroups s) {parent : Nat}
    {p : List Name} {id : Nat} (h : Leads gs s parent p id) :
    ∀ {g : List Name}, GroupPath (allGroups s) parent g → g ++ p ∈ typeNames s := by
  induction h with
  | @here parent w id ht =>
    intro g hp
    simp only [typeNames, List.mem_append, List.mem_map]
    rcases ht with ⟨e, h1, _, h3, h4⟩ | ⟨t, h1, _, h3, h4⟩
    · right
      have := groupPath_unique hi (hg.enum e (by simp [h1])) (h4 ▸ hp)
      exact ⟨e, h1, by rw [this, h3]⟩
    · left
      have := groupPath_unique hi (hg.struct t (by simp [h1])) (h4 ▸ hp)
      exact ⟨t, h1, by rw [this, h3]⟩
  | @into parent w rest id h hm hn hpar _ ih =>
    intro g hp
    have : GroupPath (allGroups s) h.id (g ++ [h.name]) := .down (hsub h hm) (hpar ▸ hp)
    have := ih this
    rw [hn] at this
    simpa using this

/-- A path that leads somewhere passes the groups named on the way. -/
theorem leads_through {s : Store} {gs : List Group} (hsub : ∀ h ∈ gs, h ∈ allGroups s)
    {parent : Nat} {p : List Name} {id : Nat} (h : Leads gs s parent p id) :
    ∀ {g a q : List Name}, GroupPath (allGroups s) parent g → p = a ++ q → a ≠ [] → q ≠ [] →
      ∃ h ∈ gs, GroupPath (allGroups s) h.id (g ++ a) := by
  induction h with
  | @here parent w id ht =>
    intro g a q hp he ha hq
    cases a with
    | nil => exact absurd rfl ha
    | cons x a =>
      simp only [List.cons_append, List.cons.injEq] at he
      have := he.2.symm
      simp only [List.append_eq_nil_iff] at this
      exact absurd this.2 hq
  | @into parent w rest id h hm hn hpar _ ih =>
    intro g a q hp he ha hq
    have hd : GroupPath (allGroups s) h.id (g ++ [h.name]) := .down (hsub h hm) (hpar ▸ hp)
    cases a with
    | nil => exact absurd rfl ha
    | cons x a =>
      simp only [List.cons_append, List.cons.injEq] at he
      rw [← he.1]
      rw [hn] at hd
      cases a with
      | nil => exact ⟨h, hm, hd⟩
      | cons y a =>
        obtain ⟨k, hk1, hk2⟩ := ih hd he.2 (by simp) hq
        exact ⟨k, hk1, by simpa using hk2⟩

/-- A way through groups. -/
inductive Way (gs : List Group) : Nat → List Name → Nat → Prop where
  | nil {i : Nat} : Way gs i [] i
  | cons {i j : Nat} {m : List Name} {h : Group} :
      h ∈ gs → h.parent = i → Way gs h.id m j → Way gs i (h.name :: m) j

theorem Way.leads {gs : List Group} {s : Store} {i j : Nat} {m : List Name} (h : Way gs i m j)
    {w : Name} {id : Nat} (ht : TypeIn s j w id) : Leads gs s i (m ++ [w]) id := by
  induction h with
  | nil => exact .here ht
  | cons hm hp _ ih => exact .into hm rfl hp (ih ht)

theorem Way.snoc {gs : List Group} {i : Nat} {m : List Name} {h : Group} (hw : Way gs i m h.parent)
    (hm : h ∈ gs) : Way gs i (m ++ [h.name]) h.id := by
  generalize hj : h.parent = j at hw
  induction hw with
  | nil => exact .cons hm hj .nil
  | cons h1 h2 _ ih => exact .cons h1 h2 (ih hj)

/-- From a group to one whose name is longer, the way leads through groups of the names in
between. -/
theorem way_of_path {s : Store} (hj : Inj s) (gs : List Group) {parent : Nat} {g0 : List Name}
    (hp : GroupPath (allGroups s) parent g0) :
    ∀ (n : Nat) (m : List Name) (i : Nat), m.length = n → GroupPath (allGroups s) i (g0 ++ m) →
    (∀ h ∈ allGroups s, ∀ a b, m = a ++ b → a ≠ [] → GroupPath (allGroups s) h.id (g0 ++ a) →
      h ∈ gs) → Way gs parent m i
  | 0, m, i, hn, hi, _ => by
    have : m = [] := List.length_eq_zero_iff.mp hn
    subst this
    rw [List.append_nil] at hi
    rw [hj _ _ _ hp hi]
    exact .nil
  | n + 1, m, i, hn, hi, hc => by
    have hm : m ≠ [] := by intro e; rw [e] at hn; simp at hn
    have hsplit : m = m.dropLast ++ [m.getLast hm] := (List.dropLast_concat_getLast hm).symm
    generalize hy : g0 ++ m = y at hi
    cases hi with
    | root => simp [hm] at hy
    | @down h q hh hq =>
      rw [hsplit, ← List.append_assoc] at hy
      obtain ⟨e1, e2⟩ := List.append_inj' hy rfl
      simp only [List.cons.injEq, and_true] at e2
      rw [hsplit, e2]
      rw [← e1] at hq
      refine Way.snoc ?_ ?_
      · refine way_of_path hj gs hp n m.dropLast h.parent (by simp [hn]) hq ?_
        intro k hk a b hab ha hkp
        refine hc k hk a (b ++ [m.getLast hm]) ?_ ha hkp
        rw [← List.append_assoc, ← hab]
        exact hsplit
      · refine hc h hh m [] (by simp) hm ?_
        have : GroupPath (allGroups s) h.id ((g0 ++ m.dropLast) ++ [h.name]) := .down hh hq
        rw [← e2, List.append_assoc, List.dropLast_concat_getLast] at this
        exact this

theorem leads_of_full {s : Store} (hg : GInv s) (hj : Inj s)
    (gs : List Group) {parent : Nat} {g0 p : List Name} (hp : GroupPath (allGroups s) parent g0)
    (hne : p ≠ []) (hmem : g0 ++ p ∈ typeNames s)
    (hc : ∀ h ∈ allGroups s, ∀ a b, p = a ++ b → a ≠ [] → b ≠ [] →
      GroupPath (allGroups s) h.id (g0 ++ a) → h ∈ gs) :
    ∃ id, Leads gs s parent p id := by
  have hsplit : p = p.dropLast ++ [p.getLast hne] := (List.dropLast_concat_getLast hne).symm
  have key : ∀ (j : Nat) (x : List Name) (w : Name), GroupPath (allGroups s) j x →
      x ++ [w] = g0 ++ p → ∀ id, TypeIn s j w id → ∃ id, Leads gs s parent p id := by
    intro j x w hx he id ht
    rw [hsplit, ← List.append_assoc] at he
    obtain ⟨e1, e2⟩ := List.append_inj' he rfl
    simp only [List.cons.injEq, and_true] at e2
    rw [e1] at hx
    have hw := way_of_path hj gs hp p.dropLast.length p.dropLast j rfl hx (by
      intro h hh a b hab ha hpath
      refine hc h hh a (b ++ [p.getLast hne]) ?_ ha (by simp) hpath
      rw [← List.append_assoc, ← hab]
      exact hsplit)
    have := hw.leads ht
    rw [e2, ← hsplit] at this
    exact ⟨id, this⟩
  simp only [typeNames, List.mem_append, List.mem_map] at hmem
  rcases hmem with ⟨t, h1, h2⟩ | ⟨e, h1, h2⟩
  · exact key t.parent t.path t.name (hg.struct t (by simp [h1])) h2 t.id
      (.inr ⟨t, h1, rfl, rfl, rfl⟩)
  · exact key e.parent e.path e.name (hg.enum e (by simp [h1])) h2 e.id
      (.inl ⟨e, h1, rfl, rfl, rfl⟩)

theorem groupNamesUnique_of_inj {s : Store} (hi : IdsOk s) (hg : GInv s) (hj : Inj s) :
    GroupNamesUnique s := by
  intro g hgm h hhm hn hp
  have hga : g ∈ allGroups s := by simp [allGroups, hgm]
  have hha : h ∈ allGroups s := by simp [allGroups, hhm]
  obtain ⟨p, h1⟩ := hg.known g hga
  have a1 : GroupPath (allGroups s) g.id (p ++ [g.name]) := .down hga h1
  have a2 : GroupPath (allGroups s) h.id (p ++ [h.name]) := .down hha (hp ▸ h1)
  rw [hn] at a1
  exact allGroups_eq hi hga hha (hj _ _ _ a1 a2)

/-- Group ids grow along a way down. -/
theorem path_prefix_lt {s : Store} (hg : GInv s) {j : Nat} {x : List Name}
    (h : GroupPath (allGroups s) j x) : ∀ {i : Nat} {g0 m : List Name}, x = g0 ++ m → m ≠ [] →
      GroupPath (allGroups s) i g0 → Inj s → i < j := by
  induction h with
  | root => intro i g0 m he hm; simp at he; exact absurd he.2 hm
  | @down k p hk hp ih =>
    intro i g0 m he hm hpi hj
    have hsplit : m = m.dropLast ++ [m.getLast hm] := (List.dropLast_concat_getLast hm).symm
    rw [hsplit, ← List.append_assoc] at he
    obtain ⟨e1, _⟩ := List.append_inj' he rfl
    have hlt := hg.older k hk
    by_cases hd : m.dropLast = []
    · rw [hd, List.append_nil] at e1
      rw [e1] at hp
      rw [hj _ _ _ hpi hp]; exact hlt
    · have := ih e1 hd hpi hj
      omega

/-- The lookup, in terms of full names. -/
theorem resolve_iff {s : Store} {known gs : List (List Name)} {g : List Name}
    (ha : Abs s known gs g) (hj : Inj s) (p : List Name) (hne : p ≠ []) :
    (s.resolve s.groupId p).isSome = true ↔ Resolves known g p := by
  have hi := reach_idsOk ha.reach
  have hg := reach_ginv ha.reach
  have hu := groupNamesUnique_of_inj hi hg hj
  have hsub : ∀ h ∈ s.groups, h ∈ allGroups s := fun h hh => by simp [allGroups, hh]
  have hfind : ∀ parent, (s.findByPath parent p).isSome = true ↔
      ∃ id, Leads s.groups s parent p id := by
    intro parent
    constructor
    · intro h
      obtain ⟨r, hr⟩ := Option.isSome_iff_exists.mp h
      obtain ⟨w, id, _, _, h3, _⟩ := findByPath_sound s parent p r hr
      exact ⟨id, h3⟩
    · rintro ⟨id, h⟩
      obtain ⟨r, hr⟩ := findByPath_complete s hu h
      simp [hr]
  have hres : (s.resolve s.groupId p).isSome = true ↔
      (s.findByPath s.groupId p).isSome = true ∨ (s.findByPath 0 p).isSome = true := by
    unfold Store.resolve
    cases s.findByPath s.groupId p <;> simp
  have hcur : ∀ h ∈ allGroups s, h.id ≠ s.groupId → h ∈ s.groups := by
    intro h hh hn
    simp only [allGroups, List.mem_append, Option.mem_toList] at hh
    rcases hh with hh | hh
    · exact hh
    · exact absurd (by simp [Store.groupId, hh]) hn
  have hnot : ∀ h ∈ s.groups, h.id ≠ s.groupId := by
    intro h hh he
    cases hc : s.cGroup with
    | none =>
      have := groupId_pos hi (hsub h hh)
      simp [Store.groupId, hc] at he
      omega
    | some c =>
      simp only [Store.groupId, hc] at he
      have h1 := count_group s hi h.id
      have h2 : 1 ≤ (s.groups.map Group.id).count h.id :=
        List.one_le_count_iff.mpr (List.mem_map.mpr ⟨h, hh, rfl⟩)
      simp only [hc, Option.toList_some, List.map_cons, List.map_nil, he] at h1
      rw [he] at h2
      simp at h1
      omega
  rw [hres, hfind, hfind, Resolves, ha.types, ha.types]
  constructor
  · rintro (⟨id, h⟩ | ⟨id, h⟩)
    · exact .inl (leads_full hi hg hsub h ha.here)
    · by_cases hgn : g = []
      · left
        rw [hgn]
        exact leads_full hi hg hsub h .root
      · refine .inr ⟨by simpa using leads_full hi hg hsub h .root, .inr ?_⟩
        intro q hq he
        obtain ⟨k, hk, hkp⟩ := leads_through hsub h .root he hgn hq
        exact hnot k hk (hj _ _ _ (by simpa using hkp) ha.here)
  · rintro (h | ⟨h, hcond⟩)
    · left
      refine leads_of_full hg hj s.groups ha.here hne h ?_
      intro k hk a b _ hane _ hkp
      refine hcur k hk ?_
      have := path_prefix_lt hg hkp rfl hane ha.here hj
      omega
    · right
      refine leads_of_full hg hj s.groups .root hne (by simpa using h) ?_
      intro k hk a b hab hane hbne hkp
      refine hcur k hk ?_
      intro he
      rw [he] at hkp
      have hag : g = a := by simpa using groupPath_unique hi ha.here hkp
      rcases hcond with hcond | hcond
      · exact hane (hag ▸ hcond)
      · exact hcond b hbne (by rw [hag]; exact hab)

theorem typeOk_iff {s : Store} {known gs : List (List Name)} {g : List Name}
    (ha : Abs s known gs g) (hj : Inj s) (p : List Name) (hne : p ≠ []) :
    TypeOkS s s.groupId p ↔ TypeOk known g p := by
  unfold TypeOkS TypeOk
  rw [resolve_iff ha hj p hne]

end Verif.Prot.Syntax
