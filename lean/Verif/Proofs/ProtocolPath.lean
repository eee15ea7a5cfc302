import Verif.Proofs.ProtocolStore
set_option autoImplicit false
/-!
Invariants of the protocol store: nesting of groups, recorded paths, no panic, field names.
-/
namespace Verif.Prot

open Verif

/-- All groups, with the open one. -/
def allGroups (s : Store) : List Group := s.groups ++ s.cGroup.toList

/-- Every group of `gs` is in `hs`, up to the lists of members. -/
def Cover (gs hs : List Group) : Prop :=
  ∀ g ∈ gs, ∃ h ∈ hs, h.id = g.id ∧ h.parent = g.parent ∧ h.name = g.name

theorem Cover.refl (gs : List Group) : Cover gs gs := fun g hg => ⟨g, hg, rfl, rfl, rfl⟩

theorem GroupPath.mono {gs hs : List Group} {i : Nat} {p : List Name} (h : GroupPath gs i p)
    (hc : Cover gs hs) : GroupPath hs i p := by
  induction h with
  | root => exact .root
  | down hg _ ih =>
    obtain ⟨h, h1, h2, h3, h4⟩ := hc _ hg
    rw [← h2, ← h4]
    exact .down h1 (h3 ▸ ih)

/-- The groups on a path to `i` have ids up to `i`. -/
theorem GroupPath.restrict {gs hs : List Group} {i : Nat} {p : List Name} (h : GroupPath gs i p)
    (ho : ∀ g ∈ gs, g.parent < g.id) (hc : ∀ g ∈ gs, g.id ≤ i → g ∈ hs) : GroupPath hs i p := by
  induction h with
  | root => exact .root
  | down hg _ ih =>
    refine .down (hc _ hg (Nat.le_refl _)) (ih ?_)
    intro g hg2 hle
    have := ho _ hg
    exact hc g hg2 (by omega)

theorem groupPath_zero {gs : List Group} (ho : ∀ g ∈ gs, g.parent < g.id) :
    ∀ {i : Nat} {p : List Name}, GroupPath gs i p → i = 0 → p = []
  | _, _, .root, _ => rfl
  | _, _, .down hg _, h => by have := ho _ hg; omega

/-- The part of the invariant about groups. -/
structure GInv (s : Store) : Prop where
  top : s.path.getLast? = s.cGroup.map Group.id
  older : ∀ g ∈ allGroups s, g.parent < g.id
  known : ∀ g ∈ allGroups s, ∃ p, GroupPath (allGroups s) g.parent p
  struct : ∀ t ∈ s.structs ++ s.cStruct.toList, GroupPath (allGroups s) t.parent t.path
  enum : ∀ t ∈ s.enums ++ s.cEnum.toList, GroupPath (allGroups s) t.parent t.path

theorem count_group (s : Store) (hi : IdsOk s) (i : Nat) :
    (s.groups.map Group.id).count i + (s.cGroup.toList.map Group.id).count i ≤ 1 := by
  have := hi i
  simp only [allIds, List.count_append] at this
  split at this <;> omega

theorem find_group {gs : List Group} {g : Group} (hg : g ∈ gs)
    (hc : (gs.map Group.id).count g.id ≤ 1) : gs.find? (fun x => x.id == g.id) = some g := by
  induction gs with
  | nil => simp at hg
  | cons h gs ih =>
    simp only [List.find?_cons]
    by_cases hh : h.id = g.id
    · simp only [hh, beq_self_eq_true]
      rcases List.mem_cons.mp hg with rfl | hg
      · rfl
      · exfalso
        have : 1 ≤ (gs.map Group.id).count g.id :=
          List.one_le_count_iff.mpr (List.mem_map.mpr ⟨g, hg, rfl⟩)
        simp only [List.map_cons, List.count_cons, hh, beq_self_eq_true, if_true] at hc
        omega
    · have hb : (h.id == g.id) = false := by simpa using hh
      simp only [hb]
      rcases List.mem_cons.mp hg with rfl | hg
      · exact absurd rfl hh
      · refine ih hg ?_
        simp only [List.map_cons, List.count_cons] at hc
        omega

theorem climb_eq (s : Store) (hi : IdsOk s) (ho : ∀ g ∈ s.groups, g.parent < g.id) {i : Nat}
    {p : List Name} (h : GroupPath s.groups i p) :
    ∀ fuel, i ≤ fuel → s.climb fuel i = p.reverse := by
  induction h with
  | root =>
    intro fuel _
    cases fuel with
    | zero => rfl
    | succ n =>
      have : s.getGroup 0 = none := by
        simp only [Store.getGroup, List.find?_eq_none]
        intro g hg
        have := ho g hg
        simp; omega
      simp [Store.climb, this]
  | @down g q hg hp ih =>
    intro fuel hf
    have h1 := ho g hg
    cases fuel with
    | zero => omega
    | succ n =>
      have hc := count_group s hi g.id
      have : s.getGroup g.id = some g := find_group hg (by omega)
      simp only [Store.climb, this, List.reverse_append, List.reverse_cons, List.reverse_nil,
        List.nil_append, List.singleton_append]
      rw [ih n (by omega)]

theorem getGroup_current (s : Store) (hi : IdsOk s) {g : Group} (hg : s.cGroup = some g) :
    s.getGroup g.id = none := by
  have := count_group s hi g.id
  simp only [hg, Option.toList_some, List.map_cons, List.map_nil, List.count_singleton_self] at this
  simp only [Store.getGroup, List.find?_eq_none]
  intro x hx hxe
  have : 1 ≤ (s.groups.map Group.id).count g.id :=
    List.one_le_count_iff.mpr (List.mem_map.mpr ⟨x, hx, by simpa using hxe⟩)
  omega

/-- The path recorded for a declaration in the current group. -/
theorem pathByParent_ok (s : Store) (hi : IdsOk s) (hg : GInv s) :
    GroupPath (allGroups s) s.groupId (s.pathByParent s.groupId) := by
  cases hc : s.cGroup with
  | none =>
    simp only [Store.groupId, hc, Store.pathByParent]
    exact .root
  | some g =>
    have hmem : g ∈ allGroups s := by simp [allGroups, hc]
    have hold := hg.older g hmem
    obtain ⟨p, hp⟩ := hg.known g hmem
    have hp2 : GroupPath s.groups g.parent p := by
      refine hp.restrict hg.older ?_
      intro x hx hle
      simp only [allGroups, hc, Option.toList_some, List.mem_append, List.mem_singleton] at hx
      rcases hx with hx | rfl
      · exact hx
      · omega
    have key : s.pathByParent g.id = p ++ [g.name] := by
      unfold Store.pathByParent
      rw [if_neg (by omega), getGroup_current s hi hc]
      simp only [hc]
      split
      · rw [climb_eq s hi (fun x hx => hg.older x (by simp [allGroups, hx])) hp2 _
          (Nat.le_refl _)]
        simp
      · rename_i hz
        have hz : g.parent = 0 := by simpa using hz
        rw [groupPath_zero hg.older hp hz]
        rfl
    simp only [Store.groupId, hc, key]
    exact .down hmem hp

theorem GInv.mono {s s2 : Store} (hg : GInv s) (h1 : s2.path = s.path)
    (h2 : s2.groups = s.groups) (h3 : s2.cGroup = s.cGroup)
    (h4 : ∀ t ∈ s2.structs ++ s2.cStruct.toList, ∃ u ∈ s.structs ++ s.cStruct.toList,
      u.parent = t.parent ∧ u.path = t.path)
    (h5 : ∀ t ∈ s2.enums ++ s2.cEnum.toList, ∃ u ∈ s.enums ++ s.cEnum.toList,
      u.parent = t.parent ∧ u.path = t.path) : GInv s2 := by
  have ha : allGroups s2 = allGroups s := by simp [allGroups, h2, h3]
  refine ⟨by rw [h1, h3]; exact hg.top, by rw [ha]; exact hg.older, by rw [ha]; exact hg.known,
    ?_, ?_⟩
  · intro t ht
    obtain ⟨u, hu, e1, e2⟩ := h4 t ht
    rw [ha, ← e1, ← e2]; exact hg.struct u hu
  · intro t ht
    obtain ⟨u, hu, e1, e2⟩ := h5 t ht
    rw [ha, ← e1, ← e2]; exact hg.enum u hu

theorem repl_enum {l : List Enum} {o : Option Enum} {e e2 : Enum} (he : o = some e)
    (hp : e.parent = e2.parent) (hq : e.path = e2.path) :
    ∀ t ∈ l ++ (some e2).toList, ∃ u ∈ l ++ o.toList, u.parent = t.parent ∧ u.path = t.path := by
  intro t ht
  simp only [Option.toList_some, List.mem_append, List.mem_singleton] at ht
  rcases ht with ht | rfl
  · exact ⟨t, by simp [ht], rfl, rfl⟩
  · exact ⟨e, by simp [he], hp, hq⟩

theorem repl_struct {l : List Struct} {o : Option Struct} {e e2 : Struct} (he : o = some e)
    (hp : e.parent = e2.parent) (hq : e.path = e2.path) :
    ∀ t ∈ l ++ (some e2).toList, ∃ u ∈ l ++ o.toList, u.parent = t.parent ∧ u.path = t.path := by
  intro t ht
  simp only [Option.toList_some, List.mem_append, List.mem_singleton] at ht
  rcases ht with ht | rfl
  · exact ⟨t, by simp [ht], rfl, rfl⟩
  · exact ⟨e, by simp [he], hp, hq⟩

theorem ginv_new : GInv Store.new := by
  refine ⟨rfl, ?_, ?_, ?_, ?_⟩ <;> simp [Store.new, allGroups]

/-- Changing the member lists of the current group. -/
theorem GInv.bind {s : Store} (hg : GInv s) (seq : Nat) (f : Group → Group)
    (hf : ∀ g, (f g).id = g.id ∧ (f g).parent = g.parent ∧ (f g).name = g.name) :
    GInv { s with sequence := seq, cGroup := s.cGroup.map f } := by
  have hc : Cover (allGroups s) (s.groups ++ (s.cGroup.map f).toList) := by
    intro g hg
    simp only [allGroups, List.mem_append, Option.mem_toList] at hg
    rcases hg with hg | hg
    · exact ⟨g, by simp [hg], rfl, rfl, rfl⟩
    · exact ⟨f g, by simp [hg], (hf g).1, (hf g).2.1, (hf g).2.2⟩
  have hback : ∀ g ∈ s.groups ++ (s.cGroup.map f).toList, ∃ h ∈ allGroups s,
      h.id = g.id ∧ h.parent = g.parent := by
    intro g hg
    simp only [List.mem_append, Option.mem_toList, Option.map_eq_some_iff] at hg
    rcases hg with hg | ⟨h, hh, rfl⟩
    · exact ⟨g, by simp [allGroups, hg], rfl, rfl⟩
    · exact ⟨h, by simp [allGroups, hh], (hf h).1.symm, (hf h).2.1.symm⟩
  refine ⟨?_, ?_, ?_, ?_, ?_⟩
  · simp only [hg.top]
    cases s.cGroup with
    | none => rfl
    | some g => simp [(hf g).1]
  · intro g hx
    obtain ⟨h, h1, h2, h3⟩ := hback g hx
    have := hg.older h h1
    omega
  · intro g hx
    obtain ⟨h, h1, h2, h3⟩ := hback g hx
    obtain ⟨p, hp⟩ := hg.known h h1
    exact ⟨p, h3 ▸ hp.mono hc⟩
  · intro t ht
    exact (hg.struct t ht).mono hc
  · intro t ht
    exact (hg.enum t ht).mono hc

theorem idsOk_bind {s : Store} (hi : IdsOk s) (seq : Nat) (hs : s.sequence ≤ seq)
    (f : Group → Group) (hf : ∀ g, (f g).id = g.id) :
    IdsOk { s with sequence := seq, cGroup := s.cGroup.map f } := by
  intro i
  have hi := hi i
  cases hg : s.cGroup <;>
    simp_all [allIds, List.count_cons, List.count_append] <;>
    (repeat' split at hi) <;> (repeat' split) <;> omega

theorem ginv_op {s s2 : Store} (h : StoreOp s s2) (hi : IdsOk s) (hg : GInv s) : GInv s2 := by
  cases h with
  | openStruct h =>
    simp only [Store.openStruct] at h
    split at h
    · simp at h
    · split at h
      · simp at h
      · rename_i w hs he
        simp only [Res.ok.injEq] at h
        have g1 := hg.bind (s.sequence + 1) (fun g : Group =>
          { g with structs := g.structs ++ [s.sequence + 1] }) (fun g => ⟨rfl, rfl, rfl⟩)
        have i1 := idsOk_bind hi (s.sequence + 1) (by omega) (fun g : Group =>
          { g with structs := g.structs ++ [s.sequence + 1] }) (fun g => rfl)
        have key := pathByParent_ok _ i1 g1
        subst h
        refine ⟨g1.top, g1.older, g1.known, ?_, g1.enum⟩
        intro t ht
        simp only [Option.toList_some, List.mem_append, List.mem_singleton] at ht
        rcases ht with ht | rfl
        · exact g1.struct t (by simp [ht])
        · exact key
  | openEnum h =>
    simp only [Store.openEnum] at h
    split at h
    · simp at h
    · split at h
      · simp at h
      · rename_i w hs he
        simp only [Res.ok.injEq] at h
        have g1 := hg.bind (s.sequence + 1) (fun g : Group =>
          { g with enums := g.enums ++ [s.sequence + 1] }) (fun g => ⟨rfl, rfl, rfl⟩)
        have i1 := idsOk_bind hi (s.sequence + 1) (by omega) (fun g : Group =>
          { g with enums := g.enums ++ [s.sequence + 1] }) (fun g => rfl)
        have key := pathByParent_ok _ i1 g1
        subst h
        refine ⟨g1.top, g1.older, g1.known, g1.struct, ?_⟩
        intro t ht
        simp only [Option.toList_some, List.mem_append, List.mem_singleton] at ht
        rcases ht with ht | rfl
        · exact g1.enum t (by simp [ht])
        · exact key
  | openGroup h =>
    simp only [Store.openGroup] at h
    split at h
    · simp at h
    · split at h
      · simp at h
      · rename_i w hs he
        simp only [Res.ok.injEq] at h
        have key := pathByParent_ok s hi hg
        have hle : s.groupId ≤ s.sequence := by
          cases hc : s.cGroup with
          | none => simp [Store.groupId, hc]
          | some g =>
            have := hi g.id
            have h1 : 1 ≤ (allIds s).count g.id :=
              List.one_le_count_iff.mpr (by simp [allIds, hc])
            simp only [Store.groupId, hc]
            split at this <;> omega
        have hc : Cover (allGroups s) (allGroups s2) := by
          intro g hg
          subst h
          simp only [allGroups, List.mem_append, Option.mem_toList] at hg ⊢
          rcases hg with hg | hg
          · refine ⟨g, .inl ?_, rfl, rfl, rfl⟩
            split <;> simp [hg]
          · exact ⟨{ g with groups := g.groups ++ [s.sequence + 1] }, .inl (by simp [hg]),
              rfl, rfl, rfl⟩
        have hback : ∀ g ∈ allGroups s2, (∃ h ∈ allGroups s, h.id = g.id ∧ h.parent = g.parent) ∨
            (g.id = s.sequence + 1 ∧ g.parent = s.groupId) := by
          intro g hg
          subst h
          simp only [allGroups, Option.toList_some, List.mem_append, List.mem_singleton] at hg ⊢
          rcases hg with hg | rfl
          · split at hg
            · rename_i x hx
              simp only [List.mem_append, List.mem_singleton] at hg
              rcases hg with hg | rfl
              · exact .inl ⟨g, .inl hg, rfl, rfl⟩
              · exact .inl ⟨x, .inr (by simp [hx]), rfl, rfl⟩
            · exact .inl ⟨g, .inl hg, rfl, rfl⟩
          · exact .inr ⟨rfl, rfl⟩
        refine ⟨?_, ?_, ?_, ?_, ?_⟩
        · subst h; simp
        · intro g hx
          rcases hback g hx with ⟨x, h1, h2, h3⟩ | ⟨h2, h3⟩
          · have := hg.older x h1; omega
          · omega
        · intro g hx
          rcases hback g hx with ⟨x, h1, h2, h3⟩ | ⟨h2, h3⟩
          · obtain ⟨p, hp⟩ := hg.known x h1
            exact ⟨p, h3 ▸ hp.mono hc⟩
          · exact ⟨_, h3 ▸ key.mono hc⟩
        · intro t ht
          have : t ∈ s.structs ++ s.cStruct.toList := by subst h; exact ht
          exact (hg.struct t this).mono hc
        · intro t ht
          have : t ∈ s.enums ++ s.cEnum.toList := by subst h; exact ht
          exact (hg.enum t this).mono hc
  | setFieldType h =>
    simp only [Store.setFieldType] at h
    split at h
    · simp at h
    · split at h <;>
        (simp only [Res.ok.injEq] at h; subst h
         exact hg.mono rfl rfl rfl (fun t ht => ⟨t, ht, rfl, rfl⟩) (fun t ht => ⟨t, ht, rfl, rfl⟩))
  | setRepeated h =>
    simp only [Store.setRepeated] at h
    repeat' split at h
    all_goals first
      | (simp at h; done)
      | (simp only [Res.ok.injEq] at h; subst h
         exact hg.mono rfl rfl rfl (fun t ht => ⟨t, ht, rfl, rfl⟩)
           (by apply repl_enum; assumption; rfl; rfl))
      | (simp only [Res.ok.injEq] at h; subst h
         exact hg.mono rfl rfl rfl (fun t ht => ⟨t, ht, rfl, rfl⟩) (fun t ht => ⟨t, ht, rfl, rfl⟩))
  | setOptional h =>
    simp only [Store.setOptional] at h
    split at h
    · simp only [Res.ok.injEq] at h; subst h
      exact hg.mono rfl rfl rfl (fun t ht => ⟨t, ht, rfl, rfl⟩) (fun t ht => ⟨t, ht, rfl, rfl⟩)
    · simp at h
  | setFieldName h =>
    simp only [Store.setFieldName] at h
    split at h
    · simp at h
    · split at h
      · simp at h
      · simp only [Res.bind_eq_ok, Res.pure_eq, Res.ok.injEq] at h
        obtain ⟨f2, h1, rfl⟩ := h
        exact hg.mono rfl rfl rfl (fun t ht => ⟨t, ht, rfl, rfl⟩) (fun t ht => ⟨t, ht, rfl, rfl⟩)
  | closeField h =>
    simp only [Store.closeField] at h
    split at h
    · simp at h
    · split at h
      · simp at h
      · split at h
        · simp at h
        · simp only [Res.ok.injEq] at h; subst h
          exact hg.mono rfl rfl rfl (by apply repl_struct; assumption; rfl; rfl)
            (fun t ht => ⟨t, ht, rfl, rfl⟩)
  | setEnumType h =>
    simp only [Store.setEnumType] at h
    repeat' split at h
    all_goals first
      | (simp at h; done)
      | (simp only [Res.ok.injEq] at h; subst h
         exact hg.mono rfl rfl rfl (fun t ht => ⟨t, ht, rfl, rfl⟩)
           (by apply repl_enum; assumption; rfl; rfl))
  | setSimple h =>
    simp only [Store.setSimple] at h
    repeat' split at h
    all_goals first
      | (simp at h; done)
      | (simp only [Res.ok.injEq] at h; subst h
         exact hg.mono rfl rfl rfl (fun t ht => ⟨t, ht, rfl, rfl⟩)
           (by apply repl_enum; assumption; rfl; rfl))
  | setEnumName h =>
    simp only [Store.setEnumName] at h
    split at h
    · simp at h
    · split at h
      · simp at h
      · simp only [Res.bind_eq_ok, Res.pure_eq, Res.ok.injEq] at h
        obtain ⟨f2, h1, rfl⟩ := h
        exact hg.mono rfl rfl rfl (fun t ht => ⟨t, ht, rfl, rfl⟩)
           (by apply repl_enum; assumption; rfl; rfl)
  | close h =>
    simp only [Store.close] at h
    split at h
    · rename_i e he
      simp only [Res.ok.injEq] at h; subst h
      refine hg.mono rfl rfl rfl (fun t ht => ⟨t, ht, rfl, rfl⟩) (fun t ht => ⟨t, ?_, rfl, rfl⟩)
      simp_all
    · split at h
      · simp only [Res.ok.injEq] at h; subst h
        refine hg.mono rfl rfl rfl (fun t ht => ⟨t, ?_, rfl, rfl⟩) (fun t ht => ⟨t, ht, rfl, rfl⟩)
        simp_all
      · split at h
        · simp at h
        · rename_i g hgc
          split at h
          · simp at h
          · split at h
            · rename_i hp
              simp only [Res.ok.injEq] at h
              have ha : allGroups s2 = allGroups s := by subst h; simp [allGroups, hgc]
              refine ⟨?_, by rw [ha]; exact hg.older, by rw [ha]; exact hg.known, ?_, ?_⟩
              · subst h; simpa using hp
              · intro t ht; rw [ha]
                exact hg.struct t (by subst h; exact ht)
              · intro t ht; rw [ha]
                exact hg.enum t (by subst h; exact ht)
            · rename_i top hp
              split at h
              · simp at h
              · rename_i x hx
                simp only [Res.ok.injEq] at h
                have hid : x.id = top := by
                  have := List.find?_some hx; simpa using this
                have hm : ∀ y, y ∈ allGroups s2 ↔ y ∈ allGroups s := by
                  intro y
                  have hxm := List.mem_of_find?_eq_some hx
                  have e1 : allGroups s2 =
                      (s.groups ++ [g]).eraseP (fun x => x.id == top) ++ [x] := by
                    subst h; simp [allGroups]
                  have e2 : allGroups s = s.groups ++ [g] := by simp [allGroups, hgc]
                  rw [e1, e2, List.mem_append, List.mem_singleton]
                  constructor
                  · rintro (hy | rfl)
                    · exact List.mem_of_mem_eraseP hy
                    · exact hxm
                  · intro hy
                    by_cases hyx : y.id = top
                    · right
                      have hc : ((s.groups ++ [g]).map Group.id).count y.id ≤ 1 := by
                        have := count_group s hi y.id
                        simp only [hgc, Option.toList_some] at this
                        simpa [List.count_append] using this
                      have := find_group hy hc
                      rw [hyx, hx] at this
                      exact (Option.some.inj this).symm
                    · left
                      exact (List.mem_eraseP_of_neg (by simpa using hyx)).mpr hy
                have hc : Cover (allGroups s) (allGroups s2) :=
                  fun y hy => ⟨y, (hm y).mpr hy, rfl, rfl, rfl⟩
                refine ⟨?_, ?_, ?_, ?_, ?_⟩
                · subst h; simp [hp, hid]
                · intro y hy; exact hg.older y ((hm y).mp hy)
                · intro y hy
                  obtain ⟨p, h1⟩ := hg.known y ((hm y).mp hy)
                  exact ⟨p, h1.mono hc⟩
                · intro t ht
                  exact (hg.struct t (by subst h; exact ht)).mono hc
                · intro t ht
                  exact (hg.enum t (by subst h; exact ht)).mono hc

theorem reach_ginv {s : Store} (h : Reach s) : GInv s := by
  induction h with
  | new => exact ginv_new
  | step hr h ih => exact ginv_op h (reach_idsOk hr) ih

/-! ### No panic -/

theorem findByPath_ne_nil (s : Store) : ∀ (parent : Nat) (path : List Name)
    (r : List (Name × Nat)), s.findByPath parent path = some r → r ≠ []
  | _, [], _, h => by simp [Store.findByPath] at h
  | _, [w], r, h => by
    simp only [Store.findByPath] at h
    repeat' split at h
    all_goals first
      | (simp at h; done)
      | (simp only [Option.some.injEq] at h; subst h; simp)
  | _, w :: w2 :: rest, r, h => by
    simp only [Store.findByPath] at h
    split at h
    · simp only [Option.map_eq_some_iff] at h
      obtain ⟨a, _, rfl⟩ := h
      simp
    · simp at h

theorem resolve_ne_nil {s : Store} {own : Nat} {path : List Name} {r : List (Name × Nat)}
    (h : s.resolve own path = some r) : r ≠ [] := by
  unfold Store.resolve at h
  split at h
  · rename_i x hx
    simp only [Option.some.injEq] at h; subst h
    exact findByPath_ne_nil s _ _ _ hx
  · exact findByPath_ne_nil s _ _ _ h

theorem field_accept_no_panic (f : Field) (s : Store) (own : Nat) : f.acceptType s own ≠ .panic := by
  unfold Field.acceptType
  intro h
  repeat' split at h
  all_goals first
    | (simp at h; done)
    | (rename_i hr _ hn; exact resolve_ne_nil hr (by simpa using hn))

theorem item_accept_no_panic (f : EnumItem) (s : Store) (own : Nat) :
    f.acceptType s own ≠ .panic := by
  unfold EnumItem.acceptType
  intro h
  repeat' split at h
  all_goals first
    | (simp at h; done)
    | (rename_i hr _ hn; exact resolve_ne_nil hr (by simpa using hn))

theorem close_no_panic (s : Store) (hg : GInv s) : s.close ≠ .panic := by
  intro h
  simp only [Store.close] at h
  repeat' split at h
  all_goals first
    | (simp at h; done)
    | (rename_i g hgc hp
       have := hg.top
       rw [hgc] at this
       have hp : s.path = [] := by simpa using hp
       simp [hp] at this)

theorem openStruct_no_panic (s : Store) (w : Name) : s.openStruct w ≠ .panic := by
  intro h
  simp only [Store.openStruct] at h
  repeat' split at h
  all_goals simp at h

theorem openEnum_no_panic (s : Store) (w : Name) : s.openEnum w ≠ .panic := by
  intro h
  simp only [Store.openEnum] at h
  repeat' split at h
  all_goals simp at h

theorem openGroup_no_panic (s : Store) (w : Name) : s.openGroup w ≠ .panic := by
  intro h
  simp only [Store.openGroup] at h
  repeat' split at h
  all_goals simp at h

theorem setFieldType_no_panic (s : Store) (w : Name) : s.setFieldType w ≠ .panic := by
  intro h
  simp only [Store.setFieldType] at h
  repeat' split at h
  all_goals simp at h

theorem setSimple_no_panic (s : Store) (w : Name) : s.setSimple w ≠ .panic := by
  intro h
  simp only [Store.setSimple] at h
  repeat' split at h
  all_goals simp at h

theorem setEnumType_no_panic (s : Store) (w : Name) : s.setEnumType w ≠ .panic := by
  intro h
  simp only [Store.setEnumType] at h
  repeat' split at h
  all_goals simp at h

theorem setRepeated_no_panic (s : Store) : s.setRepeated ≠ .panic := by
  intro h
  simp only [Store.setRepeated] at h
  repeat' split at h
  all_goals simp at h

theorem setOptional_no_panic (s : Store) : s.setOptional ≠ .panic := by
  intro h
  simp only [Store.setOptional] at h
  repeat' split at h
  all_goals simp at h

theorem closeField_no_panic (s : Store) : s.closeField ≠ .panic := by
  intro h
  simp only [Store.closeField] at h
  repeat' split at h
  all_goals simp at h

theorem openBody_no_panic (s : Store) : s.openBody ≠ .panic := by
  intro h
  simp only [Store.openBody] at h
  repeat' split at h
  all_goals simp at h

theorem setFieldName_no_panic (s : Store) (w : Name) : s.setFieldName w ≠ .panic := by
  intro h
  simp only [Store.setFieldName] at h
  repeat' split at h
  all_goals first
    | (simp at h; done)
    | skip
  rw [Res.bind_eq_panic] at h
  rcases h with h | ⟨_, _, h⟩
  · exact field_accept_no_panic _ _ _ h
  · simp at h

theorem setEnumName_no_panic (s : Store) (w : Name) : s.setEnumName w ≠ .panic := by
  intro h
  simp only [Store.setEnumName] at h
  repeat' split at h
  all_goals first
    | (simp at h; done)
    | skip
  rw [Res.bind_eq_panic] at h
  rcases h with h | ⟨_, _, h⟩
  · exact item_accept_no_panic _ _ _ h
  · simp at h

theorem after_no_panic {r : Res Store} (hr : r ≠ .panic) (e : List Expect) (b : Bool) :
    after r e b ≠ .halt .panicked := by
  cases r <;> simp_all [after]

theorem onTok_no_panic (p : PState) (t : Tok) (hr : Reach p.store) :
    onTok p t ≠ .halt .panicked := by
  cases t with
  | word w n =>
    simp only [onTok, onWord]
    repeat' split
    all_goals first
      | (simp; done)
      | exact after_no_panic (openStruct_no_panic _ _) _ _
      | exact after_no_panic (openEnum_no_panic _ _) _ _
      | exact after_no_panic (openGroup_no_panic _ _) _ _
      | exact after_no_panic (setFieldType_no_panic _ _) _ _
      | exact after_no_panic (setFieldName_no_panic _ _) _ _
      | exact after_no_panic (setSimple_no_panic _ _) _ _
      | exact after_no_panic (setEnumType_no_panic _ _) _ _
      | exact after_no_panic (setEnumName_no_panic _ _) _ _
  | eof =>
    simp only [onTok]
    split <;> simp
  | closeStruct =>
    simp only [onTok]
    split
    · exact after_no_panic (close_no_panic _ (reach_ginv hr)) _ _
    · simp
  | semicolon =>
    simp only [onTok]
    split
    · refine after_no_panic ?_ _ _
      split
      · simp
      · exact closeField_no_panic _
    · simp
  | openStruct =>
    simp only [onTok]
    split
    · exact after_no_panic (openBody_no_panic _) _ _
    · simp
  | repeated =>
    simp only [onTok]
    split
    · exact after_no_panic (setRepeated_no_panic _) _ _
    · simp
  | optional =>
    simp only [onTok]
    split
    · exact after_no_panic (setOptional_no_panic _) _ _
    · simp
  | pathSpliter =>
    simp only [onTok]
    split <;> simp

theorem never_panics {text : List Char} : ¬ Parses text .panicked := by
  rintro ⟨n, hn⟩
  obtain ⟨q, d, hr, hs⟩ := loop_last n _ _ _ hn (Reach.new)
  unfold step at hs
  split at hs
  · simp at hs
  · rename_i t off _
    split at hs
    · simp at hs
    · rename_i o ho
      simp only [Next.halt.injEq] at hs
      subst hs
      exact onTok_no_panic q t hr ho

/-! ### Field names -/

/-- Field names of every struct are distinct. -/
def NamesOk (s : Store) : Prop :=
  ∀ t ∈ s.structs ++ s.cStruct.toList, (t.fields.map Field.name).Nodup

theorem namesOk_op {s s2 : Store} (h : StoreOp s s2) (hn : NamesOk s) : NamesOk s2 := by
  have same : s2.structs = s.structs → s2.cStruct = s.cStruct → NamesOk s2 := by
    intro h1 h2 t ht
    exact hn t (by rw [← h1, ← h2]; exact ht)
  cases h with
  | openStruct h =>
    simp only [Store.openStruct] at h
    repeat' split at h
    all_goals first
      | (simp at h; done)
      | skip
    simp only [Res.ok.injEq] at h; subst h
    intro t ht
    simp only [Option.toList_some, List.mem_append, List.mem_singleton] at ht
    rcases ht with ht | rfl
    · exact hn t (by simp [ht])
    · simp
  | openEnum h =>
    simp only [Store.openEnum] at h
    repeat' split at h
    all_goals first
      | (simp at h; done)
      | (simp only [Res.ok.injEq] at h; subst h; exact same rfl rfl)
  | openGroup h =>
    simp only [Store.openGroup] at h
    repeat' split at h
    all_goals first
      | (simp at h; done)
      | (simp only [Res.ok.injEq] at h; subst h; exact same rfl rfl)
  | setFieldType h =>
    simp only [Store.setFieldType] at h
    repeat' split at h
    all_goals first
      | (simp at h; done)
      | (simp only [Res.ok.injEq] at h; subst h; exact same rfl rfl)
  | setRepeated h =>
    simp only [Store.setRepeated] at h
    repeat' split at h
    all_goals first
      | (simp at h; done)
      | (simp only [Res.ok.injEq] at h; subst h; exact same rfl rfl)
  | setOptional h =>
    simp only [Store.setOptional] at h
    repeat' split at h
    all_goals first
      | (simp at h; done)
      | (simp only [Res.ok.injEq] at h; subst h; exact same rfl rfl)
  | setFieldName h =>
    simp only [Store.setFieldName] at h
    repeat' split at h
    all_goals first
      | (simp at h; done)
      | (simp only [Res.bind_eq_ok, Res.pure_eq, Res.ok.injEq] at h
         obtain ⟨f2, h1, rfl⟩ := h; exact same rfl rfl)
  | closeField h =>
    simp only [Store.closeField] at h
    split at h
    · simp at h
    · rename_i t0 ht0
      split at h
      · simp at h
      · rename_i f hf
        split at h
        · simp at h
        · rename_i hany
          simp only [Res.ok.injEq] at h; subst h
          intro t ht
          simp only [Option.toList_some, List.mem_append, List.mem_singleton] at ht
          rcases ht with ht | rfl
          · exact hn t (by simp [ht])
          · have := hn t0 (by simp [ht0])
            simp only [List.map_append, List.map_cons, List.map_nil]
            rw [List.nodup_append]
            refine ⟨this, by simp, ?_⟩
            intro a ha b hb
            simp only [List.mem_singleton] at hb
            subst hb
            rintro rfl
            obtain ⟨x, hx, hxn⟩ := List.mem_map.mp ha
            apply hany
            rw [List.any_eq_true]
            exact ⟨x, hx, by simpa using hxn⟩
  | setEnumType h =>
    simp only [Store.setEnumType] at h
    repeat' split at h
    all_goals first
      | (simp at h; done)
      | (simp only [Res.ok.injEq] at h; subst h; exact same rfl rfl)
  | setSimple h =>
    simp only [Store.setSimple] at h
    repeat' split at h
    all_goals first
      | (simp at h; done)
      | (simp only [Res.ok.injEq] at h; subst h; exact same rfl rfl)
  | setEnumName h =>
    simp only [Store.setEnumName] at h
    repeat' split at h
    all_goals first
      | (simp at h; done)
      | (simp only [Res.bind_eq_ok, Res.pure_eq, Res.ok.injEq] at h
         obtain ⟨f2, h1, rfl⟩ := h; exact same rfl rfl)
  | close h =>
    simp only [Store.close] at h
    split at h
    · simp only [Res.ok.injEq] at h; subst h; exact same rfl rfl
    · split at h
      · simp only [Res.ok.injEq] at h; subst h
        intro t ht
        exact hn t (by simp_all)
      · repeat' split at h
        all_goals first
          | (simp at h; done)
          | (simp only [Res.ok.injEq] at h; subst h; exact same rfl rfl)

theorem reach_namesOk {s : Store} (h : Reach s) : NamesOk s := by
  induction h with
  | new => intro t ht; simp [Store.new] at ht
  | step _ h ih => exact namesOk_op h ih

end Verif.Prot
