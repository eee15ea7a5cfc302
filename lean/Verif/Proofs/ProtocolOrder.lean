import Verif.Spec.RustNames
import Verif.Proofs.ProtocolAbs
set_option autoImplicit false
/-!
Invariants of the protocol store about order: the member lists of groups, and that ids inside a
group lie before those of later groups next to it.
-/
namespace Verif.Prot

open Verif Verif.Prot.Syntax

/-- Ids and groups of the structs, with the open one. -/
def skS (s : Store) : List (Nat × Nat) :=
  (s.structs ++ s.cStruct.toList).map (fun t => (t.id, t.parent))

/-- Ids and groups of the enums, with the open one. -/
def skE (s : Store) : List (Nat × Nat) :=
  (s.enums ++ s.cEnum.toList).map (fun t => (t.id, t.parent))

/-- The invariant about order. -/
structure OInv (s : Store) : Prop where
  sorted : (skS s).Pairwise (fun a b => a.1 < b.1)
  grow : ∀ x ∈ skS s, x.2 < x.1
  structs : ∀ g ∈ allGroups s, g.structs = ((skS s).filter (fun x => x.2 == g.id)).map Prod.fst
  enums : ∀ g ∈ allGroups s, g.enums = ((skE s).filter (fun x => x.2 == g.id)).map Prod.fst
  sibs : (allGroups s).Pairwise (fun a b => a.parent = b.parent → a.id < b.id)
  last : ∀ c ∈ allGroups s, Around (allGroups s) c.id s.groupId →
    ∀ h ∈ allGroups s, h.parent = c.parent → h.id ≤ c.id
  chain : ∀ pre a b post, s.path = pre ++ a :: b :: post →
    ∃ g ∈ allGroups s, g.id = b ∧ g.parent = a
  inside : ∀ c ∈ allGroups s, ∀ d ∈ allGroups s, c.parent = d.parent → c.id < d.id →
    ∀ x ∈ skS s, Around (allGroups s) c.id x.2 → x.1 < d.id

theorem Around.mono {gs hs : List Group} {i par : Nat} (h : Around gs i par) (hc : Cover gs hs) :
    Around hs i par := by
  induction h with
  | self hg =>
    obtain ⟨h, h1, h2, _, _⟩ := hc _ hg
    rw [← h2]; exact .self h1
  | out hg _ ih =>
    obtain ⟨h, h1, h2, h3, _⟩ := hc _ hg
    rw [← h2]; exact .out h1 (h3 ▸ ih)

theorem Around.le {gs : List Group} (ho : ∀ g ∈ gs, g.parent < g.id) {i par : Nat}
    (h : Around gs i par) : i ≤ par := by
  induction h with
  | self _ => exact Nat.le_refl _
  | out hg _ ih => have := ho _ hg; omega

theorem Around.mem {gs : List Group} {i par : Nat} (h : Around gs i par) :
    (∃ g ∈ gs, g.id = i) ∧ ∃ g ∈ gs, g.id = par := by
  induction h with
  | self hg => exact ⟨⟨_, hg, rfl⟩, ⟨_, hg, rfl⟩⟩
  | out hg _ ih => exact ⟨ih.1, ⟨_, hg, rfl⟩⟩

/-- Groups with larger ids do not matter. -/
theorem Around.restrict {gs hs : List Group} {i par : Nat} (h : Around gs i par)
    (ho : ∀ g ∈ gs, g.parent < g.id)
    (hc : ∀ g ∈ gs, g.id ≤ par → ∃ h ∈ hs, h.id = g.id ∧ h.parent = g.parent) : Around hs i par := by
  induction h with
  | self hg =>
    obtain ⟨h, h1, h2, _⟩ := hc _ hg (Nat.le_refl _)
    rw [← h2]; exact .self h1
  | out hg _ ih =>
    obtain ⟨h, h1, h2, h3⟩ := hc _ hg (Nat.le_refl _)
    rw [← h2]
    refine .out h1 (h3 ▸ ih ?_)
    intro g hg2 hle
    have := ho _ hg
    exact hc g hg2 (by omega)

theorem Around.inv {gs : List Group} {i par : Nat} (h : Around gs i par) :
    i = par ∨ ∃ g ∈ gs, g.id = par ∧ Around gs i g.parent := by
  cases h with
  | self _ => exact .inl rfl
  | out hg h => exact .inr ⟨_, hg, rfl, h⟩

theorem groupPath_mem {gs : List Group} {i : Nat} {p : List Name} (h : GroupPath gs i p) :
    i = 0 ∨ ∃ g ∈ gs, g.id = i := by
  cases h with
  | root => exact .inl rfl
  | down hg _ => exact .inr ⟨_, hg, rfl⟩

theorem OInv.mono {s s2 : Store} (h : OInv s) (h1 : skS s2 = skS s) (h2 : skE s2 = skE s)
    (h3 : s2.groups = s.groups) (h4 : s2.cGroup = s.cGroup) (h5 : s2.path = s.path) : OInv s2 := by
  have ha : allGroups s2 = allGroups s := by simp [allGroups, h3, h4]
  have hg : s2.groupId = s.groupId := by simp [Store.groupId, h4]
  refine ⟨by rw [h1]; exact h.sorted, by rw [h1]; exact h.grow, ?_, ?_, by rw [ha]; exact h.sibs, ?_, ?_, ?_⟩
  · rw [h1, ha]; exact h.structs
  · rw [h2, ha]; exact h.enums
  · rw [ha, hg]; exact h.last
  · rw [ha, h5]; exact h.chain
  · rw [ha, h1]; exact h.inside

theorem oinv_new : OInv Store.new := by
  refine ⟨?_, ?_, ?_, ?_, ?_, ?_, ?_, ?_⟩ <;> simp [Store.new, allGroups, skS]

theorem skS_le {s : Store} (hi : IdsOk s) : ∀ x ∈ skS s, x.1 ≤ s.sequence := by
  intro x hx
  have := hi x.1
  have h1 : 1 ≤ (allIds s).count x.1 := by
    refine List.one_le_count_iff.mpr ?_
    simp only [skS, List.map_append, List.mem_append, List.mem_map] at hx
    simp only [allIds, List.mem_append, List.mem_map]
    rcases hx with ⟨t, h, rfl⟩ | ⟨t, h, rfl⟩
    · exact .inl ⟨t, h, rfl⟩
    · exact .inr (.inr (.inr (.inr (.inl ⟨t, h, rfl⟩))))
  split at this <;> omega

theorem parents_le {s : Store} (hi : IdsOk s) (hg : GInv s) :
    (∀ x ∈ skS s, x.2 ≤ s.sequence) ∧ (∀ x ∈ skE s, x.2 ≤ s.sequence) := by
  constructor
  · intro x hx
    obtain ⟨t, ht, rfl⟩ := List.mem_map.mp hx
    rcases groupPath_mem (hg.struct t ht) with h | ⟨g, h1, h2⟩
    · simp only [h]; omega
    · have := groupId_pos hi h1
      simp only [← h2]; omega
  · intro x hx
    obtain ⟨t, ht, rfl⟩ := List.mem_map.mp hx
    rcases groupPath_mem (hg.enum t ht) with h | ⟨g, h1, h2⟩
    · simp only [h]; omega
    · have := groupId_pos hi h1
      simp only [← h2]; omega

/-- Only the current group has the current id. -/
theorem closed_ne {s : Store} (hi : IdsOk s) {g : Group} (hg : g ∈ s.groups) :
    g.id ≠ s.groupId := by
  intro he
  have hpos := groupId_pos hi (g := g) (by simp [allGroups, hg])
  cases hc : s.cGroup with
  | none => simp only [Store.groupId, hc] at he; omega
  | some c =>
    simp only [Store.groupId, hc] at he
    have := count_group s hi g.id
    have h1 : 1 ≤ (s.groups.map Group.id).count g.id :=
      List.one_le_count_iff.mpr (List.mem_map.mpr ⟨g, hg, rfl⟩)
    have h2 : 1 ≤ (s.cGroup.toList.map Group.id).count g.id :=
      List.one_le_count_iff.mpr (by simp [hc, he])
    omega

/-- Changing the member lists of the current group. -/
theorem OInv.bind {s s2 : Store} (hi : IdsOk s) (h : OInv s) (f : Group → Group)
    (hf : ∀ g, (f g).id = g.id ∧ (f g).parent = g.parent ∧ (f g).name = g.name)
    (h1 : s2.groups = s.groups) (h2 : s2.cGroup = s.cGroup.map f) (h3 : s2.path = s.path)
    (newS newE : List (Nat × Nat)) (h4 : skS s2 = skS s ++ newS) (h5 : skE s2 = skE s ++ newE)
    (hn : ∀ x ∈ newS ++ newE, x.2 = s.groupId)
    (hS : ∀ g, s.cGroup = some g → (f g).structs = g.structs ++ newS.map Prod.fst)
    (hE : ∀ g, s.cGroup = some g → (f g).enums = g.enums ++ newE.map Prod.fst)
    (hgrow : ∀ x ∈ newS, x.2 < x.1)
    (hsorted : (skS s2).Pairwise (fun a b => a.1 < b.1)) : OInv s2 := by
  have hc : Cover (allGroups s) (allGroups s2) := by
    have := cover_bind s f hf
    simpa [allGroups, h1, h2] using this
  have hb : ∀ g ∈ allGroups s2, g ∈ s.groups ∨ ∃ c, s.cGroup = some c ∧ g = f c := by
    intro g hg
    simp only [allGroups, h1, h2, List.mem_append, Option.mem_toList, Option.map_eq_some_iff] at hg
    rcases hg with hg | ⟨c, hc, rfl⟩
    · exact .inl hg
    · exact .inr ⟨c, hc, rfl⟩
  have hback : ∀ g ∈ allGroups s2, ∃ h ∈ allGroups s, h.id = g.id ∧ h.parent = g.parent ∧
      h.name = g.name := by
    intro g hg
    rcases hb g hg with hg | ⟨c, hc, rfl⟩
    · exact ⟨g, by simp [allGroups, hg], rfl, rfl, rfl⟩
    · exact ⟨c, by simp [allGroups, hc], (hf c).1.symm, (hf c).2.1.symm, (hf c).2.2.symm⟩
  have hgid : s2.groupId = s.groupId := by
    cases hx : s.cGroup with
    | none => simp [Store.groupId, h2, hx]
    | some c => simp [Store.groupId, h2, hx, (hf c).1]
  have hno : ∀ g ∈ s.groups, newS.filter (fun x => x.2 == g.id) = [] ∧
      newE.filter (fun x => x.2 == g.id) = [] := by
    intro g hg
    have hne := closed_ne hi hg
    constructor <;>
    · rw [List.filter_eq_nil_iff]
      intro x hx
      have := hn x (by simp [hx])
      simp only [this, beq_iff_eq]
      exact fun h => hne h.symm
  have hyes : ∀ c, s.cGroup = some c → newS.filter (fun x => x.2 == c.id) = newS ∧
      newE.filter (fun x => x.2 == c.id) = newE := by
    intro c hc
    constructor <;>
    · rw [List.filter_eq_self]
      intro x hx
      have := hn x (by simp [hx])
      simp [this, Store.groupId, hc]
  refine ⟨hsorted, by
    rw [h4]; intro x hx
    rcases List.mem_append.mp hx with hx | hx
    · exact h.grow x hx
    · exact hgrow x hx, ?_, ?_, ?_, ?_, ?_, ?_⟩
  · intro g hg
    rw [h4, List.filter_append, List.map_append]
    rcases hb g hg with hg | ⟨c, hc, rfl⟩
    · rw [(hno g hg).1, ← h.structs g (by simp [allGroups, hg])]; simp
    · rw [(hf c).1, (hyes c hc).1, hS c hc, h.structs c (by simp [allGroups, hc])]
  · intro g hg
    rw [h5, List.filter_append, List.map_append]
    rcases hb g hg with hg | ⟨c, hc, rfl⟩
    · rw [(hno g hg).2, ← h.enums g (by simp [allGroups, hg])]; simp
    · rw [(hf c).1, (hyes c hc).2, hE c hc, h.enums c (by simp [allGroups, hc])]
  · have hp := h.sibs
    simp only [allGroups, h1, h2] at hp ⊢
    rw [List.pairwise_append] at hp ⊢
    refine ⟨hp.1, ?_, ?_⟩
    · cases s.cGroup <;> simp
    · intro a ha b hb
      simp only [Option.mem_toList, Option.map_eq_some_iff] at hb
      obtain ⟨c, hc, rfl⟩ := hb
      rw [(hf c).1, (hf c).2.1]
      exact hp.2.2 a ha c (by simp [hc])
  · intro c hc1 hr g hg he
    obtain ⟨c0, a1, a2, a3, _⟩ := hback c hc1
    obtain ⟨g0, b1, b2, b3, _⟩ := hback g hg
    rw [← a2, ← b2]
    refine h.last c0 a1 ?_ g0 b1 (by rw [a3, b3]; exact he)
    rw [a2, ← hgid]
    exact hr.mono hback
  · intro pre a b post hp
    rw [h3] at hp
    obtain ⟨g, g1, g2, g3⟩ := h.chain pre a b post hp
    obtain ⟨g0, b1, b2, b3, _⟩ := hc g g1
    exact ⟨g0, b1, b2.trans g2, b3.trans g3⟩
  · intro c hc1 d hd he hlt x hx hr
    obtain ⟨c0, a1, a2, a3, _⟩ := hback c hc1
    obtain ⟨d0, b1, b2, b3, _⟩ := hback d hd
    have hr0 : Around (allGroups s) c0.id x.2 := a2 ▸ hr.mono hback
    rw [h4, List.mem_append] at hx
    rcases hx with hx | hx
    · rw [← b2]
      exact h.inside c0 a1 d0 b1 (by rw [a3, b3]; exact he) (by rw [a2, b2]; exact hlt) x hx hr0
    · have h6 := hn x (by simp [hx])
      rw [h6] at hr0
      have := h.last c0 a1 hr0 d0 b1 (by rw [a3, b3]; exact he.symm)
      omega

theorem oinv_openGroup {s s2 : Store} {w : Name} (hi : IdsOk s) (hg : GInv s) (h : OInv s)
    (ho : s.openGroup w = .ok s2) : OInv s2 := by
  simp only [Store.openGroup] at ho
  split at ho
  · simp at ho
  · split at ho
    · simp at ho
    · simp only [Res.ok.injEq] at ho
      have hback : ∀ g ∈ allGroups s2, (∃ h ∈ allGroups s, h.id = g.id ∧ h.parent = g.parent ∧
          h.structs = g.structs ∧ h.enums = g.enums) ∨
          (g.id = s.sequence + 1 ∧ g.parent = s.groupId ∧ g.structs = [] ∧ g.enums = []) := by
        intro g hg
        subst ho
        simp only [allGroups, Option.toList_some, List.mem_append, List.mem_singleton] at hg ⊢
        rcases hg with hg | rfl
        · split at hg
          · rename_i x hx
            simp only [List.mem_append, List.mem_singleton] at hg
            rcases hg with hg | rfl
            · exact .inl ⟨g, .inl hg, rfl, rfl, rfl, rfl⟩
            · exact .inl ⟨x, .inr (by simp [hx]), rfl, rfl, rfl, rfl⟩
          · exact .inl ⟨g, .inl hg, rfl, rfl, rfl, rfl⟩
        · exact .inr ⟨rfl, rfl, rfl, rfl⟩
      have hc : Cover (allGroups s) (allGroups s2) := by
        intro g hg
        subst ho
        simp only [allGroups, List.mem_append, Option.mem_toList] at hg ⊢
        rcases hg with hg | hg
        · refine ⟨g, .inl ?_, rfl, rfl, rfl⟩
          split <;> simp [hg]
        · exact ⟨{ g with groups := g.groups ++ [s.sequence + 1] }, .inl (by simp [hg]),
            rfl, rfl, rfl⟩
      have hsS : skS s2 = skS s := by subst ho; rfl
      have hsE : skE s2 = skE s := by subst ho; rfl
      have hgid : s2.groupId = s.sequence + 1 := by subst ho; rfl
      have hle : s.groupId ≤ s.sequence := by
        cases hcg : s.cGroup with
        | none => simp [Store.groupId, hcg]
        | some g =>
          have := groupId_pos hi (g := g) (by simp [allGroups, hcg])
          simp only [Store.groupId, hcg]; omega
      have hold : ∀ g ∈ allGroups s2, g.parent < g.id := by
        intro g hx
        rcases hback g hx with ⟨x, h1, h2, h3, _⟩ | ⟨h2, h3, _⟩
        · have := hg.older x h1; omega
        · omega
      have hres : ∀ i par, par ≤ s.sequence → Around (allGroups s2) i par →
          Around (allGroups s) i par := by
        intro i par hp ha
        refine ha.restrict hold ?_
        intro g hx hlt
        rcases hback g hx with ⟨x, h1, h2, h3, _⟩ | ⟨h2, _⟩
        · exact ⟨x, h1, h2, h3⟩
        · omega
      have hnew : (∃ g ∈ allGroups s2, g.id = s.sequence + 1 ∧ g.parent = s.groupId) := by
        subst ho
        exact ⟨_, List.mem_append_right _ (List.mem_singleton.mpr rfl), rfl, rfl⟩
      have hsmall := parents_le hi hg
      refine ⟨by rw [hsS]; exact h.sorted, by rw [hsS]; exact h.grow, ?_, ?_, ?_, ?_, ?_, ?_⟩
      · intro g hx
        rw [hsS]
        rcases hback g hx with ⟨x, h1, h2, h3, h4, _⟩ | ⟨h2, h3, h4, _⟩
        · rw [← h4, ← h2]; exact h.structs x h1
        · rw [h4, h2, List.filter_eq_nil_iff.mpr]
          · rfl
          · intro x hx
            have := hsmall.1 x hx
            simp only [beq_iff_eq]; omega
      · intro g hx
        rw [hsE]
        rcases hback g hx with ⟨x, h1, h2, h3, _, h4⟩ | ⟨h2, h3, _, h4⟩
        · rw [← h4, ← h2]; exact h.enums x h1
        · rw [h4, h2, List.filter_eq_nil_iff.mpr]
          · rfl
          · intro x hx
            have := hsmall.2 x hx
            simp only [beq_iff_eq]; omega
      · have hp := h.sibs
        have hids : ∀ g ∈ allGroups s, g.id < s.sequence + 1 := fun g hx => by
          have := groupId_pos hi hx; omega
        subst ho
        simp only [allGroups, Option.toList_some] at hp hids ⊢
        cases hcg : s.cGroup with
        | none =>
          simp only [hcg, Option.toList_none, List.append_nil] at hp hids ⊢
          rw [List.pairwise_append]
          refine ⟨hp, by simp, ?_⟩
          intro a ha b hb _
          simp only [List.mem_singleton] at hb
          subst hb
          exact hids a ha
        | some c =>
          simp only [hcg, Option.toList_some] at hp hids ⊢
          rw [List.pairwise_append] at hp
          rw [List.pairwise_append, List.pairwise_append]
          refine ⟨⟨hp.1, by simp, ?_⟩, by simp, ?_⟩
          · intro a ha b hb
            simp only [List.mem_singleton] at hb
            subst hb
            exact hp.2.2 a ha c (by simp)
          · intro a ha b hb _
            simp only [List.mem_singleton] at hb
            subst hb
            simp only [List.mem_append, List.mem_singleton] at ha
            rcases ha with ha | rfl
            · exact hids a (by simp [ha])
            · exact hids c (by simp)
      · intro c hc1 hr g hx he
        rw [hgid] at hr
        rcases hback c hc1 with ⟨c0, a1, a2, a3, _⟩ | ⟨a2, a3, _⟩
        · have hr1 : Around (allGroups s) c.id s.groupId := by
            refine hres _ _ hle ?_
            rcases hr.inv with hz | ⟨gg, hgm, hz, hr⟩
            · have := groupId_pos hi a1
              omega
            · rcases hback gg hgm with ⟨x, h1, h2, _⟩ | ⟨_, h3, _⟩
              · have := groupId_pos hi h1; omega
              · rw [← h3]; exact hr
          rcases hback g hx with ⟨g0, b1, b2, b3, _⟩ | ⟨b2, b3, _⟩
          · rw [← a2, ← b2]
            exact h.last c0 a1 (a2 ▸ hr1) g0 b1 (by rw [a3, b3]; exact he)
          · exfalso
            have h1 := hr1.le hg.older
            have h2 := hg.older c0 a1
            omega
        · rcases hback g hx with ⟨g0, b1, b2, b3, _⟩ | ⟨b2, b3, _⟩
          · have := groupId_pos hi b1; omega
          · omega
      · intro pre a b post hp
        have hpath : s2.path = s.path ++ [s.sequence + 1] := by subst ho; rfl
        rw [hpath] at hp
        rcases List.eq_nil_or_concat post with rfl | ⟨post2, z, rfl⟩
        · have : pre ++ [a, b] = (pre ++ [a]) ++ [b] := by simp
          rw [this] at hp
          have h1 := List.append_inj' hp rfl
          have h2 : b = s.sequence + 1 := by simpa using h1.2.symm
          have htop := hg.top
          rw [h1.1] at htop
          simp only [List.getLast?_append, List.getLast?_singleton, Option.some_or] at htop
          cases hcg : s.cGroup with
          | none => rw [hcg] at htop; simp at htop
          | some c =>
            rw [hcg] at htop
            simp only [Option.map_some, Option.some.injEq] at htop
            obtain ⟨g, g1, g2, g3⟩ := hnew
            exact ⟨g, g1, by omega, by rw [g3, htop]; simp [Store.groupId, hcg]⟩
        · have : pre ++ a :: b :: (post2.concat z) = (pre ++ a :: b :: post2) ++ [z] := by simp
          rw [this] at hp
          have h1 := List.append_inj' hp rfl
          obtain ⟨g, g1, g2, g3⟩ := h.chain pre a b post2 h1.1
          obtain ⟨g0, b1, b2, b3, _⟩ := hc g g1
          exact ⟨g0, b1, b2.trans g2, b3.trans g3⟩
      · intro c hc1 d hd he hlt x hx hr
        rw [hsS] at hx
        have hx1 := skS_le hi x hx
        rcases hback c hc1 with ⟨c0, a1, a2, a3, _⟩ | ⟨a2, a3, _⟩
        · rcases hback d hd with ⟨d0, b1, b2, b3, _⟩ | ⟨b2, b3, _⟩
          · rw [← b2]
            refine h.inside c0 a1 d0 b1 (by rw [a3, b3]; exact he) (by omega) x hx ?_
            rw [a2]
            exact hres _ _ (hsmall.1 x hx) hr
          · omega
        · rcases hback d hd with ⟨d0, b1, b2, b3, _⟩ | ⟨b2, b3, _⟩
          · have := groupId_pos hi b1; omega
          · omega

theorem oinv_closeGroup {s s2 : Store} {g x : Group} {top : Nat} (hi : IdsOk s) (hg : GInv s)
    (h : OInv s) (hgc : s.cGroup = some g) (hp : s.path.dropLast.getLast? = some top)
    (hx : (s.groups ++ [g]).find? (fun x => x.id == top) = some x)
    (h2 : s2 = { s with
      groups := (s.groups ++ [g]).eraseP (fun x => x.id == top), path := s.path.dropLast,
      cGroup := some x }) : OInv s2 := by
  have hid : x.id = top := by have := List.find?_some hx; simpa using this
  have hm : ∀ y, y ∈ allGroups s2 ↔ y ∈ allGroups s := by
    intro y
    have hxm := List.mem_of_find?_eq_some hx
    have e1 : allGroups s2 = (s.groups ++ [g]).eraseP (fun x => x.id == top) ++ [x] := by
      subst h2; simp [allGroups]
    have e2 : allGroups s = s.groups ++ [g] := by simp [allGroups, hgc]
    rw [e1, e2, List.mem_append, List.mem_singleton]
    constructor
    · rintro (hy | rfl)
      · exact List.mem_of_mem_eraseP hy
      · exact hxm
    · intro hy
      by_cases hyx : y.id = top
      · right
        exact allGroups_eq hi (by rw [e2]; exact hy) (by rw [e2]; exact hxm) (by omega)
      · left
        exact (List.mem_eraseP_of_neg (by simpa using hyx)).mpr hy
  have hc : Cover (allGroups s) (allGroups s2) := fun y hy => ⟨y, (hm y).mpr hy, rfl, rfl, rfl⟩
  have hc2 : Cover (allGroups s2) (allGroups s) := fun y hy => ⟨y, (hm y).mp hy, rfl, rfl, rfl⟩
  have hsS : skS s2 = skS s := by subst h2; rfl
  have hsE : skE s2 = skE s := by subst h2; rfl
  have hgid : s2.groupId = top := by subst h2; simp [Store.groupId, hid]
  have hgm : g ∈ allGroups s := by simp [allGroups, hgc]
  have hxm : x ∈ allGroups s := by
    have := List.mem_of_find?_eq_some hx
    simpa [allGroups, hgc] using this
  have hsg : s.groupId = g.id := by simp [Store.groupId, hgc]
  have hpath : ∃ pre, s.path = pre ++ [top, g.id] := by
    obtain ⟨pre, hpre⟩ := List.getLast?_eq_some_iff.mp hp
    refine ⟨pre, ?_⟩
    have hne : s.path ≠ [] := by intro h0; rw [h0] at hp; simp at hp
    have h1 := hg.top
    rw [hgc] at h1
    rcases List.eq_nil_or_concat s.path with h0 | ⟨q, z, h0⟩
    · exact absurd h0 hne
    · rw [h0] at hpre h1 ⊢
      simp only [List.concat_eq_append, List.dropLast_concat] at hpre
      simp only [List.concat_eq_append, List.getLast?_append, List.getLast?_singleton,
        Option.some_or, Option.map_some, Option.some.injEq] at h1
      rw [hpre, h1]; simp
  have hpar : g.parent = top := by
    obtain ⟨pre, hpre⟩ := hpath
    obtain ⟨y, y1, y2, y3⟩ := h.chain pre top g.id [] hpre
    have := allGroups_eq hi y1 hgm y2
    rw [← this]; exact y3
  have hup : ∀ i, Around (allGroups s2) i top → Around (allGroups s) i s.groupId := by
    intro i ha
    rw [hsg]
    exact .out hgm (hpar ▸ ha.mono hc2)
  have hxa : Around (allGroups s) x.id s.groupId := by
    rw [hsg]; exact .out hgm (by rw [hpar, ← hid]; exact .self hxm)
  refine ⟨by rw [hsS]; exact h.sorted, by rw [hsS]; exact h.grow, ?_, ?_, ?_, ?_, ?_, ?_⟩
  · intro y hy; rw [hsS]; exact h.structs y ((hm y).mp hy)
  · intro y hy; rw [hsE]; exact h.enums y ((hm y).mp hy)
  · have e1 : allGroups s2 = (s.groups ++ [g]).eraseP (fun x => x.id == top) ++ [x] := by
      subst h2; simp [allGroups]
    have e2 : allGroups s = s.groups ++ [g] := by simp [allGroups, hgc]
    have hs := h.sibs
    rw [e2] at hs
    rw [e1, List.pairwise_append]
    refine ⟨hs.sublist List.eraseP_sublist, by simp, ?_⟩
    intro a ha b hb he
    simp only [List.mem_singleton] at hb
    subst hb
    have ham : a ∈ allGroups s := by rw [e2]; exact List.mem_of_mem_eraseP ha
    have := h.last b hxm hxa a ham he
    rcases Nat.lt_or_eq_of_le this with hlt | heq
    · exact hlt
    · exfalso
      have hab := allGroups_eq hi ham hxm heq
      subst hab
      have hcount := allGroups_count s hi a.id
      rw [e2] at hcount
      have hna : a.id ∉ ((s.groups ++ [g]).eraseP (fun x => x.id == top)).map Group.id := by
        have h3 : ((s.groups ++ [g]).map Group.id).eraseP (fun i => i == top) =
            ((s.groups ++ [g]).eraseP (fun x => x.id == top)).map Group.id := by
          rw [List.eraseP_map]; rfl
        rw [← h3]
        have hnd : ((s.groups ++ [g]).map Group.id).Nodup := by
          rw [List.nodup_iff_count]
          intro i
          have := allGroups_count s hi i
          rwa [e2] at this
        rw [show (fun i : Nat => i == top) = (fun i => top == i) by funext i; exact BEq.comm,
          ← List.erase_eq_eraseP, hid]
        exact hnd.not_mem_erase
      exact hna (List.mem_map.mpr ⟨a, ha, rfl⟩)
  · intro c hc1 hr y hy he
    rw [hgid] at hr
    exact h.last c ((hm c).mp hc1) (hup _ hr) y ((hm y).mp hy) he
  · intro pre a b post hpe
    have : s2.path = s.path.dropLast := by subst h2; rfl
    rw [this] at hpe
    obtain ⟨pre0, hpre⟩ := hpath
    have h1 : s.path = pre ++ a :: b :: (post ++ [g.id]) := by
      have h2 : s.path.dropLast = pre0 ++ [top] := by
        rw [hpre, show pre0 ++ [top, g.id] = (pre0 ++ [top]) ++ [g.id] by simp,
          List.dropLast_concat]
      rw [hpre, show pre0 ++ [top, g.id] = (pre0 ++ [top]) ++ [g.id] by simp, ← h2, hpe]
      simp
    obtain ⟨y, y1, y2⟩ := h.chain pre a b _ h1
    exact ⟨y, (hm y).mpr y1, y2⟩
  · intro c hc1 d hd he hlt y hy hr
    rw [hsS] at hy
    exact h.inside c ((hm c).mp hc1) d ((hm d).mp hd) he hlt y hy (hr.mono hc2)

theorem oinv_op {s s2 : Store} (ho : StoreOp s s2) (hi : IdsOk s) (hg : GInv s) (h : OInv s) :
    OInv s2 := by
  cases ho with
  | openStruct ho =>
    rename_i w
    simp only [Store.openStruct] at ho
    split at ho
    · simp at ho
    · split at ho
      · simp at ho
      · rename_i hs he
        simp only [Res.ok.injEq] at ho
        have hcs : s.cStruct = none := by simpa using hs
        have hsk : skS s2 = skS s ++ [(s.sequence + 1, s.groupId)] := by
          subst ho
          simp only [skS, hcs, Option.toList_none, List.append_nil, Option.toList_some,
            List.map_append, List.map_cons, List.map_nil]
          cases hx : s.cGroup <;> simp [Store.groupId, hx]
        refine h.bind hi (fun g : Group => { g with structs := g.structs ++ [s.sequence + 1] })
          (fun g => ⟨rfl, rfl, rfl⟩) (by subst ho; rfl) (by subst ho; rfl) (by subst ho; rfl)
          [(s.sequence + 1, s.groupId)] [] hsk (by subst ho; simp [skE]) (by simp) (fun g _ => rfl)
          (fun g _ => by simp) ?_ ?_
        · intro x hx
          simp only [List.mem_singleton] at hx
          subst hx
          cases hcg : s.cGroup with
          | none => simp [Store.groupId, hcg]
          | some g =>
            have := groupId_pos hi (g := g) (by simp [allGroups, hcg])
            simp only [Store.groupId, hcg]; omega
        rw [hsk, List.pairwise_append]
        refine ⟨h.sorted, by simp, ?_⟩
        intro a ha b hb
        simp only [List.mem_singleton] at hb
        subst hb
        have := skS_le hi a ha
        simp only; omega
  | openEnum ho =>
    rename_i w
    simp only [Store.openEnum] at ho
    split at ho
    · simp at ho
    · split at ho
      · simp at ho
      · rename_i hs he
        simp only [Res.ok.injEq] at ho
        have hce : s.cEnum = none := by simpa using he
        have hsk : skE s2 = skE s ++ [(s.sequence + 1, s.groupId)] := by
          subst ho
          simp only [skE, hce, Option.toList_none, List.append_nil, Option.toList_some,
            List.map_append, List.map_cons, List.map_nil]
          cases hx : s.cGroup <;> simp [Store.groupId, hx]
        have hss : skS s2 = skS s := by subst ho; rfl
        refine h.bind hi (fun g : Group => { g with enums := g.enums ++ [s.sequence + 1] })
          (fun g => ⟨rfl, rfl, rfl⟩) (by subst ho; rfl) (by subst ho; rfl) (by subst ho; rfl)
          [] [(s.sequence + 1, s.groupId)] (by simp [hss]) hsk (by simp) (fun g _ => by simp)
          (fun g _ => rfl) (by simp) (by rw [hss]; exact h.sorted)
  | openGroup ho => exact oinv_openGroup hi hg h ho
  | setFieldType ho =>
    simp only [Store.setFieldType] at ho
    repeat' split at ho
    all_goals first
      | (simp at ho; done)
      | (simp only [Res.ok.injEq] at ho; subst ho; exact h.mono rfl rfl rfl rfl rfl)
  | setRepeated ho =>
    simp only [Store.setRepeated] at ho
    repeat' split at ho
    all_goals first
      | (simp at ho; done)
      | (simp only [Res.ok.injEq] at ho; subst ho
         exact h.mono rfl (by simp_all [skE]) rfl rfl rfl)
      | (simp only [Res.ok.injEq] at ho; subst ho; exact h.mono rfl rfl rfl rfl rfl)
  | setOptional ho =>
    simp only [Store.setOptional] at ho
    repeat' split at ho
    all_goals first
      | (simp at ho; done)
      | (simp only [Res.ok.injEq] at ho; subst ho; exact h.mono rfl rfl rfl rfl rfl)
  | setFieldName ho =>
    simp only [Store.setFieldName] at ho
    split at ho
    · simp at ho
    · split at ho
      · simp at ho
      · simp only [Res.bind_eq_ok, Res.pure_eq, Res.ok.injEq] at ho
        obtain ⟨f2, h1, rfl⟩ := ho
        exact h.mono rfl rfl rfl rfl rfl
  | closeField ho =>
    simp only [Store.closeField] at ho
    repeat' split at ho
    all_goals first
      | (simp at ho; done)
      | (simp only [Res.ok.injEq] at ho; subst ho
         exact h.mono (by simp_all [skS]) rfl rfl rfl rfl)
  | setEnumType ho =>
    simp only [Store.setEnumType] at ho
    repeat' split at ho
    all_goals first
      | (simp at ho; done)
      | (simp only [Res.ok.injEq] at ho; subst ho
         exact h.mono rfl (by simp_all [skE]) rfl rfl rfl)
  | setSimple ho =>
    simp only [Store.setSimple] at ho
    repeat' split at ho
    all_goals first
      | (simp at ho; done)
      | (simp only [Res.ok.injEq] at ho; subst ho
         exact h.mono rfl (by simp_all [skE]) rfl rfl rfl)
  | setEnumName ho =>
    simp only [Store.setEnumName] at ho
    split at ho
    · simp at ho
    · split at ho
      · simp at ho
      · simp only [Res.bind_eq_ok, Res.pure_eq, Res.ok.injEq] at ho
        obtain ⟨f2, h1, rfl⟩ := ho
        exact h.mono rfl (by simp_all [skE]) rfl rfl rfl
  | close ho =>
    simp only [Store.close] at ho
    split at ho
    · simp only [Res.ok.injEq] at ho; subst ho
      exact h.mono rfl (by simp_all [skE]) rfl rfl rfl
    · split at ho
      · simp only [Res.ok.injEq] at ho; subst ho
        exact h.mono (by simp_all [skS]) rfl rfl rfl rfl
      · split at ho
        · simp at ho
        · rename_i g hgc
          split at ho
          · simp at ho
          · split at ho
            · rename_i hp
              simp only [Res.ok.injEq] at ho
              have ha : allGroups s2 = allGroups s := by subst ho; simp [allGroups, hgc]
              have hgid : s2.groupId = 0 := by subst ho; simp [Store.groupId]
              have hsS : skS s2 = skS s := by subst ho; rfl
              have hsE : skE s2 = skE s := by subst ho; rfl
              refine ⟨by rw [hsS]; exact h.sorted, by rw [hsS]; exact h.grow, by rw [hsS, ha]; exact h.structs,
                by rw [hsE, ha]; exact h.enums, by rw [ha]; exact h.sibs, ?_, ?_,
                by rw [hsS, ha]; exact h.inside⟩
              · intro c hc hr
                rw [hgid] at hr
                obtain ⟨y, y1, y2⟩ := hr.mem.2
                rw [ha] at y1
                have := groupId_pos hi y1
                omega
              · intro pre a b post hpe
                have h1 : s2.path = s.path.dropLast := by subst ho; rfl
                rw [h1] at hpe
                rw [hpe] at hp
                simp at hp
            · rename_i top hp
              split at ho
              · simp at ho
              · rename_i x hx
                simp only [Res.ok.injEq] at ho
                exact oinv_closeGroup hi hg h hgc hp hx ho.symm

theorem reach_oinv {s : Store} (h : Reach s) : OInv s := by
  induction h with
  | new => exact oinv_new
  | step hr h ih => exact oinv_op h (reach_idsOk hr) (reach_ginv hr) ih

end Verif.Prot
