import Verif.Proofs.ProtocolOrder
import Verif.Proofs.ProtocolService
import Verif.Props.Protocol
import Verif.Proofs.RustRender
set_option autoImplicit false
/-!
The groups of a finished protocol, with service structs added, as a tree.
-/
namespace Verif.Prot

open Verif Verif.Prot.Syntax Verif.Props

/-- What is used of a finished store; `n` is the last id given to the text itself. -/
structure TreeOk (n : Nat) (s : Store) : Prop where
  gids : (s.groups.map Group.id).Nodup
  gbound : ∀ g ∈ s.groups, 1 ≤ g.id ∧ g.id ≤ s.sequence
  older : ∀ g ∈ s.groups, g.parent < g.id
  known : ∀ g ∈ s.groups, ∃ p, GroupPath s.groups g.parent p
  struct : ∀ t ∈ s.structs, ∃ p, GroupPath s.groups t.parent p
  enum : ∀ t ∈ s.enums, ∃ p, GroupPath s.groups t.parent p
  sbound : ∀ t ∈ s.structs, t.parent < t.id ∧ t.id ≤ s.sequence
  sorted : (s.structs.map Struct.id).Pairwise (· < ·)
  structs : ∀ g ∈ s.groups,
    g.structs = (s.structs.filter (fun t => t.parent == g.id)).map Struct.id
  enums : ∀ g ∈ s.groups, g.enums = (s.enums.filter (fun t => t.parent == g.id)).map Enum.id
  sibs : s.groups.Pairwise (fun a b => a.parent = b.parent → a.id < b.id)
  inside : ∀ c ∈ s.groups, ∀ d ∈ s.groups, c.parent = d.parent → c.id < d.id →
    ∀ t ∈ s.structs, t.id ≤ n → Around s.groups c.id t.parent → t.id < d.id
  last : n ≤ s.sequence
  refs : ∀ t ∈ s.structs, ∀ f ∈ t.fields, ∀ id, f.refTypeId = some id →
    t.id ≤ n ∧ (Leads s.groups s t.parent f.typePath id ∨ Leads s.groups s 0 f.typePath id)

theorem filter_map_fst {α : Type} (k p : α → Nat) (l : List α) (i : Nat) :
    (((l.map (fun t => (k t, p t))).filter (fun x => x.2 == i)).map Prod.fst) =
      (l.filter (fun t => p t == i)).map k := by
  rw [List.filter_map, List.map_map]; rfl

theorem treeOk_accepted {text : List Char} {s : Store} (h : Parses text (.accepted s))
    (hc : ¬ LeftOpen s) : TreeOk s.sequence s := by
  have hr := accepted_reach h
  have hi := reach_idsOk hr
  have hg := reach_ginv hr
  have ho := reach_oinv hr
  have hn : s.cStruct = none ∧ s.cEnum = none ∧ s.cGroup = none := by
    simp only [LeftOpen, not_or, Classical.not_not] at hc
    exact ⟨hc.1, hc.2.1, hc.2.2.1⟩
  have ha : allGroups s = s.groups := by simp [allGroups, hn.2.2]
  have hS : skS s = s.structs.map (fun t => (t.id, t.parent)) := by simp [skS, hn.1]
  have hE : skE s = s.enums.map (fun t => (t.id, t.parent)) := by simp [skE, hn.2.1]
  have hle := skS_le hi
  rw [hS] at hle
  have h1 := ho.sorted
  have h2 := ho.grow
  have h3 := ho.structs
  have h4 := ho.enums
  have h5 := ho.sibs
  have h6 := ho.inside
  simp only [ha, hS, hE] at h1 h2 h3 h4 h5 h6
  have g1 := hg.older
  have g2 := hg.known
  have g3 := hg.struct
  have g4 := hg.enum
  simp only [ha, hn.1, hn.2.1, Option.toList_none, List.append_nil] at g1 g2 g3 g4
  refine ⟨?_, ?_, g1, g2, fun t ht => ⟨_, g3 t ht⟩, fun t ht => ⟨_, g4 t ht⟩, ?_, ?_, ?_, ?_, h5,
    ?_, Nat.le_refl _, ?_⟩
  · rw [List.nodup_iff_count]
    intro i
    have := allGroups_count s hi i
    rwa [ha] at this
  · intro g hm
    exact groupId_pos hi (by rw [ha]; exact hm)
  · intro t ht
    exact ⟨h2 (t.id, t.parent) (List.mem_map.mpr ⟨t, ht, rfl⟩),
      hle (t.id, t.parent) (List.mem_map.mpr ⟨t, ht, rfl⟩)⟩
  · rw [List.pairwise_map] at h1 ⊢
    exact h1
  · intro g hm
    rw [h3 g hm, filter_map_fst]
  · intro g hm
    rw [h4 g hm, filter_map_fst]
  · intro c hc d hd he hlt t ht _ har
    exact h6 c hc d hd he hlt (t.id, t.parent) (List.mem_map.mpr ⟨t, ht, rfl⟩) har
  · intro t ht f hf id hid
    refine ⟨hle (t.id, t.parent) (List.mem_map.mpr ⟨t, ht, rfl⟩), ?_⟩
    rcases (C65_types_defined h hc).1 t ht f hf with ⟨h0, _⟩ | ⟨id2, h1, _, _, h2⟩
    · rw [hid] at h0; simp at h0
    · rw [hid] at h1
      simp only [Option.some.injEq] at h1
      subst h1
      exact h2

theorem treeOk_group {n : Nat} {s : Store} (h : TreeOk n s) (w : Name) :
    TreeOk n { s with
      sequence := s.sequence + 1
      groups := s.groups ++ [⟨s.sequence + 1, 0, w, [], [], []⟩] } := by
  have hc : Cover s.groups (s.groups ++ [⟨s.sequence + 1, 0, w, [], [], []⟩]) :=
    fun g hg => ⟨g, by simp [hg], rfl, rfl, rfl⟩
  have hpar : ∀ i p, GroupPath s.groups i p → i ≤ s.sequence := by
    intro i p hp
    rcases groupPath_mem hp with h0 | ⟨g, h1, h2⟩
    · omega
    · have := h.gbound g h1; omega
  have hmem : ∀ g, g ∈ s.groups ++ [(⟨s.sequence + 1, 0, w, [], [], []⟩ : Group)] →
      g ∈ s.groups ∨ g = ⟨s.sequence + 1, 0, w, [], [], []⟩ := by
    intro g hg; simpa using hg
  have hold : ∀ g ∈ s.groups ++ [(⟨s.sequence + 1, 0, w, [], [], []⟩ : Group)],
      g.parent < g.id := by
    intro g hg
    rcases hmem g hg with hg | rfl
    · exact h.older g hg
    · exact Nat.succ_pos _
  refine ⟨?_, ?_, hold, ?_, ?_, ?_, ?_, h.sorted, ?_, ?_, ?_, ?_, ?_, ?_⟩
  · simp only [List.map_append, List.map_cons, List.map_nil]
    rw [List.nodup_append]
    refine ⟨h.gids, by simp, ?_⟩
    intro a ha b hb
    simp only [List.mem_singleton] at hb
    obtain ⟨g, hg, rfl⟩ := List.mem_map.mp ha
    have := h.gbound g hg
    omega
  · intro g hg
    rcases hmem g hg with hg | rfl
    · have := h.gbound g hg; simp only; omega
    · simp only; omega
  · intro g hg
    rcases hmem g hg with hg | rfl
    · obtain ⟨p, hp⟩ := h.known g hg
      exact ⟨p, hp.mono hc⟩
    · exact ⟨[], .root⟩
  · intro t ht
    obtain ⟨p, hp⟩ := h.struct t ht
    exact ⟨p, hp.mono hc⟩
  · intro t ht
    obtain ⟨p, hp⟩ := h.enum t ht
    exact ⟨p, hp.mono hc⟩
  · intro t ht
    have := h.sbound t ht
    exact ⟨this.1, Nat.le_succ_of_le this.2⟩
  · intro g hg
    rcases hmem g hg with hg | rfl
    · exact h.structs g hg
    · rw [List.filter_eq_nil_iff.mpr]
      · rfl
      · intro t ht
        have := h.sbound t ht
        simp only [beq_iff_eq]; omega
  · intro g hg
    rcases hmem g hg with hg | rfl
    · exact h.enums g hg
    · rw [List.filter_eq_nil_iff.mpr]
      · rfl
      · intro t ht
        obtain ⟨p, hp⟩ := h.enum t ht
        have := hpar _ _ hp
        simp only [beq_iff_eq]; omega
  · rw [List.pairwise_append]
    refine ⟨h.sibs, by simp, ?_⟩
    intro a ha b hb _
    simp only [List.mem_singleton] at hb
    subst hb
    have := h.gbound a ha
    simp only; omega
  · intro c hc1 d hd he hlt t ht hle har
    have hts := h.sbound t ht
    have har2 : Around s.groups c.id t.parent := by
      refine har.restrict hold ?_
      intro g hg hgl
      rcases hmem g hg with hg | rfl
      · exact ⟨g, hg, rfl, rfl⟩
      · simp only at hgl; omega
    rcases hmem d hd with hd | rfl
    · rcases hmem c hc1 with hc1 | rfl
      · exact h.inside c hc1 d hd he hlt t ht hle har2
      · have := h.gbound d hd; simp only at hlt; omega
    · simp only; have := h.last; omega
  · have := h.last; simp only; omega
  · intro t ht f hf id hid
    obtain ⟨h1, h2⟩ := h.refs t ht f hf id hid
    refine ⟨h1, ?_⟩
    rcases h2 with h2 | h2
    · exact .inl (h2.mono hc (fun _ h => h) (fun _ h => h))
    · exact .inr (h2.mono hc (fun _ h => h) (fun _ h => h))

theorem treeOk_push {n : Nat} {s : Store} (h : TreeOk n s) {g : Group} (hg : g ∈ s.groups)
    (t : Struct) (hid : t.id = s.sequence + 1) (hpar : t.parent = g.id)
    (hf : ∀ f ∈ t.fields, f.refTypeId = none) (k : Nat) :
    TreeOk n { s with
      sequence := s.sequence + 1 + k
      groups := s.groups.map (fun x =>
        if x.id == g.id then { x with structs := x.structs ++ [s.sequence + 1] } else x)
      structs := s.structs ++ [t] } := by
  have heq : ∀ x ∈ s.groups, ∃ y ∈ s.groups.map (fun x : Group =>
        if x.id == g.id then { x with structs := x.structs ++ [s.sequence + 1] } else x),
      y.id = x.id ∧ y.parent = x.parent ∧ y.name = x.name := by
    intro x hx
    refine ⟨_, List.mem_map.mpr ⟨x, hx, rfl⟩, ?_⟩
    split <;> exact ⟨rfl, rfl, rfl⟩
  have hback : ∀ y ∈ s.groups.map (fun x : Group =>
        if x.id == g.id then { x with structs := x.structs ++ [s.sequence + 1] } else x),
      ∃ x ∈ s.groups, x.id = y.id ∧ x.parent = y.parent ∧ x.name = y.name ∧ x.enums = y.enums ∧
        y.structs = if x.id = g.id then x.structs ++ [s.sequence + 1] else x.structs := by
    intro y hy
    obtain ⟨x, hx, rfl⟩ := List.mem_map.mp hy
    refine ⟨x, hx, ?_⟩
    by_cases he : x.id = g.id
    · simp [he]
    · have : (x.id == g.id) = false := by simpa using he
      simp [he]
  generalize hG : s.groups.map (fun x : Group =>
        if x.id == g.id then { x with structs := x.structs ++ [s.sequence + 1] } else x) = G
    at heq hback ⊢
  have hids : G.map Group.id = s.groups.map Group.id := by
    rw [← hG, List.map_map]
    refine List.map_congr_left ?_
    intro x _
    simp only [Function.comp]
    split <;> rfl
  have hc : Cover s.groups G := heq
  have hc2 : Cover G s.groups := fun y hy => by
    obtain ⟨x, h1, h2, h3, h4, _⟩ := hback y hy
    exact ⟨x, h1, h2, h3, h4⟩
  have hgb := h.gbound g hg
  refine ⟨?_, ?_, ?_, ?_, ?_, ?_, ?_, ?_, ?_, ?_, ?_, ?_, ?_, ?_⟩
  · simp only [hids]; exact h.gids
  · intro y hy
    obtain ⟨x, h1, h2, _⟩ := hback y hy
    have := h.gbound x h1
    simp only; omega
  · intro y hy
    obtain ⟨x, h1, h2, h3, _⟩ := hback y hy
    have := h.older x h1
    omega
  · intro y hy
    obtain ⟨x, h1, h2, h3, _⟩ := hback y hy
    obtain ⟨p, hp⟩ := h.known x h1
    exact ⟨p, h3 ▸ hp.mono hc⟩
  · intro u hu
    simp only [List.mem_append, List.mem_singleton] at hu
    rcases hu with hu | rfl
    · obtain ⟨p, hp⟩ := h.struct u hu
      exact ⟨p, hp.mono hc⟩
    · obtain ⟨p, hp⟩ := h.known g hg
      rw [hpar]
      exact ⟨_, (GroupPath.down hg hp).mono hc⟩
  · intro u hu
    obtain ⟨p, hp⟩ := h.enum u hu
    exact ⟨p, hp.mono hc⟩
  · intro u hu
    simp only [List.mem_append, List.mem_singleton] at hu
    rcases hu with hu | rfl
    · have := h.sbound u hu; simp only; omega
    · simp only; omega
  · simp only [List.map_append, List.map_cons, List.map_nil]
    rw [List.pairwise_append]
    refine ⟨h.sorted, by simp, ?_⟩
    intro a ha b hb
    obtain ⟨u, hu, rfl⟩ := List.mem_map.mp ha
    simp only [List.mem_singleton] at hb
    have := h.sbound u hu
    omega
  · intro y hy
    obtain ⟨x, h1, h2, _, _, _, h3⟩ := hback y hy
    rw [h3, ← h2]
    simp only [List.filter_append, List.map_append]
    rw [h.structs x h1]
    by_cases he : x.id = g.id
    · simp [he, hpar, hid]
    · have he2 : ¬ g.id = x.id := fun h => he h.symm
      simp [he, hpar, he2]
  · intro y hy
    obtain ⟨x, h1, h2, _, _, h3, _⟩ := hback y hy
    rw [← h2, ← h3]
    exact h.enums x h1
  · have := h.sibs
    simp only [← hG]
    rw [List.pairwise_map]
    refine this.imp ?_
    intro a b hab
    by_cases ha : a.id = g.id <;> by_cases hb : b.id = g.id <;>
      simp [ha, hb] <;> simpa [ha, hb] using hab
  · intro c hc1 d hd he hlt u hu hle har
    obtain ⟨c0, c1, c2, c3, _⟩ := hback c hc1
    obtain ⟨d0, d1, d2, d3, _⟩ := hback d hd
    simp only [List.mem_append, List.mem_singleton] at hu
    rcases hu with hu | rfl
    · rw [← d2]
      exact h.inside c0 c1 d0 d1 (by rw [c3, d3]; exact he) (by omega) u hu hle
        (c2 ▸ har.mono hc2)
    · have := h.last; omega
  · have := h.last; simp only; omega
  · intro u hu f hfm id hir
    simp only [List.mem_append, List.mem_singleton] at hu
    rcases hu with hu | rfl
    · obtain ⟨h1, h2⟩ := h.refs u hu f hfm id hir
      refine ⟨h1, ?_⟩
      rcases h2 with h2 | h2
      · exact .inl (h2.mono hc (fun _ h => h) (fun _ h => List.mem_append_left _ h))
      · exact .inr (h2.mono hc (fun _ h => h) (fun _ h => List.mem_append_left _ h))
    · rw [hf f hfm] at hir; simp at hir

theorem treeOk_addService {n : Nat} {s : Store} (h : TreeOk n s) (name : Name) (fields : List Field)
    (hf : ∀ f ∈ fields, f.refTypeId = none) : TreeOk n (s.addService name fields) := by
  have hnum : ∀ parent seq, ∀ f ∈ numberFields parent seq fields, f.refTypeId = none := by
    intro parent seq f hm
    obtain ⟨g, g1, _, g3, _⟩ := mem_numberFields parent fields seq hm
    rw [g3]; exact hf g g1
  have main : ∀ s1 : Store, TreeOk n s1 → ∀ isService : Group → Bool,
      TreeOk n (match s1.groups.find? isService with
        | none => s1
        | some g =>
          { s1 with
            sequence := s1.sequence + 1 + fields.length
            groups := s1.groups.map (fun x =>
              if x.id == g.id then { x with structs := x.structs ++ [s1.sequence + 1] } else x)
            structs := s1.structs ++ [⟨s1.sequence + 1, g.id, name,
              numberFields (s1.sequence + 1) (s1.sequence + 1) fields, s1.pathByParent g.id⟩] }) := by
    intro s1 h1 isService
    split
    · exact h1
    · rename_i g hg
      exact treeOk_push h1 (List.mem_of_find?_eq_some hg) _ rfl rfl (hnum _ _) _
  refine main _ ?_ (fun g => g.name == serviceGroup && g.parent == 0)
  split
  · exact h
  · exact treeOk_group h _

theorem treeOk_services {n : Nat} : ∀ (extra : List (Name × List Field)) {s : Store},
    TreeOk n s → (∀ e ∈ extra, ∀ f ∈ e.2, f.refTypeId = none) →
    TreeOk n (extra.foldl (fun s e => s.addService e.1 e.2) s)
  | [], _, h, _ => h
  | e :: extra, _, h, hx => by
    rw [List.foldl_cons]
    exact treeOk_services extra (treeOk_addService h e.1 e.2 (hx e List.mem_cons_self))
      (fun a ha => hx a (List.mem_cons_of_mem _ ha))

end Verif.Prot
