import Verif.Spec.TsCode
import Verif.Proofs.ProtocolTree
set_option autoImplicit false
/-!
The order in which the TypeScript generator defines classes.
-/
namespace Verif.Prot

open Verif Verif.Prot.Syntax

/-- Items of scope `a` and of the scopes in it, outermost first. -/
def below {α : Type} (par : α → Nat) (l : List α) (gs : List Group) : Nat → Nat → List α
  | 0, _ => []
  | fuel + 1, a => l.filter (fun x => par x == a) ++
      (gs.filter (fun g => g.parent == a)).flatMap (fun g => below par l gs fuel g.id)

theorem flatMap_congr' {α β : Type} {f g : α → List β} : ∀ {l : List α}, (∀ a ∈ l, f a = g a) →
    l.flatMap f = l.flatMap g
  | [], _ => rfl
  | a :: l, h => by
    rw [List.flatMap_cons, List.flatMap_cons, h a List.mem_cons_self,
      flatMap_congr' (fun b hb => h b (List.mem_cons_of_mem _ hb))]

theorem filterMap_find {α : Type} (k : α → Nat) {l : List α} (hn : (l.map k).Nodup) :
    ∀ m : List α, (∀ a ∈ m, a ∈ l) →
    (m.map k).filterMap (fun i => l.find? (fun x => k x == i)) = m
  | [], _ => rfl
  | a :: m, h => by
    rw [List.map_cons, List.filterMap_cons, find_unique k (h a List.mem_cons_self) hn]
    simp only
    rw [filterMap_find k hn m (fun b hb => h b (List.mem_cons_of_mem _ hb))]

theorem TreeOk.snodup {n : Nat} {s : Store} (h : TreeOk n s) : (s.structs.map Struct.id).Nodup :=
  h.sorted.imp (fun h => Nat.ne_of_lt h)

theorem structsBelow_eq {n : Nat} {s : Store} (h : TreeOk n s) : ∀ (fuel : Nat), ∀ g ∈ s.groups,
    s.structsBelow fuel g = below Struct.parent s.structs s.groups fuel g.id
  | 0, _, _ => rfl
  | fuel + 1, g, hg => by
    rw [Store.structsBelow, below, h.structs g hg]
    congr 1
    · exact filterMap_find Struct.id h.snodup _ (fun a ha => (List.mem_filter.mp ha).1)
    · exact flatMap_congr' (fun c hc => structsBelow_eq h fuel c (List.mem_filter.mp hc).1)

theorem enumsBelow_eq {n : Nat} {s : Store} (h : TreeOk n s) (hn : (s.enums.map Enum.id).Nodup) :
    ∀ (fuel : Nat), ∀ g ∈ s.groups,
    s.enumsBelow fuel g = below Enum.parent s.enums s.groups fuel g.id
  | 0, _, _ => rfl
  | fuel + 1, g, hg => by
    rw [Store.enumsBelow, below, h.enums g hg]
    congr 1
    · exact filterMap_find Enum.id hn _ (fun a ha => (List.mem_filter.mp ha).1)
    · exact flatMap_congr' (fun c hc => enumsBelow_eq h hn fuel c (List.mem_filter.mp hc).1)

theorem tsOrder_eq {n : Nat} {s : Store} (h : TreeOk n s) :
    s.tsOrder = below Struct.parent s.structs s.groups (s.sequence + 2) 0 := by
  rw [Store.tsOrder, below]
  congr 1
  exact flatMap_congr' (fun c hc => structsBelow_eq h _ c (List.mem_filter.mp hc).1)

theorem tsEnumOrder_eq {n : Nat} {s : Store} (h : TreeOk n s)
    (hn : (s.enums.map Enum.id).Nodup) :
    s.tsEnumOrder = below Enum.parent s.enums s.groups (s.sequence + 2) 0 := by
  rw [Store.tsEnumOrder, below]
  congr 1
  exact flatMap_congr' (fun c hc => enumsBelow_eq h hn _ c (List.mem_filter.mp hc).1)

/-! ### Membership -/

/-- `p` is scope `a` or lies in it. -/
def Under (gs : List Group) (a p : Nat) : Prop :=
  p = a ∨ ∃ c ∈ gs, c.parent = a ∧ Around gs c.id p

theorem Around.trans {gs : List Group} {i j p : Nat} (h1 : Around gs i j) (h2 : Around gs j p) :
    Around gs i p := by
  induction h2 with
  | self _ => exact h1
  | out hg _ ih => exact .out hg (ih h1)

theorem Around.top {gs : List Group} {i p : Nat} (h : Around gs i p) : Under gs i p := by
  induction h with
  | self _ => exact .inl rfl
  | @out g i hg ha ih =>
    rcases ih with ih | ⟨c, h1, h2, h3⟩
    · exact .inr ⟨g, hg, ih, .self hg⟩
    · exact .inr ⟨c, h1, h2, .out hg h3⟩

theorem GroupPath.under {gs : List Group} {i : Nat} {p : List Name} (h : GroupPath gs i p) :
    Under gs 0 i := by
  induction h with
  | root => exact .inl rfl
  | @down g q hg _ ih =>
    rcases ih with ih | ⟨c, h1, h2, h3⟩
    · exact .inr ⟨g, hg, ih, .self hg⟩
    · exact .inr ⟨c, h1, h2, .out hg h3⟩

theorem around_of_under {gs : List Group} {c : Group} (hc : c ∈ gs) {p : Nat}
    (h : Under gs c.id p) : Around gs c.id p := by
  rcases h with rfl | ⟨d, h1, h2, h3⟩
  · exact .self hc
  · exact Around.trans (.out h1 (by rw [h2]; exact .self hc)) h3

theorem mem_below {α : Type} {par : α → Nat} {l : List α} {gs : List Group} :
    ∀ {fuel a : Nat} {x : α}, x ∈ below par l gs fuel a → x ∈ l ∧ Under gs a (par x)
  | 0, _, _, h => by simp [below] at h
  | fuel + 1, a, x, h => by
    simp only [below, List.mem_append, List.mem_filter, List.mem_flatMap, beq_iff_eq] at h
    rcases h with ⟨h1, h2⟩ | ⟨g, ⟨h1, h2⟩, h3⟩
    · exact ⟨h1, .inl h2⟩
    · obtain ⟨h4, h5⟩ := mem_below h3
      exact ⟨h4, .inr ⟨g, h1, h2, around_of_under h1 h5⟩⟩

theorem below_mem {α : Type} {par : α → Nat} {l : List α} {gs : List Group} {k : Nat}
    (ho : ∀ g ∈ gs, g.parent < g.id) (hk : ∀ g ∈ gs, g.id ≤ k) :
    ∀ {fuel a : Nat} {x : α}, k < a + fuel → x ∈ l → Under gs a (par x) → a ≤ k →
      x ∈ below par l gs fuel a
  | 0, _, _, h, _, _, h2 => by omega
  | fuel + 1, a, x, h, hx, hu, _ => by
    simp only [below, List.mem_append, List.mem_filter, List.mem_flatMap, beq_iff_eq]
    rcases hu with hu | ⟨c, h1, h2, h3⟩
    · exact .inl ⟨hx, hu⟩
    · have := ho c h1
      exact .inr ⟨c, ⟨h1, h2⟩, below_mem ho hk (by omega) hx h3.top (hk c h1)⟩

theorem mem_tsOrder {n : Nat} {s : Store} (h : TreeOk n s) (t : Struct) :
    t ∈ s.tsOrder ↔ t ∈ s.structs := by
  rw [tsOrder_eq h]
  constructor
  · exact fun h => (mem_below h).1
  · intro ht
    obtain ⟨p, hp⟩ := h.struct t ht
    exact below_mem (k := s.sequence) h.older (fun g hg => (h.gbound g hg).2) (by omega) ht hp.under
      (by omega)

theorem mem_tsEnumOrder {n : Nat} {s : Store} (h : TreeOk n s) (hn : (s.enums.map Enum.id).Nodup)
    (t : Enum) : t ∈ s.tsEnumOrder ↔ t ∈ s.enums := by
  rw [tsEnumOrder_eq h hn]
  constructor
  · exact fun h => (mem_below h).1
  · intro ht
    obtain ⟨p, hp⟩ := h.enum t ht
    exact below_mem (k := s.sequence) h.older (fun g hg => (h.gbound g hg).2) (by omega) ht hp.under
      (by omega)

/-! ### Order -/

/-- `x` comes before `y`. -/
def Before {α : Type} (l : List α) (x y : α) : Prop := ∃ l1 l2, l = l1 ++ l2 ∧ x ∈ l1 ∧ y ∈ l2

theorem Before.append_left {α : Type} {l m : List α} {x y : α} (h : Before l x y) :
    Before (l ++ m) x y := by
  obtain ⟨a, b, rfl, h1, h2⟩ := h
  exact ⟨a, b ++ m, by simp, h1, List.mem_append_left _ h2⟩

theorem Before.append_right {α : Type} {l m : List α} {x y : α} (h : Before m x y) :
    Before (l ++ m) x y := by
  obtain ⟨a, b, rfl, h1, h2⟩ := h
  exact ⟨l ++ a, b, by simp, List.mem_append_right _ h1, h2⟩

theorem Before.flatMap_in {α β : Type} {f : α → List β} : ∀ {l : List α} {a : α} {x y : β},
    a ∈ l → Before (f a) x y → Before (l.flatMap f) x y
  | [], _, _, _, h, _ => by simp at h
  | b :: l, a, x, y, h, hb => by
    rw [List.flatMap_cons]
    rcases List.mem_cons.mp h with rfl | h
    · exact hb.append_left
    · exact (Before.flatMap_in h hb).append_right

theorem Before.flatMap_of {α β : Type} {f : α → List β} {l : List α} {a b : α} {x y : β}
    (h : Before l a b) (hx : x ∈ f a) (hy : y ∈ f b) : Before (l.flatMap f) x y := by
  obtain ⟨l1, l2, rfl, h1, h2⟩ := h
  exact ⟨l1.flatMap f, l2.flatMap f, by simp, List.mem_flatMap.mpr ⟨a, h1, hx⟩,
    List.mem_flatMap.mpr ⟨b, h2, hy⟩⟩

/-- In a list without duplicates, what comes before `y` is in the part before it. -/
theorem Before.mem {α : Type} {l pre post : List α} {x y : α} (h : Before l x y) (hn : l.Nodup)
    (he : l = pre ++ y :: post) : x ∈ pre ∧ x ∉ y :: post := by
  obtain ⟨l1, l2, h1, h2, h3⟩ := h
  subst h1
  rw [List.nodup_append] at hn
  obtain ⟨_, _, hd⟩ := hn
  have hy : y ∉ l1 := fun hy => hd y hy y h3 rfl
  rcases List.append_eq_append_iff.mp he with ⟨a, e1, e2⟩ | ⟨a, e1, e2⟩
  · subst e1
    refine ⟨List.mem_append_left _ h2, ?_⟩
    intro hx
    exact hd x h2 x (by rw [e2]; exact List.mem_append_right _ hx) rfl
  · cases a with
    | nil =>
      simp only [List.append_nil] at e1
      simp only [List.nil_append] at e2
      subst e1
      refine ⟨h2, ?_⟩
      rw [e2]
      exact fun hx => hd x h2 x hx rfl
    | cons b a =>
      simp only [List.cons_append, List.cons.injEq] at e2
      exact absurd (by rw [e1, e2.1]; simp) hy

theorem before_of_pairwise {α : Type} {R : α → α → Prop} : ∀ {l : List α} {x y : α},
    l.Pairwise R → x ∈ l → y ∈ l → x ≠ y → ¬ R y x → Before l x y
  | [], _, _, _, h, _, _, _ => by simp at h
  | a :: l, x, y, hp, hx, hy, hne, hr => by
    rw [List.pairwise_cons] at hp
    rcases List.mem_cons.mp hx with h1 | h1
    · rcases List.mem_cons.mp hy with h2 | h2
      · exact absurd (h1.trans h2.symm) hne
      · exact ⟨[a], l, rfl, List.mem_singleton.mpr h1, h2⟩
    · rcases List.mem_cons.mp hy with h2 | h2
      · exact absurd (h2 ▸ hp.1 x h1) hr
      · exact (before_of_pairwise hp.2 h1 h2 hne hr).append_right (l := [a])

theorem group_eq {n : Nat} {s : Store} (h : TreeOk n s) {c d : Group} (hc : c ∈ s.groups)
    (hd : d ∈ s.groups) (he : c.id = d.id) : c = d := by
  have h1 := find_unique Group.id hc h.gids
  have h2 := find_unique Group.id hd h.gids
  rw [he, h2] at h1
  exact (Option.some.inj h1).symm

/-- Groups around the same group lie inside one another. -/
theorem around_linear {n : Nat} {s : Store} (h : TreeOk n s) {i j p : Nat}
    (hi : Around s.groups i p) (hj : Around s.groups j p) :
    i = j ∨ (∃ c ∈ s.groups, c.id = j ∧ Around s.groups i c.parent) ∨
      ∃ c ∈ s.groups, c.id = i ∧ Around s.groups j c.parent := by
  induction hi with
  | @self g hg =>
    rcases hj.inv with h1 | ⟨c, h1, h2, h3⟩
    · exact .inl h1.symm
    · exact .inr (.inr ⟨c, h1, h2, h3⟩)
  | @out g i hg ha ih =>
    rcases hj.inv with h1 | ⟨c, h1, h2, h3⟩
    · exact .inr (.inl ⟨g, hg, h1.symm, ha⟩)
    · rw [group_eq h h1 hg h2] at h3
      exact ih h3

/-- Two groups next to each other have nothing in common. -/
theorem siblings_apart {n : Nat} {s : Store} (h : TreeOk n s) {c d : Group} (hc : c ∈ s.groups)
    (hd : d ∈ s.groups) (hp : c.parent = d.parent) {p : Nat} (h1 : Around s.groups c.id p)
    (h2 : Around s.groups d.id p) : c = d := by
  rcases around_linear h h1 h2 with h3 | ⟨e, e1, e2, e3⟩ | ⟨e, e1, e2, e3⟩
  · exact group_eq h hc hd h3
  · rw [group_eq h e1 hd e2] at e3
    have := e3.le h.older
    have := h.older c hc
    omega
  · rw [group_eq h e1 hc e2] at e3
    have := e3.le h.older
    have := h.older d hd
    omega

theorem below_nodup {n : Nat} {s : Store} (h : TreeOk n s) {α : Type} {par : α → Nat} {l : List α}
    (hl : l.Nodup) : ∀ (fuel a : Nat), (below par l s.groups fuel a).Nodup
  | 0, _ => by simp [below]
  | fuel + 1, a => by
    rw [below, List.nodup_append]
    refine ⟨hl.filter _, ?_, ?_⟩
    · rw [List.Nodup, List.pairwise_flatMap]
      refine ⟨fun g _ => below_nodup h hl fuel g.id, ?_⟩
      have hg : s.groups.Pairwise (fun c d => c.id ≠ d.id) := by
        have := h.gids
        rwa [List.Nodup, List.pairwise_map] at this
      have h1 : (s.groups.filter (fun g => g.parent == a)).Pairwise (fun c d => c.id ≠ d.id) :=
        hg.filter _
      refine List.Pairwise.imp_of_mem ?_ h1
      intro c d hc hd hne x hx y hy hxy
      subst hxy
      simp only [List.mem_filter, beq_iff_eq] at hc hd
      have h2 := around_of_under hc.1 (mem_below hx).2
      have h3 := around_of_under hd.1 (mem_below hy).2
      exact hne (congrArg Group.id (siblings_apart h hc.1 hd.1 (by omega) h2 h3))
    · intro x hx y hy hxy
      subst hxy
      simp only [List.mem_filter, beq_iff_eq, List.mem_flatMap] at hx hy
      obtain ⟨g, ⟨g1, g2⟩, g3⟩ := hy
      have h2 := (around_of_under g1 (mem_below g3).2).le h.older
      have := h.older g g1
      omega

theorem tsOrder_nodup {n : Nat} {s : Store} (h : TreeOk n s) : s.tsOrder.Nodup := by
  rw [tsOrder_eq h]
  refine below_nodup h ?_ _ _
  have := h.snodup
  rw [List.Nodup, List.pairwise_map] at this
  refine this.imp ?_
  intro a b h1 h2
  exact h1 (h2 ▸ rfl)

theorem tsEnumOrder_nodup {n : Nat} {s : Store} (h : TreeOk n s)
    (hn : (s.enums.map Enum.id).Nodup) : s.tsEnumOrder.Nodup := by
  rw [tsEnumOrder_eq h hn]
  refine below_nodup h ?_ _ _
  rw [List.Nodup, List.pairwise_map] at hn
  refine hn.imp ?_
  intro a b h1 h2
  exact h1 (h2 ▸ rfl)

theorem tsOrder_perm {n : Nat} {s : Store} (h : TreeOk n s) : s.tsOrder.Perm s.structs := by
  refine (List.perm_ext_iff_of_nodup (tsOrder_nodup h) ?_).mpr (mem_tsOrder h)
  have := h.snodup
  rw [List.Nodup, List.pairwise_map] at this
  refine this.imp ?_
  intro a b h1 h2
  exact h1 (h2 ▸ rfl)

theorem tsEnumOrder_perm {n : Nat} {s : Store} (h : TreeOk n s)
    (hn : (s.enums.map Enum.id).Nodup) : s.tsEnumOrder.Perm s.enums := by
  refine (List.perm_ext_iff_of_nodup (tsEnumOrder_nodup h hn) ?_).mpr (mem_tsEnumOrder h hn)
  rw [List.Nodup, List.pairwise_map] at hn
  refine hn.imp ?_
  intro a b h1 h2
  exact h1 (h2 ▸ rfl)

theorem below_order {n : Nat} {s : Store} (h : TreeOk n s) {x y : Struct} (hlt : x.id < y.id)
    (hn : y.id ≤ n) (hd : ¬ DeeperThan s y x) : ∀ (fuel a : Nat),
    x ∈ below Struct.parent s.structs s.groups fuel a →
    y ∈ below Struct.parent s.structs s.groups fuel a →
    Before (below Struct.parent s.structs s.groups fuel a) x y
  | 0, _, hx, _ => by simp [below] at hx
  | fuel + 1, a, hx, hy => by
    rw [below] at hx hy ⊢
    rcases List.mem_append.mp hx with hx | hx
    · rcases List.mem_append.mp hy with hy | hy
      · refine Before.append_left ?_
        have hp : (s.structs.filter (fun t => t.parent == a)).Pairwise (fun a b => a.id < b.id) := by
          have := h.sorted
          rw [List.pairwise_map] at this
          exact this.filter _
        exact before_of_pairwise hp hx hy (by rintro rfl; omega) (by omega)
      · exact ⟨_, _, rfl, hx, hy⟩
    · obtain ⟨c, hc, hxc⟩ := List.mem_flatMap.mp hx
      simp only [List.mem_filter, beq_iff_eq] at hc
      have hax := around_of_under hc.1 (mem_below hxc).2
      rcases List.mem_append.mp hy with hy | hy
      · simp only [List.mem_filter, beq_iff_eq] at hy
        exact absurd ⟨c, hc.1, by rw [hc.2, hy.2], hax⟩ hd
      · obtain ⟨d, hdm, hyd⟩ := List.mem_flatMap.mp hy
        simp only [List.mem_filter, beq_iff_eq] at hdm
        have hay := around_of_under hdm.1 (mem_below hyd).2
        refine Before.append_right ?_
        by_cases hcd : c = d
        · subst hcd
          exact Before.flatMap_in (List.mem_filter.mpr ⟨hc.1, by simpa using hc.2⟩)
            (below_order h hlt hn hd fuel c.id hxc hyd)
        · have hle := hax.le h.older
          have hxs := h.sbound x (mem_below hxc).1
          have hcl : c.id < d.id := by
            rcases Nat.lt_trichotomy c.id d.id with h1 | h1 | h1
            · exact h1
            · exact absurd (group_eq h hc.1 hdm.1 h1) hcd
            · have := h.inside d hdm.1 c hc.1 (by omega) h1 y (mem_below hyd).1 hn hay
              omega
          have hp : (s.groups.filter (fun g => g.parent == a)).Pairwise
              (fun a b => a.parent = b.parent → a.id < b.id) := h.sibs.filter _
          refine Before.flatMap_of (f := fun g => below Struct.parent s.structs s.groups fuel g.id)
            (before_of_pairwise hp ?_ ?_ hcd ?_) hxc hyd
          · exact List.mem_filter.mpr ⟨hc.1, by simpa using hc.2⟩
          · exact List.mem_filter.mpr ⟨hdm.1, by simpa using hdm.2⟩
          · intro hr
            have := hr (by omega)
            omega

theorem below_deeper {n : Nat} {s : Store} (h : TreeOk n s) {x y : Struct}
    (hd : DeeperThan s y x) : ∀ (fuel a : Nat),
    x ∈ below Struct.parent s.structs s.groups fuel a →
    y ∈ below Struct.parent s.structs s.groups fuel a →
    Before (below Struct.parent s.structs s.groups fuel a) y x
  | 0, _, hx, _ => by simp [below] at hx
  | fuel + 1, a, hx, hy => by
    obtain ⟨e, e1, e2, e3⟩ := hd
    have hle := e3.le h.older
    have heo := h.older e e1
    rw [below] at hx hy ⊢
    rcases List.mem_append.mp hx with hx | hx
    · rcases List.mem_append.mp hy with hy | hy
      · simp only [List.mem_filter, beq_iff_eq] at hx hy
        omega
      · obtain ⟨d, hdm, hyd⟩ := List.mem_flatMap.mp hy
        simp only [List.mem_filter, beq_iff_eq] at hdm hx
        have := (around_of_under hdm.1 (mem_below hyd).2).le h.older
        have := h.older d hdm.1
        omega
    · rcases List.mem_append.mp hy with hy | hy
      · exact ⟨_, _, rfl, hy, hx⟩
      · obtain ⟨c, hc, hxc⟩ := List.mem_flatMap.mp hx
        obtain ⟨d, hdm, hyd⟩ := List.mem_flatMap.mp hy
        simp only [List.mem_filter, beq_iff_eq] at hc hdm
        have hax := around_of_under hc.1 (mem_below hxc).2
        have hay := around_of_under hdm.1 (mem_below hyd).2
        have hdx : Around s.groups d.id x.parent := Around.trans (.out e1 (e2 ▸ hay)) e3
        have hcd := siblings_apart h hc.1 hdm.1 (by omega) hax hdx
        subst hcd
        exact (Before.flatMap_in (List.mem_filter.mpr ⟨hc.1, by simpa using hc.2⟩)
          (below_deeper h ⟨e, e1, e2, e3⟩ fuel c.id hxc hyd)).append_right

end Verif.Prot
