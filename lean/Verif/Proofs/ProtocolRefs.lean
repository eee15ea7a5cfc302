import Verif.Proofs.ProtocolPath
set_option autoImplicit false
/-!
Lookup by path, and the invariant that every type in the store is primitive or refers to an earlier
declaration.
-/
namespace Verif.Prot

open Verif

/-! ### Lookup -/

theorem findByPath_sound (s : Store) : ∀ (parent : Nat) (path : List Name)
    (r : List (Name × Nat)), s.findByPath parent path = some r →
    ∃ w id, r.getLast? = some (w, id) ∧ path.getLast? = some w ∧ Leads s.groups s parent path id ∧
      r.map Prod.fst = path
  | _, [], _, h => by simp [Store.findByPath] at h
  | parent, [w], r, h => by
    simp only [Store.findByPath] at h
    split at h
    · rename_i e he
      simp only [Option.some.injEq] at h; subst h
      have h1 := List.mem_of_find?_eq_some he
      have h2 := List.find?_some he
      simp only [Bool.and_eq_true, beq_iff_eq] at h2
      exact ⟨w, e.id, rfl, rfl, .here (.inl ⟨e, h1, rfl, h2.1, h2.2⟩), rfl⟩
    · split at h
      · rename_i t ht
        simp only [Option.some.injEq] at h; subst h
        have h1 := List.mem_of_find?_eq_some ht
        have h2 := List.find?_some ht
        simp only [Bool.and_eq_true, beq_iff_eq] at h2
        exact ⟨w, t.id, rfl, rfl, .here (.inr ⟨t, h1, rfl, h2.1, h2.2⟩), rfl⟩
      · simp at h
  | parent, w :: w2 :: rest, r, h => by
    simp only [Store.findByPath] at h
    split at h
    · rename_i g hg
      simp only [Option.map_eq_some_iff] at h
      obtain ⟨a, ha, rfl⟩ := h
      obtain ⟨x, id, h1, h2, h3, h4⟩ := findByPath_sound s g.id (w2 :: rest) a ha
      have g1 := List.mem_of_find?_eq_some hg
      have g2 := List.find?_some hg
      simp only [Bool.and_eq_true, beq_iff_eq] at g2
      refine ⟨x, id, ?_, ?_, .into g1 g2.1 g2.2 h3, by simp [h4]⟩
      · rw [List.getLast?_cons, h1]; rfl
      · rw [List.getLast?_cons, h2]; rfl
    · simp at h

theorem findByPath_complete (s : Store) (hu : GroupNamesUnique s) {parent : Nat}
    {path : List Name} {id : Nat} (h : Leads s.groups s parent path id) :
    ∃ r, s.findByPath parent path = some r := by
  induction h with
  | @here parent w id ht =>
    simp only [Store.findByPath]
    split
    · exact ⟨_, rfl⟩
    · rename_i he
      split
      · exact ⟨_, rfl⟩
      · rename_i hs
        exfalso
        rw [List.find?_eq_none] at he hs
        rcases ht with ⟨e, h1, _, h3, h4⟩ | ⟨t, h1, _, h3, h4⟩
        · exact he e h1 (by simp [h3, h4])
        · exact hs t h1 (by simp [h3, h4])
  | @into parent w rest id g hg hn hp hl ih =>
    obtain ⟨r, hr⟩ := ih
    cases rest with
    | nil => cases hl
    | cons w2 rest =>
      simp only [Store.findByPath]
      split
      · rename_i g2 hg2
        have h1 := List.mem_of_find?_eq_some hg2
        have h2 := List.find?_some hg2
        simp only [Bool.and_eq_true, beq_iff_eq] at h2
        have : g2 = g := hu g2 h1 g hg (by rw [h2.1, hn]) (by rw [h2.2, hp])
        subst this
        exact ⟨_, by rw [hr]; rfl⟩
      · rename_i hno
        rw [List.find?_eq_none] at hno
        exact absurd (by simp [hn, hp]) (hno g hg)

/-! ### Growth of the store -/

/-- Later stores know all types and groups of earlier ones. -/
structure Ext (s s2 : Store) : Prop where
  groups : Cover (allGroups s) (allGroups s2)
  enums : ∀ e ∈ s.enums, e ∈ s2.enums
  structs : ∀ t ∈ s.structs, t ∈ s2.structs

theorem Leads.mono {gs hs : List Group} {s s2 : Store} {parent : Nat} {path : List Name} {id : Nat}
    (h : Leads gs s parent path id) (hc : Cover gs hs)
    (he : ∀ e ∈ s.enums, e ∈ s2.enums) (hst : ∀ t ∈ s.structs, t ∈ s2.structs) :
    Leads hs s2 parent path id := by
  induction h with
  | here ht =>
    refine .here ?_
    rcases ht with ⟨e, h1, h2⟩ | ⟨t, h1, h2⟩
    · exact .inl ⟨e, he e h1, h2⟩
    · exact .inr ⟨t, hst t h1, h2⟩
  | into hg hn hp _ ih =>
    obtain ⟨h, h1, h2, h3, h4⟩ := hc _ hg
    exact .into h1 (h4.trans hn) (h3.trans hp) (h2 ▸ ih)

theorem RefOk.mono {s s2 : Store} (hx : Ext s s2) {o p : Nat} {path : List Name} {id : Nat}
    (h : RefOk (allGroups s) s o p path id) : RefOk (allGroups s2) s2 o p path id := by
  refine ⟨h.1, ?_⟩
  rcases h.2 with h | h
  · exact .inl (h.mono hx.groups hx.enums hx.structs)
  · exact .inr (h.mono hx.groups hx.enums hx.structs)

theorem FieldTyped.mono {s s2 : Store} (hx : Ext s s2) {o p : Nat} {f : Field}
    (h : FieldTyped (allGroups s) s o p f) : FieldTyped (allGroups s2) s2 o p f := by
  rcases h with h | ⟨id, h1, h0, h2⟩
  · exact .inl h
  · exact .inr ⟨id, h1, h0, h2.mono hx⟩

theorem ItemTyped.mono {s s2 : Store} (hx : Ext s s2) {o p : Nat} {f : EnumItem}
    (h : ItemTyped (allGroups s) s o p f) : ItemTyped (allGroups s2) s2 o p f := by
  rcases h with h | ⟨h0, id, h1, h2⟩
  · exact .inl h
  · exact .inr ⟨h0, id, h1, h2.mono hx⟩

/-- Ids of closed types. -/
def typeIds (s : Store) : List Nat := s.structs.map Struct.id ++ s.enums.map Enum.id

/-- The invariant about types. -/
structure TInv (s : Store) : Prop where
  one : s.cEnum = none ∨ s.cStruct = none
  cstruct : ∀ t, s.cStruct = some t → t.parent = s.groupId ∧ ∀ x ∈ typeIds s, x < t.id
  cenum : ∀ e, s.cEnum = some e → e.parent = s.groupId ∧ ∀ x ∈ typeIds s, x < e.id
  fields : ∀ t ∈ s.structs ++ s.cStruct.toList, ∀ f ∈ t.fields,
    FieldTyped (allGroups s) s t.id t.parent f
  items : ∀ e ∈ s.enums ++ s.cEnum.toList, ∀ v ∈ e.variants,
    ItemTyped (allGroups s) s e.id e.parent v

/-- Not inside a field or variant. -/
def Outer (s : Store) : Prop := s.cField = none ∧ ∀ e, s.cEnum = some e → e.current = none

/-- Between the type and the name of a field or variant. -/
def Typing (s : Store) : Prop :=
  (s.cField = none ∧ ∃ e c, s.cEnum = some e ∧ e.current = some c ∧ c.refTypeId = none ∧
    c.types = none) ∨
  (s.cEnum = none ∧ ∃ f, s.cField = some f ∧ f.refTypeId = none)

/-- After the name of a variant. -/
def NamedV (s : Store) : Prop := s.cField = none ∧ ∃ e, s.cEnum = some e ∧ e.current = none

/-- After the name of a field. -/
def NamedF (s : Store) : Prop :=
  s.cEnum = none ∧ ∃ f t, s.cField = some f ∧ s.cStruct = some t ∧
    FieldTyped (allGroups s) s t.id t.parent f

theorem TInv.ext {s s2 : Store} (h : TInv s) (hx : Ext s s2)
    (hone : s2.cEnum = none ∨ s2.cStruct = none)
    (h1 : ∀ t, s2.cStruct = some t → t.parent = s2.groupId ∧ ∀ x ∈ typeIds s2, x < t.id)
    (h2 : ∀ t, s2.cEnum = some t → t.parent = s2.groupId ∧ ∀ x ∈ typeIds s2, x < t.id)
    (h3 : ∀ t ∈ s2.structs ++ s2.cStruct.toList, ∀ f ∈ t.fields,
      (∃ u ∈ s.structs ++ s.cStruct.toList, u.id = t.id ∧ u.parent = t.parent ∧ f ∈ u.fields) ∨
      FieldTyped (allGroups s2) s2 t.id t.parent f)
    (h4 : ∀ e ∈ s2.enums ++ s2.cEnum.toList, ∀ v ∈ e.variants,
      (∃ u ∈ s.enums ++ s.cEnum.toList, u.id = e.id ∧ u.parent = e.parent ∧ v ∈ u.variants) ∨
      ItemTyped (allGroups s2) s2 e.id e.parent v) : TInv s2 := by
  refine ⟨hone, h1, h2, ?_, ?_⟩
  · intro t ht f hf
    rcases h3 t ht f hf with ⟨u, hu, e1, e2, e3⟩ | h
    · rw [← e1, ← e2]; exact (h.fields u hu f e3).mono hx
    · exact h
  · intro t ht f hf
    rcases h4 t ht f hf with ⟨u, hu, e1, e2, e3⟩ | h
    · rw [← e1, ← e2]; exact (h.items u hu f e3).mono hx
    · exact h

theorem typeIds_le (s : Store) (hi : IdsOk s) : ∀ x ∈ typeIds s, x ≤ s.sequence := by
  intro x hx
  have := hi x
  have h1 : 1 ≤ (allIds s).count x := by
    refine List.one_le_count_iff.mpr ?_
    simp only [typeIds, List.mem_append] at hx
    simp only [allIds, List.mem_append]
    rcases hx with hx | hx
    · exact .inl hx
    · exact .inr (.inr (.inl hx))
  split at this <;> omega

theorem cover_bind (s : Store) (f : Group → Group)
    (hf : ∀ g, (f g).id = g.id ∧ (f g).parent = g.parent ∧ (f g).name = g.name) :
    Cover (allGroups s) (s.groups ++ (s.cGroup.map f).toList) := by
  intro g hg
  simp only [allGroups, List.mem_append, Option.mem_toList] at hg
  rcases hg with hg | hg
  · exact ⟨g, by simp [hg], rfl, rfl, rfl⟩
  · exact ⟨f g, by simp [hg], (hf g).1, (hf g).2.1, (hf g).2.2⟩

theorem openStruct_t {s s2 : Store} {w : Name} (h : s.openStruct w = .ok s2) (hi : IdsOk s)
    (ht : TInv s) (ho : Outer s) : TInv s2 ∧ Outer s2 := by
  simp only [Store.openStruct] at h
  split at h
  · simp at h
  · split at h
    · simp at h
    · rename_i hs he
      simp only [Res.ok.injEq] at h
      have hcs : s.cStruct = none := by simpa using hs
      have hce : s.cEnum = none := by simpa using he
      have hx : Ext s s2 := by
        subst h
        exact ⟨cover_bind s _ (fun g => ⟨rfl, rfl, rfl⟩), fun _ h => h, fun _ h => h⟩
      subst h
      refine ⟨ht.ext hx (.inl hce) ?_ ?_ ?_ ?_, ho.1, by simp [hce]⟩
      · intro t h
        simp only [Option.some.injEq] at h; subst h
        refine ⟨by simp [Store.groupId], ?_⟩
        intro x hxm
        have := typeIds_le s hi x hxm
        simp only; omega
      · intro t h; simp [hce] at h
      · intro t htm f hf
        simp only [Option.toList_some, List.mem_append, List.mem_singleton] at htm
        rcases htm with htm | rfl
        · exact .inl ⟨t, by simp [htm], rfl, rfl, hf⟩
        · simp at hf
      · intro e hem v hv
        exact .inl ⟨e, hem, rfl, rfl, hv⟩

theorem openEnum_t {s s2 : Store} {w : Name} (h : s.openEnum w = .ok s2) (hi : IdsOk s)
    (ht : TInv s) (ho : Outer s) : TInv s2 ∧ Outer s2 := by
  simp only [Store.openEnum] at h
  split at h
  · simp at h
  · split at h
    · simp at h
    · rename_i hs he
      simp only [Res.ok.injEq] at h
      have hcs : s.cStruct = none := by simpa using hs
      have hce : s.cEnum = none := by simpa using he
      have hx : Ext s s2 := by
        subst h
        exact ⟨cover_bind s _ (fun g => ⟨rfl, rfl, rfl⟩), fun _ h => h, fun _ h => h⟩
      subst h
      refine ⟨ht.ext hx (.inr hcs) ?_ ?_ ?_ ?_, ho.1, by simp⟩
      · intro t h; simp [hcs] at h
      · intro t h
        simp only [Option.some.injEq] at h; subst h
        refine ⟨by simp [Store.groupId], ?_⟩
        intro x hxm
        have := typeIds_le s hi x hxm
        simp only; omega
      · intro e hem v hv
        exact .inl ⟨e, hem, rfl, rfl, hv⟩
      · intro t htm f hf
        simp only [Option.toList_some, List.mem_append, List.mem_singleton] at htm
        rcases htm with htm | rfl
        · exact .inl ⟨t, by simp [htm], rfl, rfl, hf⟩
        · simp at hf

theorem openGroup_t {s s2 : Store} {w : Name} (h : s.openGroup w = .ok s2)
    (ht : TInv s) (ho : Outer s) : TInv s2 ∧ Outer s2 := by
  simp only [Store.openGroup] at h
  split at h
  · simp at h
  · split at h
    · simp at h
    · rename_i hs he
      simp only [Res.ok.injEq] at h
      have hcs : s.cStruct = none := by simpa using hs
      have hce : s.cEnum = none := by simpa using he
      have hx : Ext s s2 := by
        refine ⟨?_, by subst h; exact fun _ h => h, by subst h; exact fun _ h => h⟩
        intro g hg
        subst h
        simp only [allGroups, List.mem_append, Option.mem_toList] at hg ⊢
        rcases hg with hg | hg
        · refine ⟨g, .inl ?_, rfl, rfl, rfl⟩
          split <;> simp [hg]
        · exact ⟨{ g with groups := g.groups ++ [s.sequence + 1] }, .inl (by simp [hg]),
            rfl, rfl, rfl⟩
      subst h
      refine ⟨ht.ext hx (.inl hce) ?_ ?_ ?_ ?_, ho.1, by simp [hce]⟩
      · intro t h; simp [hcs] at h
      · intro t h; simp [hce] at h
      · intro e hem v hv
        exact .inl ⟨e, hem, rfl, rfl, hv⟩
      · intro e hem v hv
        exact .inl ⟨e, hem, rfl, rfl, hv⟩

/-- Changes of the current field only. -/
theorem TInv.field {s : Store} (ht : TInv s) (seq : Nat) (f : Option Field) :
    TInv { s with sequence := seq, cField := f } :=
  ⟨ht.one, ht.cstruct, ht.cenum,
    fun t h x hx => (ht.fields t h x hx).mono (s2 := { s with sequence := seq, cField := f })
      ⟨Cover.refl (allGroups s), fun _ h => h, fun _ h => h⟩,
    fun t h x hx => (ht.items t h x hx).mono (s2 := { s with sequence := seq, cField := f })
      ⟨Cover.refl (allGroups s), fun _ h => h, fun _ h => h⟩⟩

theorem setFieldType_t {s s2 : Store} {w : Name} (h : s.setFieldType w = .ok s2)
    (ht : TInv s) (hce : s.cEnum = none) (ho : Outer s ∨ Typing s) : TInv s2 ∧ Typing s2 := by
  simp only [Store.setFieldType] at h
  split at h
  · simp at h
  · split at h
    · rename_i f hf
      simp only [Res.ok.injEq] at h
      subst h
      refine ⟨ht.field s.sequence _, .inr ⟨hce, _, rfl, ?_⟩⟩
      rcases ho with ho | ho
      · simp [ho.1] at hf
      · rcases ho with ⟨h1, _⟩ | ⟨_, g, h1, h2⟩
        · simp [h1] at hf
        · rw [h1] at hf; simp at hf; subst hf; exact h2
    · simp only [Res.ok.injEq] at h
      subst h
      exact ⟨ht.field _ _, .inr ⟨hce, _, rfl, rfl⟩⟩

/-- Changes of the current variant only. -/
theorem TInv.variant {s : Store} (ht : TInv s) {e : Enum} (he : s.cEnum = some e) (e2 : Enum)
    (h1 : e2.id = e.id) (h2 : e2.parent = e.parent)
    (h3 : ∀ v ∈ e2.variants, v ∈ e.variants ∨
      ItemTyped (allGroups s) s e2.id e2.parent v) : TInv { s with cEnum := some e2 } := by
  have hx : Ext s { s with cEnum := some e2 } := ⟨Cover.refl _, fun _ h => h, fun _ h => h⟩
  have hcs : s.cStruct = none := by
    rcases ht.one with h | h
    · rw [he] at h; simp at h
    · exact h
  refine ht.ext hx (.inr hcs) ?_ ?_ ?_ ?_
  · intro t h; simp [hcs] at h
  · intro t h
    simp only [Option.some.injEq] at h; subst h
    obtain ⟨a, b⟩ := ht.cenum e he
    exact ⟨h2.trans a, fun x hxm => by rw [h1]; exact b x hxm⟩
  · intro e hem v hv
    exact .inl ⟨e, hem, rfl, rfl, hv⟩
  · intro t htm v hv
    simp only [Option.toList_some, List.mem_append, List.mem_singleton] at htm
    rcases htm with htm | rfl
    · exact .inl ⟨t, by simp [htm], rfl, rfl, hv⟩
    · rcases h3 v hv with h3 | h3
      · exact .inl ⟨e, by simp [he], h1.symm, h2.symm, h3⟩
      · exact .inr (h3.mono hx)

theorem setEnumType_t {s s2 : Store} {w : Name} (h : s.setEnumType w = .ok s2)
    (ht : TInv s) (ho : Outer s ∨ Typing s) : TInv s2 ∧ Typing s2 := by
  simp only [Store.setEnumType] at h
  split at h
  · simp at h
  · rename_i e he
    have hcf : s.cField = none := by
      rcases ho with ho | ⟨h1, _⟩ | ⟨h1, _⟩
      · exact ho.1
      · exact h1
      · rw [he] at h1; simp at h1
    split at h
    · rename_i c hc
      simp only [Res.ok.injEq] at h
      subst h
      refine ⟨ht.variant he _ rfl rfl (fun v hv => .inl hv), .inl ⟨hcf, _, _, rfl, rfl, ?_⟩⟩
      rcases ho with ho | ⟨_, e1, c1, h1, h2, h3⟩ | ⟨h1, _⟩
      · have := ho.2 e he; rw [hc] at this; simp at this
      · rw [he] at h1; simp at h1; subst h1
        rw [hc] at h2; simp at h2; subst h2
        exact h3
      · rw [he] at h1; simp at h1
    · simp only [Res.ok.injEq] at h
      subst h
      exact ⟨ht.variant he _ rfl rfl (fun v hv => .inl hv), .inl ⟨hcf, _, _, rfl, rfl, rfl, rfl⟩⟩

theorem setSimple_t {s s2 : Store} {w : Name} (h : s.setSimple w = .ok s2)
    (ht : TInv s) (ho : Outer s ∨ Typing s) : TInv s2 ∧ NamedV s2 := by
  simp only [Store.setSimple] at h
  split at h
  · simp at h
  · rename_i e he
    have hcf : s.cField = none := by
      rcases ho with ho | ⟨h1, _⟩ | ⟨h1, _⟩
      · exact ho.1
      · exact h1
      · rw [he] at h1; simp at h1
    split at h
    · simp at h
    · simp only [Res.ok.injEq] at h
      subst h
      refine ⟨ht.variant he _ rfl rfl (fun v hv => ?_), hcf, _, rfl, rfl⟩
      simp only [List.mem_append, List.mem_singleton] at hv
      rcases hv with hv | rfl
      · exact .inl hv
      · exact .inr (.inl ⟨rfl, _, rfl, rfl, .inr ⟨rfl, rfl⟩⟩)

theorem setRepeated_t {s s2 : Store} (h : s.setRepeated = .ok s2)
    (ht : TInv s) (ho : Typing s) : TInv s2 ∧ Typing s2 := by
  simp only [Store.setRepeated] at h
  split at h
  · rename_i e he
    split at h
    · rename_i c hc
      simp only [Res.ok.injEq] at h
      subst h
      rcases ho with ⟨h0, e1, c1, h1, h2, h3⟩ | ⟨h1, _⟩
      · rw [he] at h1; simp at h1; subst h1
        rw [hc] at h2; simp at h2; subst h2
        exact ⟨ht.variant he _ rfl rfl (fun v hv => .inl hv), .inl ⟨h0, _, _, rfl, rfl, h3⟩⟩
      · rw [he] at h1; simp at h1
    · simp at h
  · rename_i he
    split at h
    · rename_i f hf
      simp only [Res.ok.injEq] at h
      subst h
      rcases ho with ⟨h0, _⟩ | ⟨h1, g, h2, h3⟩
      · simp [h0] at hf
      · rw [hf] at h2; simp at h2; subst h2
        exact ⟨ht.field s.sequence _, .inr ⟨he, _, rfl, h3⟩⟩
    · simp at h

theorem leads_resolve {s : Store} {own : Nat} {path : List Name} {r : List (Name × Nat)}
    (h : s.resolve own path = some r) : ∃ w id, r.getLast? = some (w, id) ∧
    path.getLast? = some w ∧
    (Leads (allGroups s) s own path id ∨ Leads (allGroups s) s 0 path id) := by
  have hc : Cover s.groups (allGroups s) :=
    fun g hg => ⟨g, by simp [allGroups, hg], rfl, rfl, rfl⟩
  unfold Store.resolve at h
  split at h
  · rename_i x hx
    simp only [Option.some.injEq] at h; subst h
    obtain ⟨w, id, h1, h2, h3, _⟩ := findByPath_sound s _ _ _ hx
    exact ⟨w, id, h1, h2, .inl (h3.mono hc (fun _ h => h) (fun _ h => h))⟩
  · obtain ⟨w, id, h1, h2, h3, _⟩ := findByPath_sound s _ _ _ h
    exact ⟨w, id, h1, h2, .inr (h3.mono hc (fun _ h => h) (fun _ h => h))⟩

theorem leads_typeIds {gs : List Group} {s : Store} {p : Nat} {path : List Name} {id : Nat}
    (h : Leads gs s p path id) : id ∈ typeIds s := by
  induction h with
  | here ht =>
    simp only [typeIds, List.mem_append, List.mem_map]
    rcases ht with ⟨e, h1, h2, _⟩ | ⟨t, h1, h2, _⟩
    · exact .inr ⟨e, h1, h2⟩
    · exact .inl ⟨t, h1, h2⟩
  | into _ _ _ _ ih => exact ih

theorem setFieldName_t {s s2 : Store} {w : Name} (h : s.setFieldName w = .ok s2)
    (ht : TInv s) (hce : s.cEnum = none) (ho : Typing s) : TInv s2 ∧ NamedF s2 := by
  simp only [Store.setFieldName] at h
  split at h
  · simp at h
  · rename_i hcs
    split at h
    · simp at h
    · rename_i f hf
      simp only [Res.bind_eq_ok, Res.pure_eq, Res.ok.injEq] at h
      obtain ⟨f2, h1, rfl⟩ := h
      refine ⟨ht.field s.sequence _, hce, ?_⟩
      have hcs3 : ∃ t, s.cStruct = some t := by
        cases hcs2 : s.cStruct with
        | none => simp [hcs2] at hcs
        | some t => exact ⟨t, rfl⟩
      · obtain ⟨t, hcs2⟩ := hcs3
        refine ⟨f2, t, rfl, hcs2, ?_⟩
        have hnone : f.refTypeId = none := by
          rcases ho with ⟨h0, _⟩ | ⟨_, g, h2, h3⟩
          · simp [h0] at hf
          · rw [hf] at h2; simp at h2; subst h2; exact h3
        obtain ⟨hp, hlt⟩ := ht.cstruct t hcs2
        have hx : Ext s { s with cField := some f2 } :=
          ⟨Cover.refl _, fun _ h => h, fun _ h => h⟩
        refine FieldTyped.mono hx ?_
        simp only [Field.acceptType] at h1
        split at h1
        · simp at h1
        · rename_i first more hpath
          split at h1
          · rename_i hprim
            simp only [Res.ok.injEq] at h1; subst h1
            simp only [Bool.and_eq_true, List.isEmpty_iff] at hprim
            refine .inl ⟨hnone, hprim.2, ?_⟩
            simp [hpath, hprim.1]
          · split at h1
            · simp at h1
            · rename_i r hr
              split at h1
              · simp at h1
              · rename_i n id hl
                simp only [Res.ok.injEq] at h1; subst h1
                obtain ⟨w2, id2, g1, g0, g2⟩ := leads_resolve hr
                rw [hl] at g1
                simp only [Option.some.injEq, Prod.mk.injEq] at g1
                obtain ⟨rfl, rfl⟩ := g1
                refine .inr ⟨id, rfl, g0, ?_, ?_⟩
                · rcases g2 with g2 | g2
                  · exact hlt _ (leads_typeIds g2)
                  · exact hlt _ (leads_typeIds g2)
                · rw [hp]
                  exact g2

theorem setEnumName_t {s s2 : Store} {w : Name} (h : s.setEnumName w = .ok s2)
    (ht : TInv s) (ho : Typing s) : TInv s2 ∧ NamedV s2 := by
  simp only [Store.setEnumName] at h
  split at h
  · simp at h
  · rename_i e he
    split at h
    · simp at h
    · rename_i c hc
      simp only [Res.bind_eq_ok, Res.pure_eq, Res.ok.injEq] at h
      obtain ⟨c2, h1, rfl⟩ := h
      rcases ho with ⟨h0, e1, c1, g1, g2, g3, g4⟩ | ⟨g1, _⟩
      · rw [he] at g1; simp at g1; subst g1
        rw [hc] at g2; simp at g2; subst g2
        refine ⟨ht.variant he _ rfl rfl (fun v hv => ?_), h0, _, rfl, rfl⟩
        simp only [List.mem_append, List.mem_singleton] at hv
        rcases hv with hv | rfl
        · exact .inl hv
        · right
          obtain ⟨hp, hlt⟩ := ht.cenum e he
          simp only [EnumItem.acceptType] at h1
          split at h1
          · simp at h1
          · rename_i first more hpath
            split at h1
            · rename_i hprim
              simp only [Res.ok.injEq] at h1; subst h1
              simp only [Bool.and_eq_true, List.isEmpty_iff] at hprim
              refine .inl ⟨g3, _, rfl, hprim.2, .inl ?_⟩
              simp [hpath, hprim.1]
            · split at h1
              · simp at h1
              · rename_i r hr
                split at h1
                · simp at h1
                · rename_i n id hl
                  simp only [Res.ok.injEq] at h1; subst h1
                  obtain ⟨w2, id2, k1, _, k2⟩ := leads_resolve hr
                  have k2 : Leads (allGroups s) s s.groupId c.typePath id2 ∨
                      Leads (allGroups s) s 0 c.typePath id2 := by
                    rcases k2 with k2 | k2
                    · exact .inl (k2.mono (Cover.refl (allGroups s)) (fun _ h => h) (fun _ h => h))
                    · exact .inr (k2.mono (Cover.refl (allGroups s)) (fun _ h => h) (fun _ h => h))
                  rw [hl] at k1
                  simp only [Option.some.injEq, Prod.mk.injEq] at k1
                  obtain ⟨rfl, rfl⟩ := k1
                  refine .inr ⟨g4, id, rfl, ?_, ?_⟩
                  · rcases k2 with k2 | k2
                    · exact hlt _ (leads_typeIds k2)
                    · exact hlt _ (leads_typeIds k2)
                  · rw [hp]
                    exact k2
      · rw [he] at g1; simp at g1

theorem setOptional_t {s s2 : Store} (h : s.setOptional = .ok s2)
    (ht : TInv s) (ho : NamedF s) : TInv s2 ∧ NamedF s2 := by
  simp only [Store.setOptional] at h
  split at h
  · rename_i f hf
    simp only [Res.ok.injEq] at h
    subst h
    obtain ⟨h1, g, t, h2, h3, h4⟩ := ho
    rw [hf] at h2; simp at h2; subst h2
    refine ⟨ht.field s.sequence _, h1, _, t, rfl, h3, ?_⟩
    have hx : Ext s { s with cField := some { f with optional := true } } :=
      ⟨Cover.refl _, fun _ h => h, fun _ h => h⟩
    exact FieldTyped.mono (f := f) hx h4
  · simp at h

theorem closeField_t {s s2 : Store} (h : s.closeField = .ok s2)
    (ht : TInv s) (ho : NamedF s) : TInv s2 ∧ Outer s2 := by
  simp only [Store.closeField] at h
  split at h
  · simp at h
  · rename_i t hts
    split at h
    · simp at h
    · rename_i f hf
      split at h
      · simp at h
      · simp only [Res.ok.injEq] at h
        subst h
        obtain ⟨h1, g, t1, h2, h3, h4⟩ := ho
        rw [hf] at h2; simp at h2; subst h2
        rw [hts] at h3; simp at h3; subst h3
        have hx : Ext s { s with
            cStruct := some { t with fields := t.fields ++ [{ f with parent := t.id }] },
            cField := none } := ⟨Cover.refl _, fun _ h => h, fun _ h => h⟩
        refine ⟨ht.ext hx (.inl h1) ?_ ?_ ?_ ?_, rfl, by simp [h1]⟩
        · intro u hu
          simp only [Option.some.injEq] at hu; subst hu
          exact ht.cstruct t hts
        · intro u hu; simp [h1] at hu
        · intro u hu x hxm
          simp only [Option.toList_some, List.mem_append, List.mem_singleton] at hu
          rcases hu with hu | rfl
          · exact .inl ⟨u, by simp [hu], rfl, rfl, hxm⟩
          · simp only [List.mem_append, List.mem_singleton] at hxm
            rcases hxm with hxm | rfl
            · exact .inl ⟨t, by simp [hts], rfl, rfl, hxm⟩
            · exact .inr (FieldTyped.mono (f := f) hx h4)
        · intro e hem v hv
          exact .inl ⟨e, hem, rfl, rfl, hv⟩

theorem close_t {s s2 : Store} (h : s.close = .ok s2) (hi : IdsOk s)
    (ht : TInv s) (ho : Outer s) : TInv s2 ∧ Outer s2 := by
  simp only [Store.close] at h
  split at h
  · rename_i e he
    simp only [Res.ok.injEq] at h
    subst h
    have hcs : s.cStruct = none := by
      rcases ht.one with h | h
      · rw [he] at h; simp at h
      · exact h
    have hx : Ext s { s with enums := s.enums ++ [e], cEnum := none } :=
      ⟨Cover.refl _, fun _ h => by simp [h], fun _ h => h⟩
    refine ⟨ht.ext hx (.inl rfl) ?_ ?_ ?_ ?_, ho.1, by simp⟩
    · intro t h; simp [hcs] at h
    · intro t h; simp at h
    · intro t h f hf
      exact .inl ⟨t, h, rfl, rfl, hf⟩
    · intro x hxm v hv
      exact .inl ⟨x, by simpa [he] using hxm, rfl, rfl, hv⟩
  · rename_i he
    split at h
    · rename_i t hts
      simp only [Res.ok.injEq] at h
      subst h
      have hx : Ext s { s with structs := s.structs ++ [t], cStruct := none } :=
        ⟨Cover.refl _, fun _ h => h, fun _ h => by simp [h]⟩
      refine ⟨ht.ext hx (.inr rfl) ?_ ?_ ?_ ?_, ho.1, by simp [he]⟩
      · intro t h; simp at h
      · intro t h; simp [he] at h
      · intro x hxm v hv
        exact .inl ⟨x, by simpa [hts] using hxm, rfl, rfl, hv⟩
      · intro t h f hf
        exact .inl ⟨t, h, rfl, rfl, hf⟩
    · rename_i hts
      split at h
      · simp at h
      · rename_i g hg
        split at h
        · simp at h
        · have key : ∀ (s2 : Store), s2.structs = s.structs → s2.enums = s.enums →
            s2.cStruct = none → s2.cEnum = none → s2.cField = s.cField →
            Cover (allGroups s) (allGroups s2) → TInv s2 ∧ Outer s2 := by
            intro s2 e1 e2 e3 e4 e5 hc
            have hx : Ext s s2 := ⟨hc, by rw [e2]; exact fun _ h => h, by rw [e1]; exact fun _ h => h⟩
            refine ⟨ht.ext hx (.inl e4) (by simp [e3]) (by simp [e4]) ?_ ?_,
              by rw [e5]; exact ho.1, by simp [e4]⟩
            · intro t h f hf
              rw [e1, e3] at h
              exact .inl ⟨t, by simpa [hts] using h, rfl, rfl, hf⟩
            · intro t h f hf
              rw [e2, e4] at h
              exact .inl ⟨t, by simpa [he] using h, rfl, rfl, hf⟩
          split at h
          · simp only [Res.ok.injEq] at h
            subst h
            refine key _ rfl rfl hts he rfl ?_
            intro x hx
            exact ⟨x, by simpa [allGroups, hg] using hx, rfl, rfl, rfl⟩
          · rename_i top hp
            split at h
            · simp at h
            · rename_i x hx
              simp only [Res.ok.injEq] at h
              subst h
              refine key _ rfl rfl hts he rfl ?_
              intro y hy
              refine ⟨y, ?_, rfl, rfl, rfl⟩
              have hy : y ∈ s.groups ++ [g] := by simpa [allGroups, hg] using hy
              simp only [allGroups, Option.toList_some, List.mem_append, List.mem_singleton]
              by_cases hyx : y.id = top
              · right
                have hc : ((s.groups ++ [g]).map Group.id).count y.id ≤ 1 := by
                  have := count_group s hi y.id
                  simp only [hg, Option.toList_some] at this
                  simpa [List.count_append] using this
                have := find_group hy hc
                rw [hyx, hx] at this
                exact (Option.some.inj this).symm
              · left
                exact (List.mem_eraseP_of_neg (by simpa using hyx)).mpr hy

/-! ### The parser keeps it -/

/-- Expectations outside of a field or variant. -/
def outerE : List (List Expect) :=
  [[.structDef, .groupDef, .enumDef], [.groupName], [.structName], [.enumName], [.entityOpen],
   [.fieldType, .groupDef, .structDef, .enumDef, .enumValue, .entityClose],
   [.fieldType, .groupDef, .structDef, .enumDef, .entityClose],
   [.fieldType, .structDef, .enumDef, .enumValue, .entityClose]]

/-- Expectations between type and name. -/
def typingE : List (List Expect) :=
  [[.fieldName, .fieldRepeatedMark, .pathSpliter], [.fieldName], [.fieldType]]

/-- The invariant of the parser loop. -/
def PInv (p : PState) : Prop :=
  Reach p.store ∧ TInv p.store ∧
  ((p.expect ∈ outerE ∧ Outer p.store) ∨ (p.expect ∈ typingE ∧ Typing p.store) ∨
   (p.expect = [.semicolon] ∧ (NamedV p.store ∨ NamedF p.store)) ∨
   (p.expect = [.semicolon, .fieldOptionalMark] ∧ NamedF p.store))

theorem pinv_init : PInv PState.init := by
  refine ⟨.new, ⟨.inl rfl, ?_, ?_, ?_, ?_⟩, .inl ⟨by simp [PState.init, outerE], rfl, ?_⟩⟩ <;>
    simp [PState.init, Store.new]

theorem pinv_step {p p2 : PState} {t : Tok} (hp : PInv p) (h : onTok p t = .go p2) : PInv p2 := by
  obtain ⟨hr, ht, hph⟩ := hp
  have hi := reach_idsOk hr
  have hr2 : Reach p2.store := by
    rcases onTok_store h with e | e
    · rw [e]; exact hr
    · exact .step hr e
  refine ⟨hr2, ?_⟩
  obtain ⟨e, s, b⟩ := p
  simp only at hr ht hph hi
  -- outer words are shared by all outer expectations
  cases t with
  | word w n =>
    simp only [onTok, onWord] at h
    rcases hph with ⟨he, ho⟩ | ⟨he, ho⟩ | ⟨rfl, ho⟩ | ⟨rfl, ho⟩
    · have go : ∀ e2 : List Expect, e2 ∈ outerE → p2 = ⟨e2, s, b⟩ →
          TInv p2.store ∧ ((p2.expect ∈ outerE ∧ Outer p2.store) ∨
            (p2.expect ∈ typingE ∧ Typing p2.store) ∨
            (p2.expect = [.semicolon] ∧ (NamedV p2.store ∨ NamedF p2.store)) ∨
            (p2.expect = [.semicolon, .fieldOptionalMark] ∧ NamedF p2.store)) := by
        rintro e2 h2 rfl
        exact ⟨ht, .inl ⟨h2, ho⟩⟩
      split at h
      · split at h
        · split at h
          · simp only [Next.go.injEq] at h; exact go _ (by simp [outerE]) h.symm
          · simp at h
        · split at h
          · simp only [Next.go.injEq] at h; exact go _ (by simp [outerE]) h.symm
          · simp at h
        · split at h
          · simp only [Next.go.injEq] at h; exact go _ (by simp [outerE]) h.symm
          · simp at h
        · simp at h
      · split at h
        · obtain ⟨s2, hs, rfl⟩ := after_go h
          obtain ⟨a, b⟩ := openStruct_t hs hi ht ho
          exact ⟨a, .inl ⟨by simp [outerE], b⟩⟩
        · split at h
          · obtain ⟨s2, hs, rfl⟩ := after_go h
            obtain ⟨a, b⟩ := openEnum_t hs hi ht ho
            exact ⟨a, .inl ⟨by simp [outerE], b⟩⟩
          · split at h
            · obtain ⟨s2, hs, rfl⟩ := after_go h
              obtain ⟨a, b⟩ := openGroup_t hs ht ho
              exact ⟨a, .inl ⟨by simp [outerE], b⟩⟩
            · have hnf : e.contains Expect.fieldName = false := by
                simp only [outerE, List.mem_cons, List.not_mem_nil, or_false] at he
                rcases he with rfl | rfl | rfl | rfl | rfl | rfl | rfl | rfl <;> rfl
              rw [if_neg (by rw [hnf]; simp)] at h
              split at h
              · split at h
                · split at h
                  · obtain ⟨s2, hs, rfl⟩ := after_go h
                    obtain ⟨a, b⟩ := setSimple_t hs ht (.inl ho)
                    exact ⟨a, .inr (.inr (.inl ⟨rfl, .inl b⟩))⟩
                  · obtain ⟨s2, hs, rfl⟩ := after_go h
                    obtain ⟨a, b⟩ := setEnumType_t hs ht (.inl ho)
                    exact ⟨a, .inr (.inl ⟨by simp [typingE], b⟩)⟩
                · rename_i hne
                  obtain ⟨s2, hs, rfl⟩ := after_go h
                  obtain ⟨a, b⟩ := setFieldType_t hs ht (by simpa using hne) (.inl ho)
                  exact ⟨a, .inr (.inl ⟨by simp [typingE], b⟩)⟩
              · simp at h
    · simp only [typingE, List.mem_cons, List.not_mem_nil, or_false] at he
      have named : (if s.cEnum.isSome = true then after (s.setEnumName w) [Expect.semicolon] b
          else after (s.setFieldName w) [Expect.semicolon, Expect.fieldOptionalMark] b) = .go p2 →
          TInv p2.store ∧ ((p2.expect ∈ outerE ∧ Outer p2.store) ∨
            (p2.expect ∈ typingE ∧ Typing p2.store) ∨
            (p2.expect = [.semicolon] ∧ (NamedV p2.store ∨ NamedF p2.store)) ∨
            (p2.expect = [.semicolon, .fieldOptionalMark] ∧ NamedF p2.store)) := by
        intro h
        split at h
        · obtain ⟨s2, hs, rfl⟩ := after_go h
          obtain ⟨a, b⟩ := setEnumName_t hs ht ho
          exact ⟨a, .inr (.inr (.inl ⟨rfl, .inl b⟩))⟩
        · rename_i hne
          obtain ⟨s2, hs, rfl⟩ := after_go h
          obtain ⟨a, b⟩ := setFieldName_t hs ht (by simpa using hne) ho
          exact ⟨a, .inr (.inr (.inr ⟨rfl, b⟩))⟩
      rcases he with rfl | rfl | rfl
      · exact named (by simpa using h)
      · exact named (by simpa using h)
      · have h : (if s.cEnum.isSome = true then
            if n = some ';' then after (s.setSimple w) [.semicolon] b
            else after (s.setEnumType w) [.fieldName, .fieldRepeatedMark, .pathSpliter] b
          else after (s.setFieldType w) [.fieldName, .fieldRepeatedMark, .pathSpliter] b)
            = .go p2 := by simpa using h
        split at h
        · split at h
          · obtain ⟨s2, hs, rfl⟩ := after_go h
            obtain ⟨a, b⟩ := setSimple_t hs ht (.inr ho)
            exact ⟨a, .inr (.inr (.inl ⟨rfl, .inl b⟩))⟩
          · obtain ⟨s2, hs, rfl⟩ := after_go h
            obtain ⟨a, b⟩ := setEnumType_t hs ht (.inr ho)
            exact ⟨a, .inr (.inl ⟨by simp [typingE], b⟩)⟩
        · rename_i hne
          obtain ⟨s2, hs, rfl⟩ := after_go h
          obtain ⟨a, b⟩ := setFieldType_t hs ht (by simpa using hne) (.inr ho)
          exact ⟨a, .inr (.inl ⟨by simp [typingE], b⟩)⟩
    · simp at h
    · simp at h
  | openStruct =>
    simp only [onTok] at h
    split at h
    · rename_i hc
      obtain ⟨s2, hs, rfl⟩ := after_go h
      simp only [Store.openBody] at hs
      split at hs <;> simp at hs
      subst hs
      refine ⟨ht, .inl ⟨by simp [outerE], ?_⟩⟩
      rcases hph with ⟨he, ho⟩ | ⟨he, ho⟩ | ⟨rfl, ho⟩ | ⟨rfl, ho⟩
      · exact ho
      · simp only [typingE, List.mem_cons, List.not_mem_nil, or_false] at he
        rcases he with rfl | rfl | rfl <;> simp at hc
      · simp at hc
      · simp at hc
    · simp at h
  | closeStruct =>
    simp only [onTok] at h
    split at h
    · rename_i hc
      obtain ⟨s2, hs, rfl⟩ := after_go h
      have ho : Outer s := by
        rcases hph with ⟨he, ho⟩ | ⟨he, ho⟩ | ⟨rfl, ho⟩ | ⟨rfl, ho⟩
        · exact ho
        · simp only [typingE, List.mem_cons, List.not_mem_nil, or_false] at he
          rcases he with rfl | rfl | rfl <;> simp at hc
        · simp at hc
        · simp at hc
      obtain ⟨a, b⟩ := close_t hs hi ht ho
      exact ⟨a, .inl ⟨by simp [outerE], b⟩⟩
    · simp at h
  | semicolon =>
    simp only [onTok] at h
    split at h
    · rename_i hc
      obtain ⟨s2, hs, rfl⟩ := after_go h
      have ho : NamedV s ∨ NamedF s := by
        rcases hph with ⟨he, ho⟩ | ⟨he, ho⟩ | ⟨rfl, ho⟩ | ⟨rfl, ho⟩
        · simp only [outerE, List.mem_cons, List.not_mem_nil, or_false] at he
          rcases he with rfl | rfl | rfl | rfl | rfl | rfl | rfl | rfl <;> simp at hc
        · simp only [typingE, List.mem_cons, List.not_mem_nil, or_false] at he
          rcases he with rfl | rfl | rfl <;> simp at hc
        · exact ho
        · exact .inr ho
      rcases ho with ⟨h0, e1, h1, h2⟩ | ho
      · rw [if_pos (by simp [h1])] at hs
        simp only [Res.ok.injEq] at hs
        subst hs
        refine ⟨ht, .inl ⟨by simp [outerE], h0, ?_⟩⟩
        intro e2 he2
        rw [h1] at he2; simp at he2; subst he2; exact h2
      · rw [if_neg (by simp [ho.1])] at hs
        obtain ⟨a, b⟩ := closeField_t hs ht ho
        exact ⟨a, .inl ⟨by simp [outerE], b⟩⟩
    · simp at h
  | repeated =>
    simp only [onTok] at h
    split at h
    · rename_i hc
      obtain ⟨s2, hs, rfl⟩ := after_go h
      have ho : Typing s := by
        rcases hph with ⟨he, ho⟩ | ⟨he, ho⟩ | ⟨rfl, ho⟩ | ⟨rfl, ho⟩
        · simp only [outerE, List.mem_cons, List.not_mem_nil, or_false] at he
          rcases he with rfl | rfl | rfl | rfl | rfl | rfl | rfl | rfl <;> simp at hc
        · exact ho
        · simp at hc
        · simp at hc
      obtain ⟨a, b⟩ := setRepeated_t hs ht ho
      exact ⟨a, .inr (.inl ⟨by simp [typingE], b⟩)⟩
    · simp at h
  | optional =>
    simp only [onTok] at h
    split at h
    · rename_i hc
      obtain ⟨s2, hs, rfl⟩ := after_go h
      have ho : NamedF s := by
        rcases hph with ⟨he, ho⟩ | ⟨he, ho⟩ | ⟨rfl, ho⟩ | ⟨rfl, ho⟩
        · simp only [outerE, List.mem_cons, List.not_mem_nil, or_false] at he
          rcases he with rfl | rfl | rfl | rfl | rfl | rfl | rfl | rfl <;> simp at hc
        · simp only [typingE, List.mem_cons, List.not_mem_nil, or_false] at he
          rcases he with rfl | rfl | rfl <;> simp at hc
        · simp at hc
        · exact ho
      obtain ⟨a, b⟩ := setOptional_t hs ht ho
      exact ⟨a, .inr (.inr (.inl ⟨rfl, .inr b⟩))⟩
    · simp at h
  | pathSpliter =>
    simp only [onTok] at h
    split at h
    · rename_i hc
      simp only [Next.go.injEq] at h; subst h
      have ho : Typing s := by
        rcases hph with ⟨he, ho⟩ | ⟨he, ho⟩ | ⟨rfl, ho⟩ | ⟨rfl, ho⟩
        · simp only [outerE, List.mem_cons, List.not_mem_nil, or_false] at he
          rcases he with rfl | rfl | rfl | rfl | rfl | rfl | rfl | rfl <;> simp at hc
        · exact ho
        · simp at hc
        · simp at hc
      exact ⟨ht, .inr (.inl ⟨by simp [typingE], ho⟩)⟩
    · simp at h
  | eof => simp [onTok] at h

theorem loop_pinv : ∀ (n : Nat) (p : PState) (c : List Char) (o : Outcome),
    loop n p c = some o → PInv p → ∃ (q : PState) (d : List Char), PInv q ∧ step q d = .halt o
  | 0, _, _, _, h, _ => by simp [loop] at h
  | n + 1, p, c, o, h, hp => by
    simp only [loop] at h
    split at h
    · rename_i p2 c2 hs
      refine loop_pinv n p2 c2 o h ?_
      unfold step at hs
      split at hs
      · simp at hs
      · split at hs
        · rename_i p3 ht
          simp only [Next.go.injEq, Prod.mk.injEq] at hs
          obtain ⟨rfl, rfl⟩ := hs
          exact pinv_step hp ht
        · simp at hs
    · rename_i o2 hs
      simp only [Option.some.injEq] at h
      subst h
      exact ⟨p, c, hp, hs⟩

theorem accepted_tinv {text : List Char} {s : Store} (h : Parses text (.accepted s)) : TInv s := by
  obtain ⟨n, hn⟩ := h
  obtain ⟨q, d, hp, hs⟩ := loop_pinv n _ _ _ hn pinv_init
  rw [← (step_accepted hs).1]
  exact hp.2.1

end Verif.Prot
