import Verif.Proofs.ProtocolService
import Verif.Proofs.ProtocolItems
set_option autoImplicit false
/-!
Property theorems about the protocol parser and store: C20, C22, C24, C25, C61–C65 and C67.
-/
namespace Verif.Props

open Verif Verif.Prot Verif.Prot.Syntax

/-- A text for witnesses. -/
def demoText : List Char :=
  "enum E { A; str B; }\ngroup G {\n struct S { u8[] a; E b?; }\n}\nstruct T { G.S s; }".toList

/-- What the parser makes of it. -/
def demoStore : Store where
  sequence := 7
  structs := [
    ⟨3, 2, ['S'],
      [⟨4, 3, ['a'], ['u', '8'], none, [], true, false, [['u', '8']]⟩,
       ⟨5, 3, ['b'], ['E'], some 1, [], false, true, [['E']]⟩], [['G']]⟩,
    ⟨6, 0, ['T'], [⟨7, 6, ['s'], ['S'], some 3, [2], false, false, [['G'], ['S']]⟩], []⟩]
  enums := [⟨1, 0, ['E'],
    [⟨['A'], some ['s', 't', 'r'], none, [], false, []⟩,
     ⟨['B'], some ['s', 't', 'r'], none, [], false, [['s', 't', 'r']]⟩], [], none⟩]
  groups := [⟨2, 0, ['G'], [3], [], []⟩]
  cStruct := none
  cGroup := none
  cEnum := none
  cField := none
  path := []

set_option maxRecDepth 20000 in
theorem demo_parses : Parses demoText (.accepted demoStore) := ⟨300, by rfl⟩

/-! ### C20 -/

/-- **C20** In a protocol accepted by the parser no two declarations share an id, and no id is 0
(the id of the root). -/
theorem C20_ids_unique {text : List Char} {s : Store} (h : Parses text (.accepted s)) :
    (declaredIds s).Nodup ∧ 0 ∉ declaredIds s := by
  obtain ⟨h1, h2⟩ := idsOk_declared (reach_idsOk (accepted_reach h))
  exact ⟨h1, fun h0 => by have := (h2 0 h0).1; omega⟩

example : declaredIds demoStore = [3, 6, 4, 5, 7, 1, 2] := rfl

/-- **C20** The structs added by the workflow (`add_service_struct`), any number of them with any
fields, do not break this, whether or not the protocol has a group of that name. -/
theorem C20_ids_unique_with_services {text : List Char} {s : Store}
    (h : Parses text (.accepted s)) (extra : List (Name × List Field)) :
    (declaredIds (extra.foldl (fun s e => s.addService e.1 e.2) s)).Nodup := by
  have : ∀ (extra : List (Name × List Field)) (s : Store), IdsOk s →
      IdsOk (extra.foldl (fun s e => s.addService e.1 e.2) s) := by
    intro extra
    induction extra with
    | nil => intro s h; exact h
    | cons e extra ih => intro s h; exact ih _ (idsOk_addService h e.1 e.2)
  exact (idsOk_declared (this extra s (reach_idsOk (accepted_reach h)))).1

example : declaredIds (demoStore.addService ['H'] [⟨0, 0, ['p'], ['s', 't', 'r'], none, [], false,
    false, [['s', 't', 'r']]⟩]) = [3, 6, 9, 4, 5, 7, 10, 1, 2, 8] := by decide

/-! ### C22 -/

/-- **C22** Parsing any text ends, with exactly one outcome, and never with a panic. -/
theorem C22_parser_terminates (text : List Char) :
    (∃ o, Parses text o) ∧ (∀ o o2, Parses text o → Parses text o2 → o = o2) ∧
    ¬ Parses text .panicked := by
  refine ⟨?_, fun o o2 h h2 => parses_unique h h2, never_panics⟩
  obtain ⟨o, ho⟩ := loop_ends (3 * text.length + rank PState.init.expect + 1) PState.init text
    (by omega)
  exact ⟨o, _, ho⟩

set_option maxRecDepth 20000 in
example : Parses "struct A { u8 a; } é".toList .rejected ∧ Parses "struct A { B b; }".toList .stopped :=
  ⟨⟨100, by rfl⟩, ⟨100, by rfl⟩⟩

/-! ### C24 -/

/-- **C24** (soundness) What a lookup finds is a declared type with that name at the end of that
chain of groups. -/
theorem C24_lookup_sound_partial (s : Store) (parent : Nat) (path : List Name)
    (r : List (Name × Nat)) (h : s.findByPath parent path = some r) :
    r.map Prod.fst = path ∧ ∃ w id, r.getLast? = some (w, id) ∧
      Leads s.groups s parent path id := by
  obtain ⟨w, id, h1, _, h3, h4⟩ := findByPath_sound s parent path r h
  exact ⟨h4, w, id, h1, h3⟩

example : demoStore.findByPath 0 [['G'], ['S']] = some [(['G'], 2), (['S'], 3)] := by decide

/-- **C24** (completeness, where it holds) With distinct names of groups inside each group, a
lookup finds a type exactly when the path leads to one. The full statement has no condition on the
names; see `C24_lookup_violated`. -/
theorem C24_lookup_exact_partial (s : Store) (hu : GroupNamesUnique s) (parent : Nat)
    (path : List Name) :
    (s.findByPath parent path).isSome = true ↔ ∃ id, Leads s.groups s parent path id := by
  constructor
  · intro h
    obtain ⟨r, hr⟩ := Option.isSome_iff_exists.mp h
    obtain ⟨w, id, _, _, h3, _⟩ := findByPath_sound s parent path r hr
    exact ⟨id, h3⟩
  · rintro ⟨id, h⟩
    obtain ⟨r, hr⟩ := findByPath_complete s hu h
    simp [hr]

example : GroupNamesUnique demoStore := by
  intro g hg h hh _ _
  simp only [demoStore, List.mem_singleton] at hg hh
  rw [hg, hh]

/-- **C24** The lookup of structs by path (`get_struct_by_str_path`) behaves in the same way, with
enums left out. -/
theorem C24_struct_lookup_partial (s : Store) (hu : GroupNamesUnique s) :
    ∀ (path : List Name) (parent : Nat),
    (∀ t, s.structByPath parent path = some t →
      t ∈ s.structs ∧ Leads s.groups { s with enums := [] } parent path t.id) ∧
    ((s.structByPath parent path).isSome = true ↔
      ∃ id, Leads s.groups { s with enums := [] } parent path id)
  | [], parent => by
    refine ⟨by simp [Store.structByPath], ?_⟩
    simp only [Store.structByPath, Option.isSome_none, Bool.false_eq_true, false_iff]
    rintro ⟨id, h⟩
    cases h
  | [w], parent => by
    simp only [Store.structByPath]
    have hs : ∀ t, s.structs.find? (fun i => i.name == w && i.parent == parent) = some t →
        t ∈ s.structs ∧ Leads s.groups { s with enums := [] } parent [w] t.id := by
      intro t ht
      have h1 := List.mem_of_find?_eq_some ht
      have h2 := List.find?_some ht
      simp only [Bool.and_eq_true, beq_iff_eq] at h2
      exact ⟨h1, .here (.inr ⟨t, h1, rfl, h2.1, h2.2⟩)⟩
    refine ⟨hs, ?_, ?_⟩
    · intro h
      obtain ⟨t, ht⟩ := Option.isSome_iff_exists.mp h
      exact ⟨t.id, (hs t ht).2⟩
    · rintro ⟨id, h⟩
      cases h with
      | here ht =>
        rcases ht with ⟨e, h1, _⟩ | ⟨t, h1, _, h3, h4⟩
        · simp at h1
        · rw [List.find?_isSome]
          exact ⟨t, h1, by simp [h3, h4]⟩
      | into _ _ _ hl => cases hl
  | w :: w2 :: rest, parent => by
    simp only [Store.structByPath]
    split
    · rename_i g hg
      have h1 := List.mem_of_find?_eq_some hg
      have h2 := List.find?_some hg
      simp only [Bool.and_eq_true, beq_iff_eq] at h2
      obtain ⟨i1, i2⟩ := C24_struct_lookup_partial s hu (w2 :: rest) g.id
      refine ⟨fun t ht => ⟨(i1 t ht).1, .into h1 h2.1 h2.2 (i1 t ht).2⟩, ?_⟩
      rw [i2]
      constructor
      · rintro ⟨id, h⟩
        exact ⟨id, .into h1 h2.1 h2.2 h⟩
      · rintro ⟨id, h⟩
        cases h with
        | @into _ _ _ _ g2 a b c d =>
          have : g2 = g := hu g2 a g h1 (by rw [b, h2.1]) (by rw [c, h2.2])
          subst this
          exact ⟨id, d⟩
    · rename_i hno
      refine ⟨by simp, ?_⟩
      simp only [Option.isSome_none, Bool.false_eq_true, false_iff]
      rintro ⟨id, h⟩
      cases h with
      | @into _ _ _ _ g2 a b c d =>
        rw [List.find?_eq_none] at hno
        exact absurd (by simp [b, c]) (hno g2 a)

example : (demoStore.structByPath 0 [['G'], ['S']]).map Struct.id = some 3 := by decide

/-- A group opened twice; the second part is not seen by lookups. -/
def reopenedText : List Char :=
  "group A { struct X { u8 a; } } group A { struct Y { u8 a; } }".toList

/-- What the parser makes of it. -/
def reopenedStore : Store where
  sequence := 6
  structs := [
    ⟨2, 1, ['X'], [⟨3, 2, ['a'], ['u', '8'], none, [], false, false, [['u', '8']]⟩], [['A']]⟩,
    ⟨5, 4, ['Y'], [⟨6, 5, ['a'], ['u', '8'], none, [], false, false, [['u', '8']]⟩], [['A']]⟩]
  enums := []
  groups := [⟨1, 0, ['A'], [2], [], []⟩, ⟨4, 0, ['A'], [5], [], []⟩]
  cStruct := none
  cGroup := none
  cEnum := none
  cField := none
  path := []

set_option maxRecDepth 20000 in
/-- **C24** does not hold as stated: in an accepted protocol `A.Y` is declared, and not found. -/
theorem C24_lookup_violated : ∃ (text : List Char) (s : Store) (path : List Name) (id : Nat),
    Parses text (.accepted s) ∧ Leads s.groups s 0 path id ∧ s.findByPath 0 path = none :=
  ⟨reopenedText, reopenedStore, [['A'], ['Y']], 5, ⟨300, by rfl⟩,
    .into (g := ⟨4, 0, ['A'], [5], [], []⟩) (by simp [reopenedStore]) rfl rfl
      (.here (.inr ⟨_, List.mem_cons_of_mem _ List.mem_cons_self, rfl, rfl, rfl⟩)),
    by decide⟩

/-! ### C25 -/

/-- **C25** In an accepted protocol the field names of every struct are distinct. -/
theorem C25_field_names_unique {text : List Char} {s : Store} (h : Parses text (.accepted s)) :
    ∀ t ∈ s.structs, (t.fields.map Field.name).Nodup :=
  fun t ht => reach_namesOk (accepted_reach h) t (by simp [ht])

example : ∃ t ∈ demoStore.structs, t.fields.length = 2 := ⟨_, List.mem_cons_self, rfl⟩

set_option maxRecDepth 20000 in
example : Parses "struct A { u8 a; u16 a; }".toList .stopped := ⟨100, by rfl⟩

/-! ### C61 -/

set_option maxRecDepth 20000 in
/-- **C61** does not hold: a text that ends inside a declaration is accepted, and the declaration
is not in the result. -/
theorem C61_unfinished_declaration_violated : ∃ (text : List Char) (s : Store),
    Parses text (.accepted s) ∧ LeftOpen s ∧ s.structs = [] :=
  ⟨"struct A { u8 a; ".toList,
    { Store.new with
      sequence := 2
      cStruct := some ⟨1, 0, ['A'],
        [⟨2, 1, ['a'], ['u', '8'], none, [], false, false, [['u', '8']]⟩], []⟩ },
    ⟨100, by rfl⟩, .inl (by simp), rfl⟩

/-! ### C62 -/

set_option maxRecDepth 20000 in
/-- **C62** does not hold: a full path to a type completed before is refused inside the innermost
group of that path. The same reference after the group is accepted. -/
theorem C62_full_path_violated :
    Parses "group G { struct A { u8 a; } struct B { G.A x; } }".toList .stopped ∧
    ∃ s, Parses "group G { struct A { u8 a; } } struct B { G.A x; }".toList (.accepted s) :=
  ⟨⟨200, by rfl⟩, _, ⟨200, by rfl⟩⟩

/-- **C62** What holds: in a store with distinct names of groups, a path that leads from the own
group or from the root through recorded groups to a completed type is resolved. Recorded are all
groups but the innermost open one. The full statement counts that one too. -/
theorem C62_full_path_partial (s : Store) (hu : GroupNamesUnique s) (own : Nat) (path : List Name)
    (id : Nat) (h : Leads s.groups s own path id ∨ Leads s.groups s 0 path id) :
    ∃ r, s.resolve own path = some r := by
  unfold Store.resolve
  rcases h with h | h
  · obtain ⟨r, hr⟩ := findByPath_complete s hu h
    exact ⟨r, by rw [hr]⟩
  · obtain ⟨r, hr⟩ := findByPath_complete s hu h
    split
    · exact ⟨_, rfl⟩
    · exact ⟨r, hr⟩

example : Leads demoStore.groups demoStore 0 [['G'], ['S']] 3 :=
  .into (g := ⟨2, 0, ['G'], [3], [], []⟩) (by simp [demoStore]) rfl rfl
    (.here (.inr ⟨_, List.mem_cons_self, rfl, rfl, rfl⟩))

/-! ### C63 -/

/-- **C63** The parser on any declarations, written with any white space: it accepts and the result
says exactly what was declared, or it stops. It stops for well formed declarations never, and for
others always, if no group is declared twice (see `C24_lookup_violated` for such groups). It never
reports a syntax error. -/
theorem C63_parser_exact (its : Items) (hn : Named its) (text : List Char)
    (h : Spelled (itemsSyms its) text) :
    (∃ s, Parses text (.accepted s) ∧ ¬ LeftOpen s ∧
      s.structs.map structView = structsOf [] its ∧
      s.enums.map enumView = enumsOf [] its ∧
      s.groups.length = (groupsOf [] its).length ∧
      (∀ x, x ∈ groupsOf [] its ↔ ∃ g ∈ s.groups, GroupPath s.groups g.id x) ∧
      FieldNamesDistinct its ∧ ((groupsOf [] its).Nodup → Fine [] [] its)) ∨
    (Parses text .stopped ∧ ((groupsOf [] its).Nodup → ¬ Fine [] [] its)) := by
  rcases items_sim its Store.new [] [] [] _ [] text hn abs_new (.inl rfl)
    (by rw [List.append_nil]; exact h) with ⟨h1, h2⟩ | ⟨s, rest, e, _, h1, g, af⟩
  · exact .inr ⟨h1, fun hnd => h2 inj_new (by simpa using hnd)⟩
  · left
    have hp : Parses text (.accepted s) := g.2 _ ⟨1, by simp [loop, step_end h1]⟩
    have hcg : s.cGroup = none := by
      have := (reach_ginv af.abs.reach).top
      rw [af.path] at this
      cases hx : s.cGroup with
      | none => rfl
      | some c => rw [hx] at this; simp [Store.new] at this
    have hall : allGroups s = s.groups := by simp [allGroups, hcg]
    refine ⟨s, hp, ?_, ?_, ?_, ?_, ?_, af.names, fun hnd => (af.fine inj_new (by simpa using hnd)).1⟩
    · simp [LeftOpen, af.abs.cs, af.abs.ce, af.abs.cf, hcg]
    · simpa [Store.new] using af.structs
    · simpa [Store.new] using af.enums
    · rw [← hall]; simpa using af.abs.len
    · rw [← hall]; simpa using af.abs.groups

/-- **C63** So, without groups declared twice, accepted is exactly what is well formed. -/
theorem C63_accepted_iff_fine (its : Items) (hn : Named its) (text : List Char)
    (h : Spelled (itemsSyms its) text) (hg : (groupsOf [] its).Nodup) :
    (∃ s, Parses text (.accepted s)) ↔ Fine [] [] its := by
  rcases C63_parser_exact its hn text h with ⟨s, h1, _, _, _, _, _, _, h2⟩ | ⟨h1, h2⟩
  · exact ⟨fun _ => h2 hg, fun _ => ⟨s, h1⟩⟩
  · refine ⟨?_, fun hf => absurd hf (h2 hg)⟩
    rintro ⟨s, hs⟩
    exact absurd (parses_unique hs h1) (by simp)

/-- Declarations for witnesses. -/
def demoItems : Items :=
  .enum ['E'] [.simple ['A'], .typed [['s', 't', 'r']] false ['B']]
    (.group ['G']
      (.struct ['S'] [⟨[['u', '8']], true, ['a'], false⟩, ⟨[['E']], false, ['b'], true⟩] .nil)
      (.struct ['T'] [⟨[['G'], ['S']], false, ['s'], false⟩] .nil))

theorem demo_named : Named demoItems := by
  simp [demoItems, Named, VariantD.Named, Syntax.TypeName]

theorem demo_fine : Fine [] [] demoItems := by
  simp [demoItems, Fine, VariantD.TypeFine, TypeOk, FieldsFine, Resolves, typesOf, isPrimitive]

theorem ident_of {w : Name} (c : Char) (cs : Name) (hw : w = c :: cs) (h1 : isDigit c = false)
    (h2 : w.all (fun d => isAlnum d || d == '_') = true) : Ident w := by
  refine ⟨c, cs, hw, h1, ?_⟩
  intro d hd
  have := List.all_eq_true.mp h2 d hd
  simpa [IdChar] using this

example : Spelled (itemsSyms demoItems) (spell (itemsSyms demoItems)) := by
  refine spell_spelled _ ?_
  intro t ht
  simp only [demoItems, itemsSyms, variantSyms, fieldSyms, typeSyms, repSyms, optSyms,
    List.flatMap_cons, List.flatMap_nil, List.cons_append, List.nil_append, List.append_nil,
    List.mem_cons, List.not_mem_nil, or_false, if_true, if_false, Bool.false_eq_true] at ht
  rcases ht with rfl | rfl | rfl | rfl | rfl | rfl | rfl | rfl | rfl | rfl | rfl | rfl | rfl | rfl |
    rfl | rfl | rfl | rfl | rfl | rfl | rfl | rfl | rfl | rfl | rfl | rfl | rfl | rfl | rfl | rfl |
    rfl | rfl | rfl <;> first
    | trivial
    | exact ident_of _ _ rfl (by decide) (by decide)

/-- **C25** A text in which a struct has two fields of one name stops the tool. -/
theorem C25_duplicate_field_refused (its : Items) (hn : Named its) (text : List Char)
    (h : Spelled (itemsSyms its) text) (hd : ¬ FieldNamesDistinct its) : Parses text .stopped := by
  rcases C63_parser_exact its hn text h with ⟨s, _, _, _, _, _, _, h1, _⟩ | ⟨h1, _⟩
  · exact absurd h1 hd
  · exact h1

example : ¬ FieldNamesDistinct (.struct ['S']
    [⟨[['u', '8']], false, ['a'], false⟩, ⟨[['i', '8']], false, ['a'], true⟩] .nil) := by
  simp [FieldNamesDistinct]

/-- **C61** What holds: if the text consists of whole declarations and is accepted, no declaration
is left open and all of them are in the result (`C63_parser_exact`). The full statement is about
all texts. -/
theorem C61_unfinished_declaration_partial (its : Items) (hn : Named its) (text : List Char)
    (h : Spelled (itemsSyms its) text) (s : Store) (hs : Parses text (.accepted s)) :
    ¬ LeftOpen s ∧ s.structs.map structView = structsOf [] its ∧
      s.enums.map enumView = enumsOf [] its := by
  rcases C63_parser_exact its hn text h with ⟨s2, h1, h2, h3, h4, _⟩ | ⟨h1, _⟩
  · have := parses_unique hs h1
    simp only [Outcome.accepted.injEq] at this
    subst this
    exact ⟨h2, h3, h4⟩
  · exact absurd (parses_unique hs h1) (by simp)

/-! ### C64 -/

/-- **C64** The path kept with a struct or enum of a finished protocol (generated code uses it to
name the type) is the list of names of its enclosing groups, outermost first. -/
theorem C64_recorded_paths {text : List Char} {s : Store} (h : Parses text (.accepted s))
    (hc : ¬ LeftOpen s) :
    (∀ t ∈ s.structs, GroupPath s.groups t.parent t.path) ∧
    (∀ e ∈ s.enums, GroupPath s.groups e.parent e.path) := by
  have hg := reach_ginv (accepted_reach h)
  have hn : s.cGroup = none := by
    cases hcg : s.cGroup with
    | none => rfl
    | some g => exact absurd (.inr (.inr (.inl (by simp [hcg])))) hc
  have ha : allGroups s = s.groups := by simp [allGroups, hn]
  exact ⟨fun t ht => ha ▸ hg.struct t (by simp [ht]), fun t ht => ha ▸ hg.enum t (by simp [ht])⟩

example : ¬ LeftOpen demoStore := by simp [LeftOpen, demoStore]

/-! ### C65 -/

/-- **C65** In a finished protocol every field and every variant has a primitive type, or refers to
a struct or enum declared earlier, found by its path from the own group or from the root. As
references lead to smaller ids, no type contains itself. -/
theorem C65_types_defined {text : List Char} {s : Store} (h : Parses text (.accepted s))
    (hc : ¬ LeftOpen s) :
    (∀ t ∈ s.structs, ∀ f ∈ t.fields, FieldTyped s.groups s t.id t.parent f) ∧
    (∀ e ∈ s.enums, ∀ v ∈ e.variants, ItemTyped s.groups s e.id e.parent v) := by
  have ht := accepted_tinv h
  have hn : s.cGroup = none := by
    cases hcg : s.cGroup with
    | none => rfl
    | some g => exact absurd (.inr (.inr (.inl (by simp [hcg])))) hc
  have ha : allGroups s = s.groups := by simp [allGroups, hn]
  exact ⟨fun t hm f hf => ha ▸ ht.fields t (by simp [hm]) f hf,
    fun t hm f hf => ha ▸ ht.items t (by simp [hm]) f hf⟩

example : ∃ t ∈ demoStore.structs, ∃ f ∈ t.fields, f.refTypeId = some 3 :=
  ⟨_, List.mem_cons_of_mem _ List.mem_cons_self, _, List.mem_cons_self, rfl⟩

/-! ### C67 -/

/-- **C67** What holds: field names are distinct, and two structs (or a struct and an enum, or two
enums) of one name have different ids. The full statement asks for different names of the types of
a group, and of the variants of an enum. -/
theorem C67_sibling_names_partial {text : List Char} {s : Store} (h : Parses text (.accepted s)) :
    (∀ t ∈ s.structs, (t.fields.map Field.name).Nodup) ∧
    (s.structs.map Struct.id ++ s.enums.map Enum.id).Nodup := by
  refine ⟨C25_field_names_unique h, (C20_ids_unique h).1.sublist ?_⟩
  simp only [declaredIds, List.append_assoc]
  refine (List.Sublist.refl _).append ?_
  exact (List.sublist_append_left (s.enums.map Enum.id) _).trans (List.sublist_append_right _ _)

example : (demoStore.structs.map Struct.id ++ demoStore.enums.map Enum.id) = [3, 6, 1] := rfl

set_option maxRecDepth 20000 in
/-- **C67** does not hold: two structs of one name in one group are accepted, and two variants of
one name in one enum. -/
theorem C67_sibling_names_violated :
    (∃ s, Parses "struct A { u8 a; } struct A { u8 b; }".toList (.accepted s) ∧
      s.structs.map (fun t => (t.parent, t.name)) = [(0, ['A']), (0, ['A'])]) ∧
    (∃ s, Parses "enum E { u8 A; u16 A; }".toList (.accepted s) ∧
      s.enums.map (fun e => e.variants.map EnumItem.name) = [[['A'], ['A']]]) := by
  constructor
  · exact ⟨_, ⟨100, by rfl⟩, rfl⟩
  · exact ⟨_, ⟨100, by rfl⟩, rfl⟩

end Verif.Props
