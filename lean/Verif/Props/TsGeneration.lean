import Verif.Props.Generation
import Verif.Proofs.TsRender
import Verif.Proofs.TsCheck
set_option autoImplicit false
/-!
Property theorems about the TypeScript code generated for an accepted protocol: C136–C139.
-/
namespace Verif.Props

open Verif Verif.Prot Verif.Spec Verif.Rust

/-! ### Witnesses -/

/-- A text that both generators support. -/
def tsText : List Char :=
  "struct A { u8 a; } enum E { A X; str Y; } group G { struct B { A[] x; E e; } struct C { B z?; }
   group H { enum F { G.B P; u16[] Q; } struct D { F f; A g?; str[] h; } } }
   group K { struct L { G.C c; } }".toList

/-- What the parser makes of it. -/
def tsStore : Store where
  sequence := 18
  structs := [
    ⟨1, 0, ['A'], [⟨2, 1, ['a'], ['u', '8'], none, [], false, false, [['u', '8']]⟩], []⟩,
    ⟨5, 4, ['B'],
      [⟨6, 5, ['x'], ['A'], some 1, [], true, false, [['A']]⟩,
       ⟨7, 5, ['e'], ['E'], some 3, [], false, false, [['E']]⟩], [['G']]⟩,
    ⟨8, 4, ['C'], [⟨9, 8, ['z'], ['B'], some 5, [], false, true, [['B']]⟩], [['G']]⟩,
    ⟨12, 10, ['D'],
      [⟨13, 12, ['f'], ['F'], some 11, [], false, false, [['F']]⟩,
       ⟨14, 12, ['g'], ['A'], some 1, [], false, true, [['A']]⟩,
       ⟨15, 12, ['h'], ['s', 't', 'r'], none, [], true, false, [['s', 't', 'r']]⟩], [['G'], ['H']]⟩,
    ⟨17, 16, ['L'], [⟨18, 17, ['c'], ['C'], some 8, [4], false, false, [['G'], ['C']]⟩], [['K']]⟩]
  enums := [
    ⟨3, 0, ['E'],
      [⟨['X'], none, some 1, [], false, [['A']]⟩,
       ⟨['Y'], some ['s', 't', 'r'], none, [], false, [['s', 't', 'r']]⟩], [], none⟩,
    ⟨11, 10, ['F'],
      [⟨['P'], none, some 5, [4], false, [['G'], ['B']]⟩,
       ⟨['Q'], some ['u', '1', '6'], none, [], true, [['u', '1', '6']]⟩], [['G'], ['H']], none⟩]
  groups := [⟨10, 4, ['H'], [12], [11], []⟩, ⟨4, 0, ['G'], [5, 8], [], [10]⟩,
    ⟨16, 0, ['K'], [17], [], []⟩]
  cStruct := none
  cGroup := none
  cEnum := none
  cField := none
  path := []

set_option maxRecDepth 20000 in
theorem tsText_parses : Parses tsText (.accepted tsStore) := ⟨600, by rfl⟩

theorem tsStore_closed : ¬ LeftOpen tsStore := by simp [LeftOpen, tsStore]

theorem tsStore_ok : Supported tsStore := by
  refine ⟨?_, ?_, ?_, ?_, ?_⟩ <;> simp [tsStore, isPrimitive]

theorem tsStore_ts : TsSupported tsStore := by
  refine ⟨?_, ?_⟩ <;> simp [tsStore]

theorem tsStore_visible : TsVisible tsStore :=
  visible_of (n := 20) (by decide +kernel) (by decide +kernel)

theorem tsStore_options : OptionsVisible tsStore := options_of (n := 20) (by decide +kernel)

theorem tsStore_shallow : ∀ t ∈ tsStore.structs, ∀ u ∈ tsStore.structs,
    Needs tsStore t u → ¬ DeeperThan tsStore t u :=
  shallow_of (n := 20) (by decide +kernel) (by decide +kernel)

/-! ### C136 -/

theorem tsGood_services {text : List Char} {s : Store} (h : Parses text (.accepted s))
    (hc : ¬ LeftOpen s) (extra : List (Name × List Field)) (hx : ServicesOk extra)
    (hs : Supported (withServices s extra)) (ht : TsSupported (withServices s extra)) :
    TsGood s.sequence (withServices s extra) :=
  ⟨treeOk_services extra (treeOk_accepted h hc) (fun e he f hf => (hx e he f hf).1),
    wellTyped_services h extra hx, hs, ht⟩

/-- **C136** Both generators make code of the same protocol: for every accepted and finished
protocol, with any service structs added, that uses only what both generators support and whose
references can be written as the TypeScript generator writes them, both generators succeed, and the
arms and classes in the TypeScript file, with every printed name looked up as TypeScript does, are
those of the protocol in the Rust code, which is the declared one.
The full statement has neither `TsSupported` nor `TsVisible`. -/
theorem C136_same_protocol_partial {text : List Char} {s : Store} (h : Parses text (.accepted s))
    (hc : ¬ LeftOpen s) (extra : List (Name × List Field)) (hx : ServicesOk extra)
    (hs : Supported (withServices s extra)) (ht : TsSupported (withServices s extra))
    (hv : TsVisible (withServices s extra)) (sg : UInt16) :
    ∃ f p, (withServices s extra).tsFile sg = some f ∧
      (withServices s extra).rustProtocol sg = some p ∧
      Describes (withServices s extra) p ∧ f.Means (withServices s extra) p := by
  obtain ⟨p, h1, h2, h3, _⟩ := C66_text_to_protocol h hc extra hx hs sg
  obtain ⟨f, h4, h5⟩ := tsFile_means (tsGood_services h hc extra hx hs ht) hv sg h3 h2
  exact ⟨f, p, h4, h1, h3, h5⟩

example : Supported (withServices tsStore []) ∧ TsSupported (withServices tsStore []) ∧
    TsVisible (withServices tsStore []) ∧ ¬ LeftOpen tsStore ∧ Parses tsText (.accepted tsStore) :=
  ⟨tsStore_ok, tsStore_ts, tsStore_visible, tsStore_closed, tsText_parses⟩

/-- The store of `C136_enum_name_violated`. -/
def enumsStore : Store where
  sequence := 5
  structs := [⟨4, 0, ['S'], [⟨5, 4, ['x'], ['E'], some 3, [2], false, false, [['G'], ['E']]⟩], []⟩]
  enums := [
    ⟨1, 0, ['E'], [⟨['A'], some ['s', 't', 'r'], none, [], false, [['s', 't', 'r']]⟩,
      ⟨['B'], some ['s', 't', 'r'], none, [], false, [['s', 't', 'r']]⟩], [], none⟩,
    ⟨3, 2, ['E'], [⟨['A'], some ['u', '8'], none, [], false, [['u', '8']]⟩,
      ⟨['B'], some ['u', '8'], none, [], false, [['u', '8']]⟩], [['G']], none⟩]
  groups := [⟨2, 0, ['G'], [], [3], []⟩]
  cStruct := none
  cGroup := none
  cEnum := none
  cField := none
  path := []

/-- The two strings of the enum in the root. -/
def outerE : Variants := .cons .str false (.cons .str false .nil)

/-- The two numbers of the enum in the group. -/
def innerE : Variants := .cons (.num .u8) false (.cons (.num .u8) false .nil)

/-- The file printed for `enumsStore`. -/
def enumsFile : TsFile :=
  ⟨7, [⟨1, 0, ['E'], [.prim "StrUTF8".toList, .prim "StrUTF8".toList]⟩,
      ⟨3, 2, ['E'], [.prim ['u', '8'], .prim ['u', '8']]⟩],
    [⟨4, 0, ['S'], [⟨5, false, false, .enum ['E'], .enum ['E']⟩], []⟩],
    [⟨1, [['E']], [['E']]⟩, ⟨3, [['G'], ['E']], [['G'], ['E']]⟩], [⟨4, [['S']], [['S']]⟩]⟩

set_option maxRecDepth 20000 in
/-- **C136** is violated by enums of the same name: an enum is always printed under its bare name,
so here the field `G.E` of the declared protocol (and of the Rust code) becomes a field with the
enum `E` of the root in the TypeScript code. The two peers do not understand each other. -/
theorem C136_enum_name_violated :
    Parses "enum E { str A; str B; } group G { enum E { u8 A; u8 B; } } struct S { G.E x; }".toList
      (.accepted enumsStore) ∧ ¬ LeftOpen enumsStore ∧ Supported enumsStore ∧ TsSupported enumsStore ∧
    enumsStore.tsFile 7 = some enumsFile ∧
    enumsStore.rustProtocol 7 = some ⟨7, [(1, outerE), (3, innerE)],
      [(4, .cons 5 (.enum innerE) false false .nil)]⟩ ∧
    enumsFile.Means enumsStore ⟨7, [(1, outerE), (3, innerE)],
      [(4, .cons 5 (.enum outerE) false false .nil)]⟩ := by
  refine ⟨⟨300, by rfl⟩, by simp [LeftOpen, enumsStore], ?_, ?_, by rfl, by rfl, ?_⟩
  · refine ⟨?_, ?_, ?_, ?_, ?_⟩ <;> simp [enumsStore, isPrimitive]
  · refine ⟨?_, ?_⟩ <;> simp [enumsStore]
  · have c1 : TsClassIs enumsStore enumsFile 1 (.enum outerE) :=
      .enum (c := ⟨1, 0, ['E'], [.prim "StrUTF8".toList, .prim "StrUTF8".toList]⟩)
        List.mem_cons_self (.prim .str (.prim .str .nil))
    have c3 : TsClassIs enumsStore enumsFile 3 (.enum innerE) :=
      .enum (c := ⟨3, 2, ['E'], [.prim ['u', '8'], .prim ['u', '8']]⟩)
        (List.mem_cons_of_mem _ List.mem_cons_self) (.prim .u8 (.prim .u8 .nil))
    have n1 : TsNames enumsStore.groups enumsStore 0 [['E']] 1 :=
      names_own (.here (.inl ⟨_, List.mem_cons_self, rfl, rfl, rfl⟩))
    have n3 : TsNames enumsStore.groups enumsStore 0 [['G'], ['E']] 3 :=
      names_own (.into (g := ⟨2, 0, ['G'], [], [3], []⟩) List.mem_cons_self rfl rfl
        (.here (.inl ⟨_, List.mem_cons_of_mem _ List.mem_cons_self, rfl, rfl, rfl⟩)))
    have n4 : TsNames enumsStore.groups enumsStore 0 [['S']] 4 :=
      names_own (.here (.inr ⟨_, List.mem_cons_self, rfl, rfl, rfl⟩))
    have c4 : TsClassIs enumsStore enumsFile 4
        (.struct (.cons 5 (.enum outerE) false false .nil)) :=
      .struct (c := ⟨4, 0, ['S'], [⟨5, false, false, .enum ['E'], .enum ['E']⟩], []⟩)
        List.mem_cons_self
        (.enum (x := ⟨5, false, false, .enum ['E'], .enum ['E']⟩) (by decide) rfl rfl rfl n1 n1 c1
          .nil)
    exact ⟨rfl, .cons ⟨rfl, 1, n1, c1⟩ (.cons ⟨rfl, 3, n3, c3⟩ .nil), .cons ⟨rfl, 4, n4, c4⟩ .nil⟩

/-- The store of `C136_repeated_enum_violated`. -/
def manyEnums : Store where
  sequence := 3
  structs := [⟨2, 0, ['S'], [⟨3, 2, ['x'], ['E'], some 1, [], true, false, [['E']]⟩], []⟩]
  enums := [⟨1, 0, ['E'], [⟨['A'], some ['s', 't', 'r'], none, [], false, []⟩,
    ⟨['B'], some ['s', 't', 'r'], none, [], false, []⟩], [], none⟩]
  groups := []
  cStruct := none
  cGroup := none
  cEnum := none
  cField := none
  path := []

/-- The file printed for it. -/
def manyEnumsFile : TsFile :=
  ⟨7, [⟨1, 0, ['E'], [.prim "StrUTF8".toList, .prim "StrUTF8".toList]⟩],
    [⟨2, 0, ['S'], [⟨3, false, true, .enum ['E'], .enum ['E']⟩], []⟩],
    [⟨1, [['E']], [['E']]⟩], [⟨2, [['S']], [['S']]⟩]⟩

set_option maxRecDepth 20000 in
/-- **C136** is violated by repeated enums: the TypeScript generator declares an array and codes one
enum, so the printed file is the code of no protocol, while the Rust generator supports it. -/
theorem C136_repeated_enum_violated :
    Parses "enum E { A; B; } struct S { E[] x; }".toList (.accepted manyEnums) ∧
    ¬ LeftOpen manyEnums ∧ Supported manyEnums ∧
    (∃ p, manyEnums.rustProtocol 7 = some p) ∧
    manyEnums.tsFile 7 = some manyEnumsFile ∧ ¬ ∃ p, manyEnumsFile.Means manyEnums p := by
  refine ⟨⟨300, by rfl⟩, by simp [LeftOpen, manyEnums], ?_, ⟨_, by rfl⟩, by rfl, ?_⟩
  · refine ⟨?_, ?_, ?_, ?_, ?_⟩ <;> simp [manyEnums, isPrimitive]
  · rintro ⟨p, _, _, h⟩
    obtain ⟨⟨_, fs⟩, _, _, i, _, hcl⟩ := h.left ⟨2, [['S']], [['S']]⟩ List.mem_cons_self
    cases hcl with
    | struct hm hf =>
      simp only [manyEnumsFile, List.mem_cons, List.not_mem_nil, or_false] at hm
      subst hm
      cases hf with
      | prim _ _ h1 => simp at h1
      | struct _ h1 => simp at h1
      | structs _ _ h1 => simp at h1
      | enum _ h1 => simp at h1

/-- The store of `C136_repeated_option_violated`. -/
def manyOptions : Store where
  sequence := 3
  structs := [
    ⟨1, 0, ['A'], [⟨2, 1, ['a'], ['u', '8'], none, [], false, false, [['u', '8']]⟩], []⟩]
  enums := [⟨3, 0, ['E'], [⟨['X'], none, some 1, [], true, [['A']]⟩,
    ⟨['Y'], some ['s', 't', 'r'], none, [], false, [['s', 't', 'r']]⟩], [], none⟩]
  groups := []
  cStruct := none
  cGroup := none
  cEnum := none
  cField := none
  path := []

/-- The file printed for it. -/
def manyOptionsFile : TsFile :=
  ⟨7, [⟨3, 0, ['E'], [.struct [['A']], .prim "StrUTF8".toList]⟩],
    [⟨1, 0, ['A'], [⟨2, false, false, .prim, .prim ['u', '8']⟩], []⟩],
    [⟨3, [['E']], [['E']]⟩], [⟨1, [['A']], [['A']]⟩]⟩

set_option maxRecDepth 20000 in
/-- **C136** is violated by options that are arrays of structs: the TypeScript code has one struct
instead. -/
theorem C136_repeated_option_violated :
    Parses "struct A { u8 a; } enum E { A[] X; str Y; }".toList (.accepted manyOptions) ∧
    ¬ LeftOpen manyOptions ∧ Supported manyOptions ∧
    manyOptions.rustProtocol 7 = some ⟨7,
      [(3, .cons (.struct (.cons 2 (.num .u8) false false .nil)) true (.cons .str false .nil))],
      [(1, .cons 2 (.num .u8) false false .nil)]⟩ ∧
    manyOptions.tsFile 7 = some manyOptionsFile ∧
    manyOptionsFile.Means manyOptions ⟨7,
      [(3, .cons (.struct (.cons 2 (.num .u8) false false .nil)) false (.cons .str false .nil))],
      [(1, .cons 2 (.num .u8) false false .nil)]⟩ := by
  refine ⟨⟨300, by rfl⟩, by simp [LeftOpen, manyOptions], ?_, by rfl, by rfl, ?_⟩
  · refine ⟨?_, ?_, ?_, ?_, ?_⟩ <;> simp [manyOptions, isPrimitive]
  · have n1 : TsNames manyOptions.groups manyOptions 0 [['A']] 1 :=
      names_own (.here (.inr ⟨_, List.mem_cons_self, rfl, rfl, rfl⟩))
    have n3 : TsNames manyOptions.groups manyOptions 0 [['E']] 3 :=
      names_own (.here (.inl ⟨_, List.mem_cons_self, rfl, rfl, rfl⟩))
    have c1 : TsClassIs manyOptions manyOptionsFile 1
        (.struct (.cons 2 (.num .u8) false false .nil)) :=
      .struct (c := ⟨1, 0, ['A'], [⟨2, false, false, .prim, .prim ['u', '8']⟩], []⟩)
        List.mem_cons_self
        (.prim (x := ⟨2, false, false, .prim, .prim ['u', '8']⟩) (by decide) rfl rfl rfl .u8 .nil)
    have c3 : TsClassIs manyOptions manyOptionsFile 3 (.enum (.cons
        (.struct (.cons 2 (.num .u8) false false .nil)) false (.cons .str false .nil))) :=
      .enum (c := ⟨3, 0, ['E'], [.struct [['A']], .prim "StrUTF8".toList]⟩) List.mem_cons_self
        (.struct n1 c1 (.prim .str .nil))
    exact ⟨rfl, .cons ⟨rfl, 3, n3, c3⟩ .nil, .cons ⟨rfl, 1, n1, c1⟩ .nil⟩

set_option maxRecDepth 20000 in
/-- **C136** is violated by options that are enums: the Rust generator makes code, the TypeScript
generator stops. -/
theorem C136_nested_enum_violated :
    ∃ s, Parses "enum E { A; B; } enum F { E X; str Y; }".toList (.accepted s) ∧ ¬ LeftOpen s ∧
      (∃ p, s.rustProtocol 7 = some p) ∧ s.tsFile 7 = none :=
  ⟨_, ⟨300, by rfl⟩, by simp [LeftOpen]; exact ⟨rfl, rfl, rfl⟩, ⟨_, by rfl⟩, by rfl⟩

/-! ### C137 -/

/-- **C137** The generated TypeScript file can be loaded if no struct needs a struct from a group
inside its own group: then each class is defined before the classes that evaluate its name.
The full statement has no such condition. -/
theorem C137_load_order_partial {text : List Char} {s : Store} (h : Parses text (.accepted s))
    (hc : ¬ LeftOpen s) (extra : List (Name × List Field)) (hx : ServicesOk extra)
    (hs : Supported (withServices s extra)) (ht : TsSupported (withServices s extra))
    (hv : TsVisible (withServices s extra)) (ho : OptionsVisible (withServices s extra)) (sg : UInt16)
    (hn : ∀ t ∈ (withServices s extra).structs, ∀ u ∈ (withServices s extra).structs,
      Needs (withServices s extra) t u → ¬ DeeperThan (withServices s extra) t u) :
    ∃ f, (withServices s extra).tsFile sg = some f ∧ f.Loads (withServices s extra) := by
  have hg := tsGood_services h hc extra hx hs ht
  obtain ⟨f, h1, _, h2, _⟩ := tsFile_good hg sg
  exact ⟨f, h1, tsFile_loads hg hv.full ho h2 hn⟩

example : OptionsVisible (withServices tsStore []) ∧
    ∀ t ∈ (withServices tsStore []).structs, ∀ u ∈ (withServices tsStore []).structs,
      Needs (withServices tsStore []) t u → ¬ DeeperThan (withServices tsStore []) t u := by
  exact ⟨tsStore_options, tsStore_shallow⟩

/-- **C137** The condition is needed: whenever a struct has a field of a type from a group inside
its own group, its class evaluates the name of a class that is defined later. -/
theorem C137_defined_later {text : List Char} {s : Store} (h : Parses text (.accepted s))
    (hc : ¬ LeftOpen s) (extra : List (Name × List Field)) (hx : ServicesOk extra)
    (hs : Supported (withServices s extra)) (ht : TsSupported (withServices s extra)) (sg : UInt16)
    (t u : Struct) (htm : t ∈ (withServices s extra).structs)
    (hum : u ∈ (withServices s extra).structs) (fl : Field) (hfl : fl ∈ t.fields)
    (hr : fl.refTypeId = some u.id) (hd : DeeperThan (withServices s extra) t u) :
    ∃ f, (withServices s extra).tsFile sg = some f ∧
      ∃ pre c post p, f.structs = pre ++ c :: post ∧ c.id = t.id ∧
        GroupPath (withServices s extra).groups u.parent p ∧ p ++ [u.name] ∈ c.loads ∧
        ∀ d ∈ pre, d.id ≠ u.id := by
  have hg := tsGood_services h hc extra hx hs ht
  obtain ⟨f, h1, _, h2, _⟩ := tsFile_good hg sg
  obtain ⟨c, h3, h4⟩ := h2.left t ((mem_tsOrder hg.tree t).mpr htm)
  obtain ⟨pre, post, h5⟩ := List.append_of_mem h3
  obtain ⟨p, hp⟩ := hg.tree.struct u hum
  exact ⟨f, h1, pre, c, post, p, h5, h4.1, hp, loads_field hg htm hum hfl hr h4 hp,
    tsFile_late hg h2 htm hum hd h5 h4.1⟩

example : demoStore.structs[1].fields[0].refTypeId = some demoStore.structs[0].id ∧
    DeeperThan demoStore demoStore.structs[1] demoStore.structs[0] :=
  ⟨rfl, _, List.mem_cons_self, rfl, .self (g := ⟨2, 0, ['G'], [3], [], []⟩) List.mem_cons_self⟩

/-- The store of `C137_load_order_violated`. -/
def lateStore : Store where
  sequence := 5
  structs := [
    ⟨2, 1, ['A'], [⟨3, 2, ['a'], ['u', '8'], none, [], false, false, [['u', '8']]⟩], [['G']]⟩,
    ⟨4, 0, ['B'], [⟨5, 4, ['x'], ['A'], some 2, [1], false, false, [['G'], ['A']]⟩], []⟩]
  enums := []
  groups := [⟨1, 0, ['G'], [2], [], []⟩]
  cStruct := none
  cGroup := none
  cEnum := none
  cField := none
  path := []

set_option maxRecDepth 20000 in
/-- **C137** is violated: the simplest use of a struct from a group, declared before it is used,
gives a TypeScript file that cannot be loaded, because the class in the root comes first. -/
theorem C137_load_order_violated :
    Parses "group G { struct A { u8 a; } } struct B { G.A x; }".toList (.accepted lateStore) ∧
    ¬ LeftOpen lateStore ∧ Supported lateStore ∧ TsSupported lateStore ∧
    ∃ f, lateStore.tsFile 7 = some f ∧ ¬ f.Loads lateStore := by
  refine ⟨⟨300, by rfl⟩, by simp [LeftOpen, lateStore], ?_, ?_, _, rfl, ?_⟩
  · refine ⟨?_, ?_, ?_, ?_, ?_⟩ <;> simp [lateStore, isPrimitive]
  · refine ⟨?_, ?_⟩ <;> simp [lateStore]
  · intro hl
    obtain ⟨_, _, d, hd, _⟩ := hl [] _ _ rfl _ List.mem_cons_self
    simp at hd

/-! ### C138 -/

/-- **C138** The TypeScript dispatcher has one arm for every declared type: the arm of an id makes an
object of the class with that id, and delivers it under the names of the groups around the type
followed by its own name. -/
theorem C138_dispatch {text : List Char} {s : Store} (h : Parses text (.accepted s))
    (hc : ¬ LeftOpen s) (extra : List (Name × List Field)) (hx : ServicesOk extra)
    (hs : Supported (withServices s extra)) (ht : TsSupported (withServices s extra)) (sg : UInt16) :
    ∃ f, (withServices s extra).tsFile sg = some f ∧
      Pairwise2 (fun (e : Enum) (a : TsArm) => a.id = e.id ∧
        TsNames (withServices s extra).groups (withServices s extra) 0 a.path e.id ∧
        ∃ p, GroupPath (withServices s extra).groups e.parent p ∧ a.keys = p ++ [e.name])
        (withServices s extra).enums f.enumArms ∧
      Pairwise2 (fun (t : Struct) (a : TsArm) => a.id = t.id ∧
        TsNames (withServices s extra).groups (withServices s extra) 0 a.path t.id ∧
        ∃ p, GroupPath (withServices s extra).groups t.parent p ∧ a.keys = p ++ [t.name])
        (withServices s extra).structs f.structArms ∧
      (f.enumArms.map TsArm.id ++ f.structArms.map TsArm.id).Nodup := by
  have hg := tsGood_services h hc extra hx hs ht
  obtain ⟨f, h1, _, _, _, h2, h3⟩ := tsFile_good hg sg
  have restrict : ∀ {α β : Type} {R : α → β → Prop} {l : List α} {m : List β}, Pairwise2 R l m →
      Pairwise2 (fun a b => a ∈ l ∧ R a b) l m := by
    intro α β R l m hp
    induction hp with
    | nil => exact .nil
    | cons h1 _ ih =>
      exact .cons ⟨List.mem_cons_self, h1⟩
        (ih.imp (fun a b hab => ⟨List.mem_cons_of_mem _ hab.1, hab.2⟩))
  refine ⟨f, h1, (restrict h2).imp ?_, (restrict h3).imp ?_, ?_⟩
  · intro e a ⟨he, a1, p, a2, a3, a4⟩
    exact ⟨a1, by rw [a3]; exact (names_full a2 (.inl ⟨e, he, rfl, rfl, rfl⟩)).2, p, a2, a4⟩
  · intro e a ⟨he, a1, p, a2, a3, a4⟩
    exact ⟨a1, by rw [a3]; exact (names_full a2 (.inr ⟨e, he, rfl, rfl, rfl⟩)).2, p, a2, a4⟩
  · rw [h2.map_eq (f := Enum.id) (g := TsArm.id) (fun _ _ h => h.1),
      h3.map_eq (f := Struct.id) (g := TsArm.id) (fun _ _ h => h.1), List.nodup_append]
    obtain ⟨d1, d2, d3, _⟩ := declared_parts hg.typed.nodup
    refine ⟨d2, d1, ?_⟩
    intro a ha b hb
    obtain ⟨e, he, rfl⟩ := List.mem_map.mp ha
    obtain ⟨t, ht, rfl⟩ := List.mem_map.mp hb
    exact fun h => d3 t ht e he h.symm

set_option maxRecDepth 20000 in
example : ∃ f, tsStore.tsFile 7 = some f ∧
    f.structArms = [⟨1, [['A']], [['A']]⟩, ⟨5, [['G'], ['B']], [['G'], ['B']]⟩,
      ⟨8, [['G'], ['C']], [['G'], ['C']]⟩, ⟨12, [['G'], ['H'], ['D']], [['G'], ['H'], ['D']]⟩,
      ⟨17, [['K'], ['L']], [['K'], ['L']]⟩] := ⟨_, by rfl, by rfl⟩

/-- **C138** Every declared type has exactly one class, with its name, in the namespace of its
group. -/
theorem C138_classes {text : List Char} {s : Store} (h : Parses text (.accepted s))
    (hc : ¬ LeftOpen s) (extra : List (Name × List Field)) (hx : ServicesOk extra)
    (hs : Supported (withServices s extra)) (ht : TsSupported (withServices s extra)) (sg : UInt16) :
    ∃ f, (withServices s extra).tsFile sg = some f ∧
      (f.structs.map (fun c => (c.id, c.scope, c.name))).Perm
        ((withServices s extra).structs.map (fun t => (t.id, t.parent, t.name))) ∧
      (f.enums.map (fun c => (c.id, c.scope, c.name))).Perm
        ((withServices s extra).enums.map (fun e => (e.id, e.parent, e.name))) := by
  have hg := tsGood_services h hc extra hx hs ht
  obtain ⟨f, h1, _, h2, h3, _⟩ := tsFile_good hg sg
  refine ⟨f, h1, ?_, ?_⟩
  · rw [h2.map_eq (f := fun t => (t.id, t.parent, t.name)) (g := fun c => (c.id, c.scope, c.name))
      (fun t c h => by rw [h.1, h.2.1, h.2.2.1])]
    exact (tsOrder_perm hg.tree).map _
  · rw [h3.map_eq (f := fun e => (e.id, e.parent, e.name)) (g := fun c => (c.id, c.scope, c.name))
      (fun t c h => by rw [h.1, h.2.1, h.2.2.1])]
    exact (tsEnumOrder_perm hg.tree (declared_parts hg.typed.nodup).2.1).map _

set_option maxRecDepth 20000 in
example : ∃ f, tsStore.tsFile 7 = some f ∧ f.structs.map (fun c => (c.id, c.scope, c.name)) =
    [(1, 0, ['A']), (5, 4, ['B']), (8, 4, ['C']), (12, 10, ['D']), (17, 16, ['L'])] := ⟨_, by rfl, by rfl⟩

/-! ### C139 -/

/-- A message of the protocol with a value that both languages transport exactly. -/
def BothSendable (p : Rust.Protocol) : Msg → Prop
  | .enum id vs v => (id, vs) ∈ p.enums ∧ ElemClean (.enum vs) v ∧ TsElemClean (.enum vs) v
  | .struct id fs v => (id, fs) ∈ p.structs ∧ FieldsClean fs v ∧ TsFieldsClean fs v

/-- **C139** From the text of a protocol to transport between languages: with field ids below 256,
both generators make code of one and the same protocol, and whatever messages of it Rust and
TypeScript senders pack, in any mix and any chunks, readers of both languages get exactly. -/
theorem C139_text_to_cross_language {text : List Char} {s : Store} (h : Parses text (.accepted s))
    (hc : ¬ LeftOpen s) (extra : List (Name × List Field)) (hx : ServicesOk extra)
    (hs : Supported (withServices s extra)) (ht : TsSupported (withServices s extra))
    (hv : TsVisible (withServices s extra)) (sg : UInt16)
    (h256 : ∀ t ∈ (withServices s extra).structs, ∀ f ∈ t.fields, f.id < 256) :
    ∃ f p, (withServices s extra).tsFile sg = some f ∧
      (withServices s extra).rustProtocol sg = some p ∧ f.Means (withServices s extra) p ∧
    ∀ (sent : List Sent), (∀ m ∈ sent, BothSendable p m.msg ∧
        m.lang.pack p m.msg m.seq m.ts = .ok m.bytes ∧ m.bytes.length < 2 ^ 64) →
      ∀ (ops : List ReadOp), fed ops = (sent.map Sent.bytes).flatten →
      (let o := observe p.decoder ops Reader.new
       (∀ x ∈ o.results, x = .ok) ∧
       (o.got ++ o.reader.queue).map Income.msg = sent.map Sent.msg ∧
       (o.got ++ o.reader.queue).map (fun m => m.header.sequence) = sent.map Sent.seq ∧
       bufLen o.reader = 0) ∧
      (∃ es got r', TsRun (Ts.decoder p) ops Reader.new es got r') ∧
      ∀ es got r', TsRun (Ts.decoder p) ops Reader.new es got r' →
        (∀ e ∈ es, e = .returned []) ∧
        (got ++ r'.queue).map Income.msg = sent.map Sent.msg ∧
        (got ++ r'.queue).map (fun m => m.header.sequence) = sent.map Sent.seq ∧
        Ts.len r' = 0 := by
  have hg := tsGood_services h hc extra hx hs ht
  obtain ⟨p, h1, h2, h3, h4, h5, h6⟩ := C66_text_to_protocol h hc extra hx hs sg
  obtain ⟨f, h7, h8⟩ := tsFile_means hg hv sg h3 h2
  refine ⟨f, p, h7, h1, h8, ?_⟩
  intro sent hsent ops hf
  refine C60_cross_language p h4 sent ?_ ops hf
  intro m hm
  obtain ⟨k1, k2⟩ := hsent m hm
  refine ⟨?_, k2⟩
  cases hmm : m.msg with
  | enum id vs v =>
    rw [hmm] at k1
    obtain ⟨e, he, e1, e2⟩ := h3.1.right _ k1.1
    exact ⟨k1.1, h5 _ k1.1, tsElemOk_of hg h256 (.enum he e2) (h5 _ k1.1), k1.2⟩
  | struct id fs v =>
    rw [hmm] at k1
    obtain ⟨t, ht, t1, t2⟩ := h3.2.right _ k1.1
    exact ⟨k1.1, h6 _ k1.1, tsFieldsOk_of hg h256 ht (fun _ h => h) t2 (h6 _ k1.1), k1.2⟩

example : ∀ t ∈ (withServices tsStore []).structs, ∀ f ∈ t.fields, f.id < 256 := by
  simp [withServices, tsStore]

end Verif.Props
