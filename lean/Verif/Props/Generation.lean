import Verif.Proofs.RustRender
import Verif.Spec.RustNames
import Verif.Props.Protocol
import Verif.Props.RustStream
import Verif.Props.CrossLanguage
set_option autoImplicit false
/-!
Property theorems about what the generators make of an accepted protocol: C66, C68.
-/
namespace Verif.Props

open Verif Verif.Prot Verif.Spec Verif.Rust

/-- A store with the structs added by the workflow. -/
def withServices (s : Store) (extra : List (Name × List Field)) : Store :=
  extra.foldl (fun s e => s.addService e.1 e.2) s

/-- The fields of service structs are primitive. -/
def ServicesOk (extra : List (Name × List Field)) : Prop :=
  ∀ e ∈ extra, ∀ f ∈ e.2, f.refTypeId = none ∧ isPrimitive f.kind = true

theorem wellTyped_services {text : List Char} {s : Store} (h : Parses text (.accepted s))
    (extra : List (Name × List Field)) (hx : ServicesOk extra) : WellTyped (withServices s extra) := by
  have : ∀ (extra : List (Name × List Field)) (s : Store), ServicesOk extra → IdsOk s → WellTyped s →
      WellTyped (withServices s extra) := by
    intro extra
    induction extra with
    | nil => intro s _ _ h; exact h
    | cons e extra ih =>
      intro s hx hi hw
      exact ih _ (fun x hm => hx x (List.mem_cons_of_mem _ hm)) (idsOk_addService hi e.1 e.2)
        (wellTyped_addService hw hi e.1 e.2 (hx e List.mem_cons_self))
  exact this extra s hx (reach_idsOk (accepted_reach h)) (wellTyped_accepted h)

/-- **C66** For every accepted and finished protocol, with any service structs added, that uses only what the
Rust generator supports, the generated code is that of the declared protocol: message ids are the
ids of the declarations and distinct, each field and variant has the declared type with all
references unfolded, and all types are such that the codec theorems apply. -/
theorem C66_text_to_protocol {text : List Char} {s : Store} (h : Parses text (.accepted s))
    (_hc : ¬ LeftOpen s)
    (extra : List (Name × List Field)) (hx : ServicesOk extra)
    (hs : Supported (withServices s extra)) (sg : UInt16) :
    ∃ p, (withServices s extra).rustProtocol sg = some p ∧ p.signature = sg ∧
      Describes (withServices s extra) p ∧ IdsDistinct p ∧
      (∀ q ∈ p.enums, ElemOk (.enum q.2)) ∧ (∀ q ∈ p.structs, FieldsOk q.2) :=
  rustProtocol_good (wellTyped_services h extra hx) hs sg

/-- A message of the protocol with a value for which transport is exact. -/
def Sendable (p : Rust.Protocol) : Msg → Prop
  | .enum id vs v => (id, vs) ∈ p.enums ∧ ElemClean (.enum vs) v
  | .struct id fs v => (id, fs) ∈ p.structs ∧ FieldsClean fs v

/-- **C66** From the text of a protocol to exact transport: whatever messages of such a protocol
generated code packs, generated code reads back, for any chunks. -/
theorem C66_text_to_transport {text : List Char} {s : Store} (h : Parses text (.accepted s))
    (hc : ¬ LeftOpen s)
    (extra : List (Name × List Field)) (hx : ServicesOk extra)
    (hs : Supported (withServices s extra)) (sg : UInt16) :
    ∃ p, (withServices s extra).rustProtocol sg = some p ∧
    ∀ (sent : List (Msg × UInt32 × UInt64 × Bytes)),
      (∀ m ∈ sent, Sendable p m.1 ∧ p.pack m.1 m.2.1 m.2.2.1 = .ok m.2.2.2 ∧
        m.2.2.2.length < 2 ^ 64) →
      ∀ (ops : List ReadOp), fed ops = (sent.map (fun m => m.2.2.2)).flatten →
      let o := observe p.decoder ops Reader.new
      (∀ x ∈ o.results, x = .ok) ∧
      (o.got ++ o.reader.queue).map Income.msg = sent.map (fun m => m.1) ∧
      (o.got ++ o.reader.queue).map (fun m => m.header.sequence) = sent.map (fun m => m.2.1) ∧
      bufLen o.reader = 0 := by
  obtain ⟨p, h1, _, _, h2, h3, h4⟩ := C66_text_to_protocol h hc extra hx hs sg
  refine ⟨p, h1, fun sent hsent ops hf => C54_rust_end_to_end p h2 sent ?_ ops hf⟩
  intro m hm
  obtain ⟨h5, h6⟩ := hsent m hm
  refine ⟨?_, h6⟩
  cases hmm : m.1 with
  | enum id vs v => rw [hmm] at h5; exact ⟨h5.1, h3 _ h5.1, h5.2⟩
  | struct id fs v => rw [hmm] at h5; exact ⟨h5.1, h4 _ h5.1, h5.2⟩

theorem demo_supported : Supported demoStore := by
  refine ⟨?_, ?_, ?_, ?_, ?_⟩ <;> simp [demoStore, isPrimitive]

example : Supported (withServices demoStore []) ∧ ServicesOk [] :=
  ⟨demo_supported, by simp [ServicesOk]⟩

/-- The protocol of `demoStore`: references are unfolded. -/
def demoGenerated : Rust.Protocol :=
  let e : Variants := .cons .str false (.cons .str false .nil)
  let s : Fields := .cons 4 (.num .u8) true false (.cons 5 (.enum e) false true .nil)
  ⟨513, [(1, e)], [(3, s), (6, .cons 7 (.struct s) false false .nil)]⟩

example : demoStore.rustProtocol 513 = some demoGenerated := rfl

/-- **C66** Why types must not be called like a primitive type: the parser accepts a struct `u8` in
a group and resolves the reference to it, but the generator takes the field for a number. -/
theorem C66_primitive_name_violated :
    ∃ s, Parses "group G { struct u8 { str a; } } struct T { G.u8 x; }".toList (.accepted s) ∧
      (∃ t ∈ s.structs, ∃ f ∈ t.fields, f.refTypeId = some 2 ∧
        ∃ u ∈ s.structs, u.id = 2 ∧ u.path = [['G']]) ∧
      ∃ p, s.rustProtocol 0 = some p ∧ (4, .cons 5 (.num .u8) false false .nil) ∈ p.structs := by
  refine ⟨_, ⟨200, by rfl⟩, ?_, _, rfl, ?_⟩
  · exact ⟨_, List.mem_cons_of_mem _ List.mem_cons_self, _, List.mem_cons_self, rfl, _,
      List.mem_cons_self, rfl, rfl⟩
  · exact List.mem_cons_of_mem _ List.mem_cons_self

/-! ### C68 -/

/-- The result of parsing the text of `C68_reference_violated`. -/
def shadowStore : Store where
  sequence := 8
  structs := [
    ⟨1, 0, ['A'], [⟨2, 1, ['a'], ['u', '8'], none, [], false, false, [['u', '8']]⟩], []⟩,
    ⟨4, 3, ['A'], [⟨5, 4, ['b'], ['s', 't', 'r'], none, [], false, false, [['s', 't', 'r']]⟩],
      [['G']]⟩,
    ⟨7, 6, ['B'], [⟨8, 7, ['x'], ['A'], some 1, [], true, false, [['A']]⟩], [['G'], ['H']]⟩]
  enums := []
  groups := [⟨6, 3, ['H'], [7], [], []⟩, ⟨3, 0, ['G'], [4], [], [6]⟩]
  cStruct := none
  cGroup := none
  cEnum := none
  cField := none
  path := []

set_option maxRecDepth 20000 in
/-- **C68** is violated: the reference `A` in group `G.H` is resolved by the tool to the struct `A` of
the root (id 1), but the generated code there names the struct `A` of group `G` (id 4). As the field
is repeated, the generated code compiles. -/
theorem C68_reference_violated :
    Parses "struct A { u8 a; } group G { struct A { str b; } group H { struct B { A[] x; } } }".toList
      (.accepted shadowStore) ∧ ¬ LeftOpen shadowStore ∧
    (∃ t ∈ shadowStore.structs, ∃ f ∈ t.fields, t.parent = 6 ∧ f.typePath = [['A']] ∧
      f.refTypeId = some 1) ∧
    RustNames shadowStore.groups shadowStore 6 [['A']] 4 ∧
    ¬ RustNames shadowStore.groups shadowStore 6 [['A']] 1 := by
  have hno : ¬ Declares shadowStore.groups shadowStore 6 ['A'] := by
    simp [Declares, TypeIn, shadowStore]
  refine ⟨⟨300, by rfl⟩, by simp [LeftOpen, shadowStore], ?_, ?_, ?_⟩
  · exact ⟨_, List.mem_cons_of_mem _ (List.mem_cons_of_mem _ List.mem_cons_self), _,
      List.mem_cons_self, rfl, rfl, rfl⟩
  · have ht : TypeIn shadowStore 3 ['A'] 4 := .inr ⟨_, List.mem_cons_of_mem _ List.mem_cons_self,
      rfl, rfl, rfl⟩
    exact .up (g := ⟨6, 3, ['H'], [7], [], []⟩) List.mem_cons_self hno
      (.here (.inl ⟨4, ht⟩) (.here ht))
  · intro h
    generalize hp : (6 : Nat) = par at h
    generalize hpath : [['A']] = path at h
    cases h with
    | here hd _ =>
      simp only [List.cons.injEq] at hpath
      obtain ⟨rfl, _⟩ := hpath
      exact hno (hp ▸ hd)
    | up hg hnd hup =>
      rename_i g w rest
      simp only [List.cons.injEq] at hpath
      obtain ⟨rfl, rfl⟩ := hpath
      have hg3 : g.parent = 3 := by
        simp only [shadowStore, List.mem_cons, List.not_mem_nil, or_false] at hg
        rcases hg with rfl | rfl <;> simp at hp ⊢
      rw [hg3] at hup
      generalize hp3 : (3 : Nat) = par3 at hup
      generalize hpath3 : [['A']] = path3 at hup
      cases hup with
      | here hd hl =>
        simp only [List.cons.injEq] at hpath3
        obtain ⟨rfl, rfl⟩ := hpath3
        subst hp3
        generalize hpath4 : [['A']] = path4 at hl
        cases hl with
        | here ht => simp [TypeIn, shadowStore] at ht
        | into _ _ _ hl2 =>
          simp only [List.cons.injEq] at hpath4
          obtain ⟨_, rfl⟩ := hpath4
          cases hl2
      | up hg2 hnd2 _ =>
        rename_i g2 w2 rest2
        simp only [List.cons.injEq] at hpath3
        obtain ⟨rfl, rfl⟩ := hpath3
        refine hnd2 (.inl ⟨4, .inr ⟨_, List.mem_cons_of_mem _ List.mem_cons_self, rfl, rfl, ?_⟩⟩)
        exact hp3

theorem rustNames_root {gs : List Group} {s : Store} {w : Name} {rest : List Name} {id par : Nat}
    {p : List Name} (hp : GroupPath gs par p) (hl : Leads gs s 0 (w :: rest) id)
    (hn : ∀ i, Around gs i par → ¬ Declares gs s i w) : RustNames gs s par (w :: rest) id := by
  induction hp with
  | root =>
    refine .here ?_ hl
    cases hl with
    | here ht => exact .inl ⟨_, ht⟩
    | into hg h1 h2 _ => exact .inr ⟨_, hg, h1, h2⟩
  | down hg _ ih => exact .up hg (hn _ (.self hg)) (ih (fun i hi => hn i (.out hg hi)))

/-- **C68** What holds: the generated code names the type that the tool resolved if the reference
leads there from the own group, or if no group around it declares the first name of the reference.
The full statement has no such condition. -/
theorem C68_reference_partial {text : List Char} {s : Store} (h : Parses text (.accepted s))
    (hc : ¬ LeftOpen s) (t : Struct) (ht : t ∈ s.structs) (f : Field) (hf : f ∈ t.fields)
    (w : Name) (rest : List Name) (hw : f.typePath = w :: rest) (id : Nat)
    (hid : f.refTypeId = some id)
    (hn : Leads s.groups s t.parent f.typePath id ∨
      ∀ i, Around s.groups i t.parent → ¬ Declares s.groups s i w) :
    RustNames s.groups s t.parent f.typePath id := by
  have own : Leads s.groups s t.parent f.typePath id → RustNames s.groups s t.parent f.typePath id := by
    intro hl
    rw [hw] at hl ⊢
    refine .here ?_ hl
    cases hl with
    | here ht => exact .inl ⟨_, ht⟩
    | into hg h1 h2 _ => exact .inr ⟨_, hg, h1, h2⟩
  rcases hn with hn | hn
  · exact own hn
  · rcases (C65_types_defined h hc).1 t ht f hf with ⟨h0, _⟩ | ⟨id2, h1, _, _, h2⟩
    · rw [hid] at h0; simp at h0
    · rw [hid] at h1
      simp only [Option.some.injEq] at h1
      subst h1
      rcases h2 with h2 | h2
      · exact own h2
      · rw [hw] at h2 ⊢
        exact rustNames_root ((C64_recorded_paths h hc).1 t ht) h2 hn

example : RustNames demoStore.groups demoStore 2 [['E']] 1 := by
  refine rustNames_root (p := [['G']]) (.down (g := ⟨2, 0, ['G'], [3], [], []⟩) (p := [])
    List.mem_cons_self .root) (.here (.inl ⟨_, List.mem_cons_self, rfl, rfl, rfl⟩)) ?_
  intro i hi
  have all : ∀ j par, Around demoStore.groups j par → j = 2 := by
    intro j par h
    induction h with
    | self hg => simp [demoStore] at hg; rw [hg]
    | out _ _ ih => exact ih
  have := all _ _ hi
  subst this
  simp [Declares, TypeIn, demoStore]

end Verif.Props
