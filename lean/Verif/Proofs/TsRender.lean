import Verif.Spec.TsCode
import Verif.Spec.TsCodec
import Verif.Proofs.TsOrder
set_option autoImplicit false
/-!
The TypeScript generator prints code of the protocol that the store describes.
-/
namespace Verif.Prot

open Verif Verif.Spec Verif.Prot.Syntax

/-! ### Names -/

theorem groupNames_eq {n : Nat} {s : Store} (h : TreeOk n s) {i : Nat} {p : List Name}
    (hp : GroupPath s.groups i p) : ∀ fuel, i < fuel →
    s.groupNames fuel i = some p ∧ s.keysTo fuel i = p := by
  induction hp with
  | root =>
    intro fuel hf
    obtain ⟨m, rfl⟩ : ∃ m, fuel = m + 1 := ⟨fuel - 1, by omega⟩
    exact ⟨rfl, rfl⟩
  | @down g q hg _ ih =>
    intro fuel hf
    obtain ⟨m, rfl⟩ : ∃ m, fuel = m + 1 := ⟨fuel - 1, by omega⟩
    have h1 := h.older g hg
    have h2 : s.getGroup g.id = some g := find_unique Group.id hg h.gids
    obtain ⟨k, hk⟩ : ∃ k, g.id = k + 1 := ⟨g.id - 1, by omega⟩
    obtain ⟨i1, i2⟩ := ih m (by omega)
    rw [hk] at h2 ⊢
    constructor
    · simp only [Store.groupNames, h2, i1, Option.map_some]
    · simp only [Store.keysTo, h2, i2]

theorem parent_le {n : Nat} {s : Store} (h : TreeOk n s) {i : Nat} {p : List Name}
    (hp : GroupPath s.groups i p) : i < s.sequence + 1 := by
  rcases groupPath_mem hp with h0 | ⟨g, h1, h2⟩
  · omega
  · have := h.gbound g h1; omega

theorem structPath_eq {n : Nat} {s : Store} (h : TreeOk n s) {t : Struct} {p : List Name}
    (hp : GroupPath s.groups t.parent p) : s.structPath t = some (p ++ [t.name]) := by
  simp [Store.structPath, (groupNames_eq h hp _ (parent_le h hp)).1]

theorem enumPath_eq {n : Nat} {s : Store} (h : TreeOk n s) {t : Enum} {p : List Name}
    (hp : GroupPath s.groups t.parent p) : s.enumPath t = some (p ++ [t.name]) := by
  simp [Store.enumPath, (groupNames_eq h hp _ (parent_le h hp)).1]

theorem leads_down {gs : List Group} {s : Store} {i : Nat} {p : List Name} (hp : GroupPath gs i p) :
    ∀ {q : List Name} {id : Nat}, Leads gs s i q id → Leads gs s 0 (p ++ q) id := by
  induction hp with
  | root => intro q id h; exact h
  | @down g p hg _ ih =>
    intro q id h
    rw [List.append_assoc]
    exact ih (.into hg rfl rfl h)

theorem names_own {gs : List Group} {s : Store} {par id : Nat} {path : List Name}
    (hl : Leads gs s par path id) : RustNames gs s par path id := by
  cases hl with
  | here ht => exact .here (.inl ⟨_, ht⟩) (.here ht)
  | into hg h1 h2 hl => exact .here (.inr ⟨_, hg, h1, h2⟩) (.into hg h1 h2 hl)

theorem names_root {gs : List Group} {s : Store} {w : Name} {rest : List Name} {id par : Nat}
    {p : List Name} (hp : GroupPath gs par p) (hl : Leads gs s 0 (w :: rest) id)
    (hn : ∀ i, Around gs i par → ¬ Declares gs s i w) : RustNames gs s par (w :: rest) id := by
  induction hp with
  | root => exact names_own hl
  | down hg _ ih => exact .up hg (hn _ (.self hg)) (ih (fun i hi => hn i (.out hg hi)))

theorem names_free {s : Store} {id par : Nat} {path p : List Name} (hp : GroupPath s.groups par p)
    (hl : Leads s.groups s 0 path id) (hf : HeadFree s par path) : TsNames s.groups s par path id := by
  cases path with
  | nil => cases hl
  | cons w rest => exact names_root hp hl (hf w rest rfl)

/-- From the root, the full path names the type. -/
theorem names_full {s : Store} {i id : Nat} {w : Name} {p : List Name}
    (hp : GroupPath s.groups i p) (ht : TypeIn s i w id) :
    Leads s.groups s 0 (p ++ [w]) id ∧ TsNames s.groups s 0 (p ++ [w]) id :=
  ⟨leads_down hp (.here ht), names_own (leads_down hp (.here ht))⟩

/-! ### Primitive types -/

theorem rustPrim_of {w : Name} {e : Elem} (h : PrimMeans w e) : rustPrim w = some e := by
  cases h <;> rfl

theorem tsPrim_of {w : Name} {e : Elem} (h : PrimMeans w e) (rep : Bool) :
    ∃ cls, tsPrim w rep = some cls ∧ PrimClass cls e rep := by
  cases rep <;> cases h
  · exact ⟨_, rfl, .bool⟩
  · exact ⟨_, rfl, .str⟩
  · exact ⟨_, rfl, .i8⟩
  · exact ⟨_, rfl, .i16⟩
  · exact ⟨_, rfl, .i32⟩
  · exact ⟨_, rfl, .i64⟩
  · exact ⟨_, rfl, .u8⟩
  · exact ⟨_, rfl, .u16⟩
  · exact ⟨_, rfl, .u32⟩
  · exact ⟨_, rfl, .u64⟩
  · exact ⟨_, rfl, .f32⟩
  · exact ⟨_, rfl, .f64⟩
  · exact ⟨_, rfl, .bools⟩
  · exact ⟨_, rfl, .strs⟩
  · exact ⟨_, rfl, .i8s⟩
  · exact ⟨_, rfl, .i16s⟩
  · exact ⟨_, rfl, .i32s⟩
  · exact ⟨_, rfl, .i64s⟩
  · exact ⟨_, rfl, .u8s⟩
  · exact ⟨_, rfl, .u16s⟩
  · exact ⟨_, rfl, .u32s⟩
  · exact ⟨_, rfl, .u64s⟩
  · exact ⟨_, rfl, .f32s⟩
  · exact ⟨_, rfl, .f64s⟩

/-! ### Fields and options -/

/-- What is used of the store. -/
structure TsGood (n : Nat) (s : Store) : Prop where
  tree : TreeOk n s
  typed : WellTyped s
  ok : Supported s
  ts : TsSupported s

theorem structById_of {s : Store} (h : (declaredIds s).Nodup) {t : Struct} (ht : t ∈ s.structs) :
    s.structById t.id = some t := find_unique Struct.id ht (declared_parts h).1

theorem structById_enum {s : Store} (h : (declaredIds s).Nodup) {e : Enum} (he : e ∈ s.enums) :
    s.structById e.id = none := by
  rw [Store.structById, List.find?_eq_none]
  intro t ht
  simpa using (declared_parts h).2.2.1 t ht e he

theorem enumById_of {s : Store} (h : (declaredIds s).Nodup) {e : Enum} (he : e ∈ s.enums) :
    s.enumById e.id = some e := find_unique Enum.id he (declared_parts h).2.1

/-- What a field looks like. -/
inductive FieldCase (s : Store) (t : Struct) (f : Field) : Prop where
  | prim {e : Elem} : f.refTypeId = none → PrimMeans f.kind e → FieldCase s t f
  | struct {u : Struct} {p : List Name} : u ∈ s.structs → f.refTypeId = some u.id →
      rustPrim f.kind = none → GroupPath s.groups u.parent p → u.id < t.id → FieldCase s t f
  | enum {e : Enum} : e ∈ s.enums → f.refTypeId = some e.id → rustPrim f.kind = none →
      e.id < t.id → FieldCase s t f

theorem fieldCase {n : Nat} {s : Store} (h : TsGood n s) {t : Struct} (ht : t ∈ s.structs)
    {f : Field} (hf : f ∈ t.fields) : FieldCase s t f := by
  rcases h.typed.fields t ht f hf with ⟨g1, g2⟩ | ⟨id, g1, g2, g3⟩
  · obtain ⟨p1, p2, p3⟩ := h.ok.prims t ht f hf g1
    obtain ⟨e, he⟩ := rustPrim_total g2 p1 p2 p3
    exact .prim g1 (rustPrim_sound he)
  · have hk := rustPrim_none (hasType_name h.ok g3)
    rcases g3 with ⟨e, h1, h2, h3⟩ | ⟨u, h1, h2, h3⟩
    · subst h2; exact .enum h1 g1 hk g2
    · subst h2
      obtain ⟨p, hp⟩ := h.tree.struct u h1
      exact .struct h1 g1 hk hp g2

/-- What an option looks like. -/
inductive ItemCase (s : Store) (e : Enum) (v : EnumItem) : Prop where
  | prim {w : Name} {x : Elem} : v.refTypeId = none → v.types = some w → PrimMeans w x →
      ItemCase s e v
  | struct {u : Struct} {p : List Name} : u ∈ s.structs → v.types = none →
      v.refTypeId = some u.id → v.repeated = false → GroupPath s.groups u.parent p → u.id < e.id →
      ItemCase s e v

theorem itemCase {n : Nat} {s : Store} (h : TsGood n s) {e : Enum} (he : e ∈ s.enums)
    {v : EnumItem} (hv : v ∈ e.variants) : ItemCase s e v := by
  rcases h.typed.items e he v hv with ⟨g1, w, g2, g3⟩ | ⟨g1, id, g2, g3, _⟩
  · obtain ⟨p1, p2, p3⟩ := h.ok.items e he v hv w g2
    obtain ⟨x, hx⟩ := rustPrim_total g3 p1 p2 p3
    exact .prim g1 g2 (rustPrim_sound hx)
  · obtain ⟨h1, u, h2, rfl⟩ := h.ts.items e he v hv id g2
    obtain ⟨p, hp⟩ := h.tree.struct u h2
    exact .struct h2 g1 g2 h1 hp g3

theorem tsField_struct {n : Nat} {s : Store} (h : TsGood n s) {f : Field} {u : Struct}
    {p : List Name} (hu : u ∈ s.structs) (hr : f.refTypeId = some u.id)
    (hk : rustPrim f.kind = none) (hp : GroupPath s.groups u.parent p) :
    s.tsField f = some ⟨f.id, f.optional, f.repeated, .struct (p ++ [u.name]),
      if f.repeated then .structs (p ++ [u.name]) u.name else .struct (p ++ [u.name]) f.typePath⟩ ∧
    s.tsLoads f = some [p ++ [u.name]] := by
  have h1 := structById_of h.typed.nodup hu
  have h2 := structPath_eq h.tree hp
  constructor
  · cases hrep : f.repeated <;>
      simp [Store.tsField, Store.tsDecl, Store.tsCode, hk, hr, h1, h2, hrep]
  · simp [Store.tsLoads, hr, h1, h2]

theorem tsField_enum {n : Nat} {s : Store} (h : TsGood n s) {f : Field} {e : Enum}
    (he : e ∈ s.enums) (hr : f.refTypeId = some e.id) (hk : rustPrim f.kind = none) :
    s.tsField f = some ⟨f.id, f.optional, f.repeated, .enum e.name, .enum e.name⟩ := by
  have h1 := structById_enum h.typed.nodup he
  have h2 := enumById_of h.typed.nodup he
  simp [Store.tsField, Store.tsDecl, Store.tsCode, hk, hr, h1, h2]

theorem tsField_prim {s : Store} {f : Field} {e : Elem} (hr : f.refTypeId = none)
    (hm : PrimMeans f.kind e) : ∃ cls, PrimClass cls e f.repeated ∧
    s.tsField f = some ⟨f.id, f.optional, f.repeated, .prim, .prim cls⟩ ∧
    s.tsLoads f = some [] := by
  obtain ⟨cls, h1, h2⟩ := tsPrim_of hm f.repeated
  refine ⟨cls, h2, ?_, ?_⟩
  · simp [Store.tsField, Store.tsDecl, Store.tsCode, rustPrim_of hm, hr, h1]
  · simp [Store.tsLoads, hr, h1]

theorem tsField_total {n : Nat} {s : Store} (h : TsGood n s) {t : Struct} (ht : t ∈ s.structs)
    {f : Field} (hf : f ∈ t.fields) : ∃ x, s.tsField f = some x := by
  cases fieldCase h ht hf with
  | prim h1 h2 =>
    obtain ⟨_, _, h3, _⟩ := tsField_prim (s := s) h1 h2
    exact ⟨_, h3⟩
  | struct h1 h2 h3 h4 _ => exact ⟨_, (tsField_struct h h1 h2 h3 h4).1⟩
  | enum h1 h2 h3 _ => exact ⟨_, tsField_enum h h1 h2 h3⟩

/-- The names that the options of an enum evaluate. -/
theorem itemLoads {n : Nat} {s : Store} (h : TsGood n s) {e : Enum} (he : e ∈ s.enums)
    {v : EnumItem} (hv : v ∈ e.variants) :
    ∃ r, s.tsItemLoads v = some r ∧
      ((r = [] ∧ v.refTypeId = none) ∨
        ∃ u ∈ s.structs, v.refTypeId = some u.id ∧ u.id < e.id ∧ r = [[u.name]]) := by
  cases itemCase h he hv with
  | prim h1 h2 h3 =>
    obtain ⟨cls, h4, _⟩ := tsPrim_of h3 v.repeated
    exact ⟨[], by simp [Store.tsItemLoads, h1, h2, h4], .inl ⟨rfl, h1⟩⟩
  | @struct u p h1 _ h2 _ _ h3 =>
    exact ⟨[[u.name]], by simp [Store.tsItemLoads, h2, structById_of h.typed.nodup h1],
      .inr ⟨u, h1, h2, h3, rfl⟩⟩

theorem Pairwise2.left {α β : Type} {R : α → β → Prop} {l : List α} {m : List β}
    (h : Pairwise2 R l m) : ∀ a ∈ l, ∃ b ∈ m, R a b := by
  induction h with
  | nil => simp
  | cons h1 _ ih =>
    intro a ha
    rcases List.mem_cons.mp ha with rfl | ha
    · exact ⟨_, List.mem_cons_self, h1⟩
    · obtain ⟨b, h2, h3⟩ := ih a ha
      exact ⟨b, List.mem_cons_of_mem _ h2, h3⟩

theorem tsLoads_enum {n : Nat} {s : Store} (h : TsGood n s) {f : Field} {e : Enum}
    (he : e ∈ s.enums) (hr : f.refTypeId = some e.id) :
    ∃ r, s.tsLoads f = some r ∧
      (∀ path ∈ r, ∃ v ∈ e.variants, ∃ u ∈ s.structs, v.refTypeId = some u.id ∧ u.id < e.id ∧
        path = [u.name]) ∧
      (∀ v ∈ e.variants, ∀ u ∈ s.structs, v.refTypeId = some u.id → [u.name] ∈ r) := by
  have h1 := structById_enum h.typed.nodup he
  have h2 := enumById_of h.typed.nodup he
  obtain ⟨r, h3, h4⟩ := mapAll_good (l := e.variants) (fun v hv => itemLoads h he hv)
  have h4' : Pairwise2 (fun (v : EnumItem) (r : List (List Name)) =>
      v ∈ e.variants ∧ ((r = [] ∧ v.refTypeId = none) ∨
        ∃ u ∈ s.structs, v.refTypeId = some u.id ∧ u.id < e.id ∧ r = [[u.name]])) e.variants r := by
    have : ∀ {l : List EnumItem} {m : List (List (List Name))}, (∀ v ∈ l, v ∈ e.variants) →
        Pairwise2 (fun (v : EnumItem) (r : List (List Name)) => (r = [] ∧ v.refTypeId = none) ∨
          ∃ u ∈ s.structs, v.refTypeId = some u.id ∧ u.id < e.id ∧ r = [[u.name]]) l m →
        Pairwise2 (fun (v : EnumItem) (r : List (List Name)) =>
          v ∈ e.variants ∧ ((r = [] ∧ v.refTypeId = none) ∨
            ∃ u ∈ s.structs, v.refTypeId = some u.id ∧ u.id < e.id ∧ r = [[u.name]])) l m := by
      intro l m hl hp
      induction hp with
      | nil => exact .nil
      | cons h1 _ ih =>
        exact .cons ⟨hl _ List.mem_cons_self, h1⟩ (ih (fun v hv => hl v (List.mem_cons_of_mem _ hv)))
    exact this (fun _ h => h) h4
  refine ⟨r.flatten, ?_, ?_, ?_⟩
  · simp only [Store.tsLoads, hr, h1, h2]
    rw [h3]; rfl
  · intro path hp
    obtain ⟨l, hl, hpl⟩ := List.mem_flatten.mp hp
    obtain ⟨v, hv, hvm, hc⟩ := h4'.right l hl
    rcases hc with ⟨rfl, _⟩ | ⟨u, h5, h6, h7, rfl⟩
    · simp at hpl
    · exact ⟨v, hv, u, h5, h6, h7, by simpa using hpl⟩
  · intro v hv u hu hr
    obtain ⟨l, hl, _, hc⟩ := h4'.left v hv
    rcases hc with ⟨_, h5⟩ | ⟨u2, h5, h6, _, h7⟩
    · rw [hr] at h5; simp at h5
    · rw [hr] at h6
      simp only [Option.some.injEq] at h6
      have h8 := structById_of h.typed.nodup hu
      rw [h6, structById_of h.typed.nodup h5] at h8
      simp only [Option.some.injEq] at h8
      refine List.mem_flatten.mpr ⟨l, hl, ?_⟩
      rw [h7, h8]; simp

theorem tsLoads_total {n : Nat} {s : Store} (h : TsGood n s) {t : Struct} (ht : t ∈ s.structs)
    {f : Field} (hf : f ∈ t.fields) : ∃ x, s.tsLoads f = some x := by
  cases fieldCase h ht hf with
  | prim h1 h2 =>
    obtain ⟨_, _, _, h3⟩ := tsField_prim (s := s) h1 h2
    exact ⟨_, h3⟩
  | struct h1 h2 h3 h4 _ => exact ⟨_, (tsField_struct h h1 h2 h3 h4).2⟩
  | enum h1 h2 h3 _ =>
    obtain ⟨r, h4, _⟩ := tsLoads_enum h h1 h2
    exact ⟨r, h4⟩

theorem tsItem_prim {s : Store} {v : EnumItem} {w : Name} {e : Elem} (hw : v.types = some w)
    (hm : PrimMeans w e) : ∃ cls, PrimClass cls e v.repeated ∧ s.tsItem v = some (.prim cls) := by
  obtain ⟨cls, h1, h2⟩ := tsPrim_of hm v.repeated
  exact ⟨cls, h2, by simp [Store.tsItem, hw, h1]⟩

theorem tsItem_struct {n : Nat} {s : Store} (h : TsGood n s) {v : EnumItem} {u : Struct}
    {p : List Name} (hu : u ∈ s.structs) (ht : v.types = none) (hr : v.refTypeId = some u.id)
    (hp : GroupPath s.groups u.parent p) : s.tsItem v = some (.struct (p ++ [u.name])) := by
  simp [Store.tsItem, ht, hr, structById_of h.typed.nodup hu, structPath_eq h.tree hp]

theorem tsItem_total {n : Nat} {s : Store} (h : TsGood n s) {e : Enum} (he : e ∈ s.enums)
    {v : EnumItem} (hv : v ∈ e.variants) : ∃ x, s.tsItem v = some x := by
  cases itemCase h he hv with
  | prim h1 h2 h3 =>
    obtain ⟨_, _, h4⟩ := tsItem_prim (s := s) h2 h3
    exact ⟨_, h4⟩
  | struct h1 h2 h3 _ h4 _ => exact ⟨_, tsItem_struct h h1 h2 h3 h4⟩

/-! ### Classes -/

theorem mapAll_total {α β : Type} {f : α → Option β} {l : List α} (h : ∀ a ∈ l, ∃ b, f a = some b) :
    ∃ r, mapAll f l = some r ∧ Pairwise2 (fun a b => f a = some b) l r :=
  mapAll_good (fun a ha => by obtain ⟨b, hb⟩ := h a ha; exact ⟨b, hb, hb⟩)

/-- The class of a struct. -/
def IsClass (s : Store) (t : Struct) (c : TsStruct) : Prop :=
  c.id = t.id ∧ c.scope = t.parent ∧ c.name = t.name ∧
  Pairwise2 (fun f x => s.tsField f = some x) t.fields c.fields ∧
  ∃ l, c.loads = l.flatten ∧ Pairwise2 (fun f x => s.tsLoads f = some x) t.fields l

theorem tsStruct_good {n : Nat} {s : Store} (h : TsGood n s) {t : Struct} (ht : t ∈ s.structs) :
    ∃ c, s.tsStruct t = some c ∧ IsClass s t c := by
  obtain ⟨xs, h1, h2⟩ := mapAll_total (f := s.tsField) (l := t.fields)
    (fun f hf => tsField_total h ht hf)
  obtain ⟨ls, h3, h4⟩ := mapAll_total (f := s.tsLoads) (l := t.fields)
    (fun f hf => tsLoads_total h ht hf)
  exact ⟨⟨t.id, t.parent, t.name, xs, ls.flatten⟩, by simp [Store.tsStruct, h1, h3],
    rfl, rfl, rfl, h2, ls, rfl, h4⟩

/-- The class of an enum. -/
def IsEnumClass (s : Store) (t : Enum) (c : TsEnum) : Prop :=
  c.id = t.id ∧ c.scope = t.parent ∧ c.name = t.name ∧
  Pairwise2 (fun f x => s.tsItem f = some x) t.variants c.items

theorem tsEnum_good {n : Nat} {s : Store} (h : TsGood n s) {t : Enum} (ht : t ∈ s.enums) :
    ∃ c, s.tsEnum t = some c ∧ IsEnumClass s t c := by
  obtain ⟨xs, h1, h2⟩ := mapAll_total (f := s.tsItem) (l := t.variants)
    (fun f hf => tsItem_total h ht hf)
  exact ⟨⟨t.id, t.parent, t.name, xs⟩, by simp [Store.tsEnum, h1], rfl, rfl, rfl, h2⟩

/-- An arm of the dispatcher for a type. -/
def IsArm (s : Store) (par : Nat) (w : Name) (id : Nat) (a : TsArm) : Prop :=
  a.id = id ∧ ∃ p, GroupPath s.groups par p ∧ a.path = p ++ [w] ∧ a.keys = p ++ [w]

theorem tsFile_good {n : Nat} {s : Store} (h : TsGood n s) (sg : UInt16) :
    ∃ f, s.tsFile sg = some f ∧ f.signature = sg.toNat ∧
      Pairwise2 (IsClass s) s.tsOrder f.structs ∧
      Pairwise2 (IsEnumClass s) s.tsEnumOrder f.enums ∧
      Pairwise2 (fun (e : Enum) a => IsArm s e.parent e.name e.id a) s.enums f.enumArms ∧
      Pairwise2 (fun (e : Struct) a => IsArm s e.parent e.name e.id a) s.structs f.structArms := by
  have hn := (declared_parts h.typed.nodup).2.1
  obtain ⟨es, a1, a2⟩ := mapAll_good (l := s.tsEnumOrder)
    (fun e he => tsEnum_good h ((mem_tsEnumOrder h.tree hn e).mp he))
  obtain ⟨ts, b1, b2⟩ := mapAll_good (l := s.tsOrder)
    (fun t ht => tsStruct_good h ((mem_tsOrder h.tree t).mp ht))
  have arm : ∀ (par : Nat) (p : List Name), GroupPath s.groups par p →
      s.keysTo (s.sequence + 1) par = p :=
    fun par p hp => (groupNames_eq h.tree hp _ (parent_le h.tree hp)).2
  obtain ⟨ea, c1, c2⟩ := mapAll_good (l := s.enums) (f := s.tsEnumArm)
    (R := fun (e : Enum) a => IsArm s e.parent e.name e.id a) (by
      intro e he
      obtain ⟨p, hp⟩ := h.tree.enum e he
      refine ⟨⟨e.id, p ++ [e.name], p ++ [e.name]⟩, ?_, rfl, p, hp, rfl, rfl⟩
      simp [Store.tsEnumArm, enumPath_eq h.tree hp, arm _ _ hp])
  obtain ⟨sa, d1, d2⟩ := mapAll_good (l := s.structs) (f := s.tsStructArm)
    (R := fun (e : Struct) a => IsArm s e.parent e.name e.id a) (by
      intro e he
      obtain ⟨p, hp⟩ := h.tree.struct e he
      refine ⟨⟨e.id, p ++ [e.name], p ++ [e.name]⟩, ?_, rfl, p, hp, rfl, rfl⟩
      simp [Store.tsStructArm, structPath_eq h.tree hp, arm _ _ hp])
  exact ⟨⟨sg.toNat, es, ts, ea, sa⟩, by simp [Store.tsFile, a1, b1, c1, d1], rfl, b2, a2, c2, d2⟩

/-! ### What the classes code -/

/-- The file has a class for every type. -/
structure HasClasses (s : Store) (f : TsFile) : Prop where
  structs : ∀ t ∈ s.structs, ∃ c ∈ f.structs, IsClass s t c
  enums : ∀ t ∈ s.enums, ∃ c ∈ f.enums, IsEnumClass s t c

mutual
theorem classIs {n : Nat} {s : Store} (h : TsGood n s) (hv : TsVisible s) {file : TsFile}
    (hc : HasClasses s file) : ∀ {id : Nat} {e : Elem}, TypeIs s id e → TsClassIs s file id e
  | _, _, .struct ht hf => by
    obtain ⟨c, h1, h2, h3, _, h4, _⟩ := hc.structs _ ht
    rw [← h2]
    exact .struct h1 (h3 ▸ fieldsAre h hv hc ht (fun _ h => h) hf h4)
  | _, _, .enum ht hf => by
    obtain ⟨c, h1, h2, h3, _, h4⟩ := hc.enums _ ht
    rw [← h2]
    exact .enum h1 (h3 ▸ itemsAre h hv hc ht (fun _ h => h) hf h4)
theorem fieldsAre {n : Nat} {s : Store} (h : TsGood n s) (hv : TsVisible s) {file : TsFile}
    (hc : HasClasses s file) {t : Struct} (ht : t ∈ s.structs) :
    ∀ {fs : List Field} {r : Fields} {xs : List TsField}, (∀ f ∈ fs, f ∈ t.fields) →
      FieldsAre s fs r → Pairwise2 (fun f x => s.tsField f = some x) fs xs →
      TsFieldsAre s file t.parent xs r
  | _, _, _, _, .nil, .nil => .nil
  | f :: _, _, _, hm, .prim h1 h2 h3, .cons hx hxs => by
    have hrest := fieldsAre h hv hc ht (fun g hg => hm g (List.mem_cons_of_mem _ hg)) h3 hxs
    have hsmall := (h.ok.small.1 t ht).2 f (hm f List.mem_cons_self)
    obtain ⟨cls, k1, k2, _⟩ := tsField_prim (s := s) h1 h2
    rw [k2] at hx
    simp only [Option.some.injEq] at hx
    subst hx
    exact .prim hsmall rfl rfl rfl k1 hrest
  | f :: _, _, _, hm, .ref h1 h2 h3, .cons hx hxs => by
    have hrest := fieldsAre h hv hc ht (fun g hg => hm g (List.mem_cons_of_mem _ hg)) h3 hxs
    have hf := hm f List.mem_cons_self
    have hsmall := (h.ok.small.1 t ht).2 f hf
    have hcls := classIs h hv hc h2
    obtain ⟨tp, htp⟩ := h.tree.struct t ht
    cases fieldCase h ht hf with
    | prim g1 _ => rw [h1] at g1; simp at g1
    | @struct u p g1 g2 g3 g4 _ =>
      rw [h1] at g2
      simp only [Option.some.injEq] at g2
      subst g2
      have hu : TypeIn s u.parent u.name u.id := .inr ⟨u, g1, rfl, rfl, rfl⟩
      have hfull : TsNames s.groups s t.parent (p ++ [u.name]) u.id :=
        names_free htp (names_full g4 hu).1 (hv.full t ht f hf u g1 h1 p g4)
      rw [(tsField_struct h g1 h1 g3 g4).1] at hx
      simp only [Option.some.injEq] at hx
      subst hx
      generalize hid : u.id = id at h2 hcls
      cases h2 with
      | enum he _ =>
        exact absurd hid ((declared_parts h.typed.nodup).2.2.1 u g1 _ he)
      | struct hs2 _ =>
        rw [← hid] at hcls
        cases hrep : f.repeated with
        | false =>
          refine .struct hsmall rfl rfl rfl hfull hfull ?_ hcls hrest
          rcases hv.written t ht f hf u g1 h1 with k | k
          · exact names_own k
          · rcases (h.tree.refs t ht f hf _ h1).2 with k2 | k2
            · exact names_own k2
            · exact names_free htp k2 k
        | true =>
          exact .structs hsmall rfl rfl rfl hfull hfull
            (hv.bare t ht f hf u g1 h1 hrep) hcls hrest
    | @enum e g1 g2 g3 _ =>
      rw [h1] at g2
      simp only [Option.some.injEq] at g2
      subst g2
      have hname := hv.enums t ht f hf e g1 h1
      have hrep : f.repeated = false := by
        cases hrep : f.repeated with
        | false => rfl
        | true => exact absurd h1 (h.ts.fields t ht f hf hrep e g1)
      rw [tsField_enum h g1 h1 g3] at hx
      simp only [Option.some.injEq] at hx
      subst hx
      generalize hid : e.id = id at h2 hcls
      cases h2 with
      | struct he _ =>
        exact absurd hid.symm ((declared_parts h.typed.nodup).2.2.1 _ he e g1)
      | enum hs2 _ =>
        rw [← hid] at hcls
        rw [hrep]
        exact .enum hsmall rfl rfl rfl hname hname hcls hrest
theorem itemsAre {n : Nat} {s : Store} (h : TsGood n s) (hv : TsVisible s) {file : TsFile}
    (hc : HasClasses s file) {t : Enum} (ht : t ∈ s.enums) :
    ∀ {vs : List EnumItem} {r : Variants} {xs : List TsItem}, (∀ v ∈ vs, v ∈ t.variants) →
      VariantsAre s vs r → Pairwise2 (fun f x => s.tsItem f = some x) vs xs →
      TsItemsAre s file t.parent xs r
  | _, _, _, _, .nil, .nil => .nil
  | _, _, _, hm, .prim h1 h2 h3 h4, .cons hx hxs => by
    have hrest := itemsAre h hv hc ht (fun g hg => hm g (List.mem_cons_of_mem _ hg)) h4 hxs
    obtain ⟨cls, k1, k2⟩ := tsItem_prim (s := s) h2 h3
    rw [k2] at hx
    simp only [Option.some.injEq] at hx
    subst hx
    exact .prim k1 hrest
  | v :: _, _, _, hm, .ref h1 h2 h3, .cons hx hxs => by
    have hrest := itemsAre h hv hc ht (fun g hg => hm g (List.mem_cons_of_mem _ hg)) h3 hxs
    have hvm := hm v List.mem_cons_self
    have hcls := classIs h hv hc h2
    obtain ⟨tp, htp⟩ := h.tree.enum t ht
    cases itemCase h ht hvm with
    | prim g1 _ _ => rw [h1] at g1; simp at g1
    | @struct u p g1 g0 g2 g3 g4 _ =>
      rw [h1] at g2
      simp only [Option.some.injEq] at g2
      subst g2
      have hu : TypeIn s u.parent u.name u.id := .inr ⟨u, g1, rfl, rfl, rfl⟩
      have hfull : TsNames s.groups s t.parent (p ++ [u.name]) u.id :=
        names_free htp (names_full g4 hu).1 (hv.items t ht v hvm u g1 h1 p g4)
      rw [tsItem_struct h g1 g0 h1 g4] at hx
      simp only [Option.some.injEq] at hx
      subst hx
      generalize hid : u.id = id at h2 hcls
      cases h2 with
      | enum he _ =>
        exact absurd hid ((declared_parts h.typed.nodup).2.2.1 u g1 _ he)
      | struct hs2 _ =>
        rw [← hid] at hcls
        rw [g3]
        exact .struct hfull hcls hrest
end

theorem Pairwise2.join {α β γ : Type} {R : α → β → Prop} {S : α → γ → Prop} {T : β → γ → Prop} :
    ∀ {l : List α} {m : List β} {k : List γ}, Pairwise2 R l m → Pairwise2 S l k →
      (∀ a ∈ l, ∀ b c, R a b → S a c → T b c) → Pairwise2 T m k
  | _, _, _, .nil, .nil, _ => .nil
  | _, _, _, .cons h1 h2, .cons h3 h4, hi =>
    .cons (hi _ List.mem_cons_self _ _ h1 h3)
      (h2.join h4 (fun a ha => hi a (List.mem_cons_of_mem _ ha)))

theorem tsFile_means {n : Nat} {s : Store} (h : TsGood n s) (hv : TsVisible s) (sg : UInt16)
    {p : Rust.Protocol} (hd : Describes s p) (hsg : p.signature = sg) :
    ∃ f, s.tsFile sg = some f ∧ f.Means s p := by
  obtain ⟨f, h1, h2, h3, h4, h5, h6⟩ := tsFile_good h sg
  have hn := (declared_parts h.typed.nodup).2.1
  have hc : HasClasses s f :=
    ⟨fun t ht => h3.left t ((mem_tsOrder h.tree t).mpr ht),
      fun t ht => h4.left t ((mem_tsEnumOrder h.tree hn t).mpr ht)⟩
  refine ⟨f, h1, by rw [h2, hsg], h5.join hd.1 ?_, h6.join hd.2 ?_⟩
  · intro e he a q ⟨a1, pp, a2, a3, _⟩ ⟨q1, q2⟩
    refine ⟨by rw [a1, q1], e.id, ?_, classIs h hv hc (.enum he q2)⟩
    rw [a3]
    exact (names_full a2 (.inl ⟨e, he, rfl, rfl, rfl⟩)).2
  · intro e he a q ⟨a1, pp, a2, a3, _⟩ ⟨q1, q2⟩
    refine ⟨by rw [a1, q1], e.id, ?_, classIs h hv hc (.struct he q2)⟩
    rw [a3]
    exact (names_full a2 (.inr ⟨e, he, rfl, rfl, rfl⟩)).2

end Verif.Prot

namespace Verif.Prot

open Verif Verif.Spec Verif.Prot.Syntax

/-! ### Loading -/

theorem Pairwise2.split {α β : Type} {R : α → β → Prop} : ∀ {l : List α} {pre post : List β} {c : β},
    Pairwise2 R l (pre ++ c :: post) → ∃ p t q, l = p ++ t :: q ∧ Pairwise2 R p pre ∧ R t c
  | _, [], _, _, h => by
    cases h with
    | cons h1 h2 => exact ⟨[], _, _, rfl, .nil, h1⟩
  | _, b :: pre, _, _, h => by
    cases h with
    | cons h1 h2 =>
      obtain ⟨p, t, q, rfl, h3, h4⟩ := h2.split
      exact ⟨_ :: p, t, q, rfl, .cons h1 h3, h4⟩

theorem tsFile_loads {n : Nat} {s : Store} (h : TsGood n s)
    (hfull : ∀ t ∈ s.structs, ∀ f ∈ t.fields, ∀ u ∈ s.structs, f.refTypeId = some u.id →
      ∀ p, GroupPath s.groups u.parent p → HeadFree s t.parent (p ++ [u.name]))
    (hopt : OptionsVisible s) {f : TsFile} (hf : Pairwise2 (IsClass s) s.tsOrder f.structs)
    (hno : ∀ t ∈ s.structs, ∀ u ∈ s.structs, Needs s t u → ¬ DeeperThan s t u) : f.Loads s := by
  intro pre c post he path hp
  rw [he] at hf
  obtain ⟨p, t, q, h1, h2, h3, h4, _, _, l, h5, h6⟩ := hf.split
  have ht : t ∈ s.structs := (mem_tsOrder h.tree t).mp (by rw [h1]; simp)
  obtain ⟨tp, htp⟩ := h.tree.struct t ht
  rw [h5] at hp
  obtain ⟨r, hr, hpr⟩ := List.mem_flatten.mp hp
  obtain ⟨fl, hfl, hld⟩ := h6.right r hr
  have earlier : ∀ u ∈ s.structs, u.id < t.id → t.id ≤ n → Needs s t u → ∃ d ∈ pre, d.id = u.id := by
    intro u hu hlt hn hneed
    have hb : Before s.tsOrder u t := by
      have h8 := (mem_tsOrder h.tree u).mpr hu
      have h9 := (mem_tsOrder h.tree t).mpr ht
      rw [tsOrder_eq h.tree] at h8 h9 ⊢
      exact below_order h.tree hlt hn (hno t ht u hu hneed) _ _ h8 h9
    obtain ⟨d, d1, d2⟩ := h2.left u (hb.mem (tsOrder_nodup h.tree) h1).1
    exact ⟨d, d1, d2.1⟩
  rw [h4]
  cases fieldCase h ht hfl with
  | prim g1 g2 =>
    obtain ⟨_, _, _, g3⟩ := tsField_prim (s := s) g1 g2
    rw [g3] at hld
    simp only [Option.some.injEq] at hld
    subst hld
    simp at hpr
  | @struct u up g1 g2 g3 g4 g5 =>
    rw [(tsField_struct h g1 g2 g3 g4).2] at hld
    simp only [Option.some.injEq] at hld
    subst hld
    simp only [List.mem_singleton] at hpr
    subst hpr
    refine ⟨u.id, ?_, earlier u g1 g5 (h.tree.refs t ht fl hfl _ g2).1 ⟨fl, hfl, .inl g2⟩⟩
    exact names_free htp (names_full g4 (.inr ⟨u, g1, rfl, rfl, rfl⟩)).1
      (hfull t ht fl hfl u g1 g2 up g4)
  | @enum e g1 g2 g3 g4 =>
    obtain ⟨r2, k1, k2, _⟩ := tsLoads_enum h g1 g2
    rw [k1] at hld
    simp only [Option.some.injEq] at hld
    subst hld
    obtain ⟨v, v1, u, u1, u2, u3, rfl⟩ := k2 path hpr
    exact ⟨u.id, hopt t ht fl hfl e g1 g2 v v1 u u1 u2,
      earlier u u1 (by omega) (h.tree.refs t ht fl hfl _ g2).1
        ⟨fl, hfl, .inr ⟨e, g1, g2, v, v1, u2⟩⟩⟩

/-- A class that is needed but lies deeper is defined later. -/
theorem tsFile_late {n : Nat} {s : Store} (h : TsGood n s) {f : TsFile}
    (hf : Pairwise2 (IsClass s) s.tsOrder f.structs) {t u : Struct} (ht : t ∈ s.structs)
    (hu : u ∈ s.structs) (hd : DeeperThan s t u) {pre post : List TsStruct} {c : TsStruct}
    (he : f.structs = pre ++ c :: post) (hc : c.id = t.id) : ∀ d ∈ pre, d.id ≠ u.id := by
  intro d hd2 heq
  rw [he] at hf
  obtain ⟨p, t2, q, h1, h2, h3, _⟩ := hf.split
  have ht2 : t2 ∈ s.structs := (mem_tsOrder h.tree t2).mp (by rw [h1]; simp)
  have same : ∀ a ∈ s.structs, ∀ b ∈ s.structs, a.id = b.id → a = b := by
    intro a ha b hb hab
    have e1 := structById_of h.typed.nodup ha
    rw [hab, structById_of h.typed.nodup hb] at e1
    exact (Option.some.inj e1).symm
  have := same t2 ht2 t ht (by rw [← h3, hc])
  subst this
  obtain ⟨x, x1, x2, _⟩ := h2.right d hd2
  have hx : x ∈ s.structs := (mem_tsOrder h.tree x).mp (by rw [h1]; simp [x1])
  have := same x hx u hu (by rw [← x2, heq])
  subst this
  have hb : Before s.tsOrder t2 x := by
    have h8 := (mem_tsOrder h.tree x).mpr hu
    have h9 := (mem_tsOrder h.tree t2).mpr ht
    rw [tsOrder_eq h.tree] at h8 h9 ⊢
    exact below_deeper h.tree hd _ _ h8 h9
  obtain ⟨p1, p2, hp⟩ := List.append_of_mem x1
  have hsplit : s.tsOrder = p1 ++ x :: (p2 ++ t2 :: q) := by rw [h1, hp]; simp
  have := (hb.mem (tsOrder_nodup h.tree) hsplit).2
  exact this (by simp)

/-- The class of a struct evaluates the full paths of the structs it has fields of. -/
theorem loads_field {n : Nat} {s : Store} (h : TsGood n s) {t u : Struct} (ht : t ∈ s.structs)
    (hu : u ∈ s.structs) {fl : Field} (hfl : fl ∈ t.fields) (hr : fl.refTypeId = some u.id)
    {c : TsStruct} (hc : IsClass s t c) {p : List Name} (hp : GroupPath s.groups u.parent p) :
    p ++ [u.name] ∈ c.loads := by
  obtain ⟨_, _, _, _, l, h5, h6⟩ := hc
  obtain ⟨r, r1, r2⟩ := h6.left fl hfl
  have hk : rustPrim fl.kind = none := by
    cases fieldCase h ht hfl with
    | prim g1 _ => rw [hr] at g1; simp at g1
    | struct _ _ g3 _ _ => exact g3
    | enum _ _ g3 _ => exact g3
  rw [(tsField_struct h hu hr hk hp).2] at r2
  simp only [Option.some.injEq] at r2
  subst r2
  rw [h5]
  exact List.mem_flatten.mpr ⟨_, r1, by simp⟩

/-! ### Codecs of both languages -/

theorem prim_ts {w : Name} {e : Elem} (h : PrimMeans w e) : TsElemOk e := by
  cases h <;> exact trivial

theorem prim_no_struct {w : Name} {e : Elem} (h : PrimMeans w e) : ¬ ∃ fs, e = .struct fs := by
  rintro ⟨fs, rfl⟩; cases h

mutual
theorem tsElemOk_of {n : Nat} {s : Store} (h : TsGood n s)
    (hs : ∀ t ∈ s.structs, ∀ f ∈ t.fields, f.id < 256) :
    ∀ {id : Nat} {e : Elem}, TypeIs s id e → ElemOk e → TsElemOk e
  | _, _, .struct ht hf, ho => by
    simp only [ElemOk] at ho
    simp only [TsElemOk]
    exact tsFieldsOk_of h hs ht (fun _ h => h) hf ho
  | _, _, .enum ht hf, ho => by
    simp only [ElemOk] at ho
    simp only [TsElemOk]
    exact ⟨tsVariantsOk_of h hs ht (fun _ h => h) hf ho.1, ho.2⟩
theorem tsFieldsOk_of {n : Nat} {s : Store} (h : TsGood n s)
    (hs : ∀ t ∈ s.structs, ∀ f ∈ t.fields, f.id < 256) {t : Struct} (ht : t ∈ s.structs) :
    ∀ {fs : List Field} {r : Fields}, (∀ f ∈ fs, f ∈ t.fields) → FieldsAre s fs r → FieldsOk r →
      TsFieldsOk r
  | _, _, _, .nil, _ => trivial
  | f :: _, _, hm, .prim h1 h2 h3, ho => by
    simp only [FieldsOk] at ho
    have hid := hs t ht f (hm f List.mem_cons_self)
    refine ⟨prim_ts h2, ho.2.1, ?_, ?_,
      tsFieldsOk_of h hs ht (fun g hg => hm g (List.mem_cons_of_mem _ hg)) h3 ho.2.2.2⟩
    · simp only [UInt16.toNat_ofNat']; omega
    · rintro ⟨_, hv⟩; exact (prim_ok h2).2 hv
  | f :: _, _, hm, .ref h1 h2 h3, ho => by
    simp only [FieldsOk] at ho
    have hf := hm f List.mem_cons_self
    have hid := hs t ht f hf
    refine ⟨tsElemOk_of h hs h2 ho.1, ho.2.1, ?_, ?_,
      tsFieldsOk_of h hs ht (fun g hg => hm g (List.mem_cons_of_mem _ hg)) h3 ho.2.2.2⟩
    · simp only [UInt16.toNat_ofNat']; omega
    · rintro ⟨hrep, vs, rfl⟩
      cases h2 with
      | enum he _ => exact h.ts.fields t ht f hf hrep _ he h1
theorem tsVariantsOk_of {n : Nat} {s : Store} (h : TsGood n s)
    (hs : ∀ t ∈ s.structs, ∀ f ∈ t.fields, f.id < 256) {e : Enum} (he : e ∈ s.enums) :
    ∀ {vs : List EnumItem} {r : Variants}, (∀ v ∈ vs, v ∈ e.variants) → VariantsAre s vs r →
      VariantsOk r → TsVariantsOk r
  | _, _, _, .nil, _ => trivial
  | v :: _, _, hm, .prim h1 h2 h3 h4, ho => by
    simp only [VariantsOk] at ho
    exact ⟨prim_ts h3, (prim_ok h3).2, fun hv => prim_no_struct h3 hv.2,
      tsVariantsOk_of h hs he (fun g hg => hm g (List.mem_cons_of_mem _ hg)) h4 ho.2⟩
  | v :: _, _, hm, .ref h1 h2 h3, ho => by
    simp only [VariantsOk] at ho
    have hv := hm v List.mem_cons_self
    obtain ⟨k1, u, k2, k3⟩ := h.ts.items e he v hv _ h1
    refine ⟨tsElemOk_of h hs h2 ho.1, ?_, ?_,
      tsVariantsOk_of h hs he (fun g hg => hm g (List.mem_cons_of_mem _ hg)) h3 ho.2⟩
    · rintro ⟨vs, rfl⟩
      cases h2 with
      | enum he2 _ => exact (declared_parts h.typed.nodup).2.2.1 u k2 _ he2 k3
    · rintro ⟨hrep, _⟩; rw [k1] at hrep; simp at hrep
end

end Verif.Prot
