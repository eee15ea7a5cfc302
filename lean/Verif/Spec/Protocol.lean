import Verif.Model.ProtocolParser
set_option autoImplicit false
/-!
Vocabulary for the properties of the protocol parser and store.
-/
namespace Verif.Prot

/-- The ids of everything declared: structs, their fields, enums and groups. -/
def declaredIds (s : Store) : List Nat :=
  s.structs.map Struct.id ++ s.structs.flatMap (fun t => t.fields.map Field.id) ++
    s.enums.map Enum.id ++ s.groups.map Group.id

/-- Some declaration of the text is not finished. -/
def LeftOpen (s : Store) : Prop :=
  s.cStruct ≠ none ∨ s.cEnum ≠ none ∨ s.cGroup ≠ none ∨ s.cField ≠ none

/-- `names` are the names of the groups from the root down to group `id` (0 is the root). -/
inductive GroupPath (gs : List Group) : Nat → List Name → Prop where
  | root : GroupPath gs 0 []
  | down {g : Group} {p : List Name} :
      g ∈ gs → GroupPath gs g.parent p → GroupPath gs g.id (p ++ [g.name])

/-- `id` is the id of a struct or enum called `w` declared in group `parent`. -/
def TypeIn (s : Store) (parent : Nat) (w : Name) (id : Nat) : Prop :=
  (∃ e ∈ s.enums, e.id = id ∧ e.name = w ∧ e.parent = parent) ∨
  (∃ t ∈ s.structs, t.id = id ∧ t.name = w ∧ t.parent = parent)

/-- Following `path` through the groups `gs` from group `parent` leads to the type `id`. -/
inductive Leads (gs : List Group) (s : Store) : Nat → List Name → Nat → Prop where
  | here {parent : Nat} {w : Name} {id : Nat} : TypeIn s parent w id → Leads gs s parent [w] id
  | into {parent : Nat} {w : Name} {rest : List Name} {id : Nat} {g : Group} :
      g ∈ gs → g.name = w → g.parent = parent → Leads gs s g.id rest id →
      Leads gs s parent (w :: rest) id

/-- No two groups with the same parent have the same name. -/
def GroupNamesUnique (s : Store) : Prop :=
  ∀ g ∈ s.groups, ∀ h ∈ s.groups, g.name = h.name → g.parent = h.parent → g = h

/-- A reference written inside group `parent`, of an owner with id `owner`: it leads from that
group or from the root to a type declared before the owner. -/
def RefOk (gs : List Group) (s : Store) (owner parent : Nat) (path : List Name) (id : Nat) : Prop :=
  id < owner ∧ (Leads gs s parent path id ∨ Leads gs s 0 path id)

/-- The type of a field is a primitive type, or a reference that leads to a declared type; `kind` is
the name of the type without the path. -/
def FieldTyped (gs : List Group) (s : Store) (owner parent : Nat) (f : Field) : Prop :=
  (f.refTypeId = none ∧ isPrimitive f.kind = true ∧ f.typePath = [f.kind]) ∨
  (∃ id, f.refTypeId = some id ∧ f.typePath.getLast? = some f.kind ∧
    RefOk gs s owner parent f.typePath id)

/-- The same for a variant of an enum; a variant without type holds a `str`. -/
def ItemTyped (gs : List Group) (s : Store) (owner parent : Nat) (v : EnumItem) : Prop :=
  (v.refTypeId = none ∧ ∃ w, v.types = some w ∧ isPrimitive w = true ∧
    (v.typePath = [w] ∨ (v.typePath = [] ∧ w = "str".toList))) ∨
  (v.types = none ∧ ∃ id, v.refTypeId = some id ∧ RefOk gs s owner parent v.typePath id)

end Verif.Prot
