import Verif.Model.RustRender
set_option autoImplicit false
/-!
Model of the decisions of the TypeScript generator, `cli/src/protocol/render/typescript/mod.rs`:
which codec each field and each variant gets, under which names the generated code refers to other
classes, in which order the classes are defined, and which arms the dispatcher has. `none` stands
for `stop!` (message and exit status 1).

Names are kept as printed: the code is not resolved here, see `Spec/TsCode.lean` for what a printed
name means. Simplifications: the validators and defaults of values are left out, except for the
names that are evaluated when the file is loaded; the types of a group that was left open at the end
of the text (see C61) are not rendered at all, so this is a model for finished protocols.
-/
namespace Verif.Prot

open Verif

/-- The printed codec of a field. -/
inductive TsCode where
  /-- `Protocol.Primitives.<cls>`. -/
  | prim (cls : Name)
  /-- One struct: decoded into a new object of class `path`, held in a variable of type `var`. -/
  | struct (path var : List Name)
  /-- An array of structs: decoded with class `path`, encoded with an object of class `bare`. -/
  | structs (path : List Name) (bare : Name)
  /-- One enum, coded by an object of class `bare`. -/
  | enum (bare : Name)
  deriving DecidableEq

/-- The printed type of a field. -/
inductive TsDecl where
  | prim
  | struct (path : List Name)
  | enum (bare : Name)
  deriving DecidableEq

/-- A printed field; `array` tells whether the printed type is an array. -/
structure TsField where
  id : Nat
  optional : Bool
  array : Bool
  decl : TsDecl
  code : TsCode
  deriving DecidableEq

/-- A printed option of an enum. -/
inductive TsItem where
  | prim (cls : Name)
  | struct (path : List Name)
  deriving DecidableEq

/-- A printed class of a struct, in the namespace of group `scope`; `loads` are the names evaluated
by its static part when the class is defined. -/
structure TsStruct where
  id : Nat
  scope : Nat
  name : Name
  fields : List TsField
  loads : List (List Name)
  deriving DecidableEq

/-- A printed class of an enum. -/
structure TsEnum where
  id : Nat
  scope : Nat
  name : Name
  items : List TsItem
  deriving DecidableEq

/-- An arm of the dispatcher: the id, the class and the keys under which the message is delivered. -/
structure TsArm where
  id : Nat
  path : List Name
  keys : List Name
  deriving DecidableEq

/-- The printed file: classes in the order of their definition. -/
structure TsFile where
  signature : Nat
  enums : List TsEnum
  structs : List TsStruct
  enumArms : List TsArm
  structArms : List TsArm
  deriving DecidableEq

/-- `get_primitive_ref` L1467-1501 and `etype` L738-829: the class that codes a primitive type. -/
def tsPrim (w : Name) (repeated : Bool) : Option Name :=
  ([("bool", ("bool", "ArrayBool")), ("i8", ("i8", "ArrayI8")), ("i16", ("i16", "ArrayI16")),
    ("i32", ("i32", "ArrayI32")), ("i64", ("i64", "ArrayI64")), ("u8", ("u8", "ArrayU8")),
    ("u16", ("u16", "ArrayU16")), ("u32", ("u32", "ArrayU32")), ("u64", ("u64", "ArrayU64")),
    ("f32", ("f32", "ArrayF32")), ("f64", ("f64", "ArrayF64")),
    ("str", ("StrUTF8", "ArrayStrUTF8"))].map
      (fun p => (p.1.toList, if repeated then p.2.2.toList else p.2.1.toList))).lookup w

/-- `get_struct` and `get_enum`, `store.rs` L85-91. -/
def Store.structById (s : Store) (id : Nat) : Option Struct := s.structs.find? (fun t => t.id == id)

@[inherit_doc Store.structById]
def Store.enumById (s : Store) (id : Nat) : Option Enum := s.enums.find? (fun e => e.id == id)

/-- The loops of `get_struct_path` and `get_enum_path`, `store.rs` L417-467: the names of the groups
around, outermost first; an unknown group stops the tool. `fuel` bounds the nesting; parents have
smaller ids (proved: `GInv.older`). -/
def Store.groupNames (s : Store) : Nat → Nat → Option (List Name)
  | 0, _ => none
  | _ + 1, 0 => some []
  | fuel + 1, parent =>
    match s.getGroup parent with
    | none => none
    | some g => (s.groupNames fuel g.parent).map (· ++ [g.name])

/-- `get_struct_path`, `store.rs` L417-441. -/
def Store.structPath (s : Store) (t : Struct) : Option (List Name) :=
  (s.groupNames (s.sequence + 1) t.parent).map (· ++ [t.name])

/-- `get_enum_path`, `store.rs` L443-467. -/
def Store.enumPath (s : Store) (e : Enum) : Option (List Name) :=
  (s.groupNames (s.sequence + 1) e.parent).map (· ++ [e.name])

/-- `get_type_ref` L1415-1447: here the kind decides first. -/
def Store.tsDecl (s : Store) (f : Field) : Option TsDecl :=
  match rustPrim f.kind with
  | some _ => some .prim
  | none =>
    match f.refTypeId with
    | none => none
    | some id =>
      match s.structById id with
      | some t => (s.structPath t).map .struct
      | none =>
        match s.enumById id with
        | some e => some (.enum e.name)
        | none => none

/-- `get_field_encode` L1337-1380 with `get_field_decode` L1150-1335: here the reference decides
first. Encoding one struct calls a method of the value and prints no name. -/
def Store.tsCode (s : Store) (f : Field) : Option TsCode :=
  match f.refTypeId with
  | some id =>
    match s.structById id with
    | some t => do
      let path ← s.structPath t
      if f.repeated then pure (.structs path t.name) else pure (.struct path f.typePath)
    | none =>
      match s.enumById id with
      | some e => some (.enum e.name)
      | none => none
  | none => (tsPrim f.kind f.repeated).map .prim

/-- One field of a class, `structs` L102-112, L180-187, L208-215; `get_declare_type_ref`
L1400-1413 makes the type of a repeated field an array. -/
def Store.tsField (s : Store) (f : Field) : Option TsField := do
  let decl ← s.tsDecl f
  let code ← s.tsCode f
  pure ⟨f.id, f.optional, f.repeated, decl, code⟩

/-- The names in one option of `scheme`, `get_field_map_def` L1075-1088: the class of a struct under
its bare name. -/
def Store.tsItemLoads (s : Store) (v : EnumItem) : Option (List (List Name)) :=
  match v.refTypeId with
  | some i =>
    match s.structById i with
    | some t => some [[t.name]]
    | none => none
  | none =>
    match v.types with
    | some w => (tsPrim w v.repeated).map (fun _ => [])
    | none => none

/-- The names in one line of `scheme`, `get_field_map_def` L1054-1101: the class of a struct under
its full path; for an enum the names of its options. -/
def Store.tsLoads (s : Store) (f : Field) : Option (List (List Name)) :=
  match f.refTypeId with
  | some id =>
    match s.structById id with
    | some t => (s.structPath t).map (fun p => [p])
    | none =>
      match s.enumById id with
      | some e => (mapAll s.tsItemLoads e.variants).map List.flatten
      | none => some []
  | none => (tsPrim f.kind f.repeated).map (fun _ => [])

/-- `structs` L53-235. -/
def Store.tsStruct (s : Store) (t : Struct) : Option TsStruct := do
  let fields ← mapAll s.tsField t.fields
  let loads ← mapAll s.tsLoads t.fields
  pure ⟨t.id, t.parent, t.name, fields, loads.flatten⟩

/-- One option, `enum_getter` L269-307: the primitive type decides first; `repeated` is not looked
at for a struct; an enum stops the tool. -/
def Store.tsItem (s : Store) (v : EnumItem) : Option TsItem :=
  match v.types with
  | some w => (tsPrim w v.repeated).map .prim
  | none =>
    match v.refTypeId with
    | none => none
    | some id =>
      match s.structById id with
      | some t => (s.structPath t).map .struct
      | none => none

/-- `enums` L581-736. -/
def Store.tsEnum (s : Store) (e : Enum) : Option TsEnum := do
  let items ← mapAll s.tsItem e.variants
  pure ⟨e.id, e.parent, e.name, items⟩

/-- The structs of a namespace and of the namespaces in it, in the order of their definition:
`groups` L17-51. The ids of a group's structs are looked up, L33-41. `fuel` bounds the nesting. -/
def Store.structsBelow (s : Store) : Nat → Group → List Struct
  | 0, _ => []
  | fuel + 1, g =>
    g.structs.filterMap s.structById ++
      (s.groups.filter (fun h => h.parent == g.id)).flatMap (s.structsBelow fuel)

/-- All structs in the order of their definition: `render` L1764-1775. -/
def Store.tsOrder (s : Store) : List Struct :=
  s.structs.filter (fun t => t.parent == 0) ++
    (s.groups.filter (fun h => h.parent == 0)).flatMap (s.structsBelow (s.sequence + 1))

/-- The enums of a namespace and of the namespaces in it. -/
def Store.enumsBelow (s : Store) : Nat → Group → List Enum
  | 0, _ => []
  | fuel + 1, g =>
    g.enums.filterMap s.enumById ++
      (s.groups.filter (fun h => h.parent == g.id)).flatMap (s.enumsBelow fuel)

/-- All enums in the order of their definition: `render` L1758-1763, `groups` L24-32. -/
def Store.tsEnumOrder (s : Store) : List Enum :=
  s.enums.filter (fun e => e.parent == 0) ++
    (s.groups.filter (fun h => h.parent == 0)).flatMap (s.enumsBelow (s.sequence + 1))

/-- `get_entity_path` L1590-1606: like `groupNames`, but an unknown group ends the path. -/
def Store.keysTo (s : Store) : Nat → Nat → List Name
  | 0, _ => []
  | _ + 1, 0 => []
  | fuel + 1, parent =>
    match s.getGroup parent with
    | none => []
    | some g => s.keysTo fuel g.parent ++ [g.name]

/-- The arms for enums, `buffer` L1639-1660 with `get_available_entity` L1608-1621. -/
def Store.tsEnumArm (s : Store) (e : Enum) : Option TsArm :=
  (s.enumPath e).map (fun p => ⟨e.id, p, s.keysTo (s.sequence + 1) e.parent ++ [e.name]⟩)

/-- The arms for structs, `buffer` L1661-1674. -/
def Store.tsStructArm (s : Store) (t : Struct) : Option TsArm :=
  (s.structPath t).map (fun p => ⟨t.id, p, s.keysTo (s.sequence + 1) t.parent ++ [t.name]⟩)

/-- The printed file: `render` L1751-1784 with `buffer` L1623-1681. -/
def Store.tsFile (s : Store) (signature : UInt16) : Option TsFile := do
  let enums ← mapAll s.tsEnum s.tsEnumOrder
  let structs ← mapAll s.tsStruct s.tsOrder
  let ea ← mapAll s.tsEnumArm s.enums
  let sa ← mapAll s.tsStructArm s.structs
  pure ⟨signature.toNat, enums, structs, ea, sa⟩

end Verif.Prot
