import Verif.Model.Bytes
set_option autoImplicit false
/-!
Model of the protocol store of the command line tool: `cli/src/protocol/store.rs`, `structs.rs`,
`fields.rs`, `enums.rs`, `groups.rs`, `types.rs`, `entities.rs` (cited without the directory).

`Res.err` stands for `stop!` (`cli/src/main.rs` L10-16: message and exit status 1), `Res.panic` for
a Rust panic. `usize` counters are unbounded. The hash of the source file and the field
`ref_type` (never set, `fields.rs` L2-6, L15) are left out.
-/
namespace Verif.Prot

open Verif

/-- A name; the lexer lets through ASCII letters, digits and `_` only. -/
abbrev Name := List Char

/-- `Field`, `fields.rs` L10-21. -/
structure Field where
  id : Nat
  parent : Nat
  name : Name
  kind : Name
  refTypeId : Option Nat
  refTypePath : List Nat
  repeated : Bool
  optional : Bool
  typePath : List Name
  deriving DecidableEq

/-- `Struct`, `structs.rs` L3-10. -/
structure Struct where
  id : Nat
  parent : Nat
  name : Name
  fields : List Field
  path : List Name
  deriving DecidableEq

/-- `EnumItem`, `enums.rs` L3-11; `types` is kept as the name of the primitive type. -/
structure EnumItem where
  name : Name
  types : Option Name
  refTypeId : Option Nat
  refTypePath : List Nat
  repeated : Bool
  typePath : List Name
  deriving DecidableEq

/-- `Enum`, `enums.rs` L57-65. -/
structure Enum where
  id : Nat
  parent : Nat
  name : Name
  variants : List EnumItem
  path : List Name
  current : Option EnumItem
  deriving DecidableEq

/-- `Group`, `groups.rs` L1-9. -/
structure Group where
  id : Nat
  parent : Nat
  name : Name
  structs : List Nat
  enums : List Nat
  groups : List Nat
  deriving DecidableEq

/-- `Store`, `store.rs` L5-17. -/
structure Store where
  sequence : Nat
  structs : List Struct
  enums : List Enum
  groups : List Group
  cStruct : Option Struct
  cGroup : Option Group
  cEnum : Option Enum
  cField : Option Field
  path : List Nat
  deriving DecidableEq

/-- `Store::new`, `store.rs` L21-34. -/
def Store.new : Store := ⟨0, [], [], [], none, none, none, none, []⟩

/-- `PrimitiveTypes::get_entity(..).is_some()`, `types.rs` L46-64. -/
def isPrimitive (w : Name) : Bool :=
  [['b', 'o', 'o', 'l'], ['c', 'h', 'a', 'r'], ['i', '8'], ['i', '1', '6'], ['i', '3', '2'],
   ['i', '6', '4'], ['i', 's', 'i', 'z', 'e'], ['u', '8'], ['u', '1', '6'], ['u', '3', '2'],
   ['u', '6', '4'], ['u', 's', 'i', 'z', 'e'], ['f', '3', '2'], ['f', '6', '4'],
   ['s', 't', 'r']].contains w

/-- `get_group`, `store.rs` L93-95. -/
def Store.getGroup (s : Store) (id : Nat) : Option Group := s.groups.find? (fun g => g.id == id)

/-- The loop of `get_path_by_parent`, `store.rs` L123-126: names of the groups from `parent`
outwards. `fuel` bounds the number of rounds; it starts at the first id, and a group always has a
larger id than its parent (proved: `GInv.older`), so it never runs out. -/
def Store.climb (s : Store) : Nat → Nat → List Name
  | 0, _ => []
  | fuel + 1, parent =>
    match s.getGroup parent with
    | none => []
    | some g => g.name :: s.climb fuel g.parent

/-- `get_path_by_parent`, `store.rs` L107-130. -/
def Store.pathByParent (s : Store) (parent : Nat) : List Name :=
  if parent = 0 then []
  else
    match (match s.getGroup parent with
      | some g => some g
      | none => s.cGroup) with
    | none => []
    | some first =>
      if first.parent ≠ 0 then (first.name :: s.climb first.parent first.parent).reverse
      else [first.name]

/-- `get_group_id`, `store.rs` L469-475. -/
def Store.groupId (s : Store) : Nat :=
  match s.cGroup with
  | some g => g.id
  | none => 0

/-- `open_struct`, `store.rs` L132-148, with `bind_struct_with_group` L477-482. -/
def Store.openStruct (s : Store) (name : Name) : Res Store :=
  if s.cStruct.isSome then .err
  else if s.cEnum.isSome then .err
  else
    let id := s.sequence + 1
    let s1 := { s with
      sequence := id
      cGroup := s.cGroup.map (fun g : Group => { g with structs := g.structs ++ [id] }) }
    .ok { s1 with cStruct := some ⟨id, s1.groupId, name, [], s1.pathByParent s1.groupId⟩ }

/-- `open_enum`, `store.rs` L150-166, with `bind_enum_with_group` L484-489. -/
def Store.openEnum (s : Store) (name : Name) : Res Store :=
  if s.cStruct.isSome then .err
  else if s.cEnum.isSome then .err
  else
    let id := s.sequence + 1
    let s1 := { s with
      sequence := id
      cGroup := s.cGroup.map (fun g : Group => { g with enums := g.enums ++ [id] }) }
    .ok { s1 with cEnum := some ⟨id, s1.groupId, name, [], s1.pathByParent s1.groupId, none⟩ }

/-- `open_group`, `store.rs` L168-180, with `bind_group_with_group` L491-497: the enclosing group
is put back on the list. -/
def Store.openGroup (s : Store) (name : Name) : Res Store :=
  if s.cStruct.isSome then .err
  else if s.cEnum.isSome then .err
  else
    let id := s.sequence + 1
    .ok { s with
      sequence := id
      groups := match s.cGroup with
        | some g => s.groups ++ [{ g with groups := g.groups ++ [id] }]
        | none => s.groups
      cGroup := some ⟨id, s.groupId, name, [], [], []⟩
      path := s.path ++ [id] }

/-- `set_field_type`, `store.rs` L182-194, with `Field::new` and `add_type_path`
(`fields.rs` L24-37, L75-77). -/
def Store.setFieldType (s : Store) (w : Name) : Res Store :=
  if s.cStruct.isNone then .err
  else
    match s.cField with
    | some f => .ok { s with cField := some { f with typePath := f.typePath ++ [w] } }
    | none => .ok { s with
        sequence := s.sequence + 1
        cField := some ⟨s.sequence + 1, 0, [], w, none, [], false, false, [w]⟩ }

/-- `find_by_path`, `store.rs` L206-241: groups on the way, an enum or else a struct at the end.
Only closed declarations are found. An empty path (which no caller passes) panics in the source,
here it is not found. -/
def Store.findByPath (s : Store) : Nat → List Name → Option (List (Name × Nat))
  | _, [] => none
  | parent, [w] =>
    match s.enums.find? (fun i => i.name == w && i.parent == parent) with
    | some e => some [(w, e.id)]
    | none =>
      match s.structs.find? (fun i => i.name == w && i.parent == parent) with
      | some t => some [(w, t.id)]
      | none => none
  | parent, w :: w2 :: rest =>
    match s.groups.find? (fun i => i.name == w && i.parent == parent) with
    | some g => (s.findByPath g.id (w2 :: rest)).map (fun r => (w, g.id) :: r)
    | none => none

/-- `get_struct_by_str_path`, `store.rs` L243-274; the path is given in parts. -/
def Store.structByPath (s : Store) : Nat → List Name → Option Struct
  | _, [] => none
  | parent, [w] => s.structs.find? (fun i => i.name == w && i.parent == parent)
  | parent, w :: w2 :: rest =>
    match s.groups.find? (fun i => i.name == w && i.parent == parent) with
    | some g => s.structByPath g.id (w2 :: rest)
    | none => none

/-- The lookup of `accept_type`, `fields.rs` L107-115 and `enums.rs` L26-34: first from the own
group, then from the root. -/
def Store.resolve (s : Store) (own : Nat) (path : List Name) : Option (List (Name × Nat)) :=
  match s.findByPath own path with
  | some r => some r
  | none => s.findByPath 0 path

/-- `Field::accept_type`, `fields.rs` L99-124. -/
def Field.acceptType (f : Field) (s : Store) (own : Nat) : Res Field :=
  match f.typePath with
  | [] => .err
  | first :: more =>
    if more.isEmpty && isPrimitive first then .ok { f with kind := first }
    else
      match s.resolve own f.typePath with
      | none => .err
      | some r =>
        match r.getLast? with
        | none => .panic
        | some (n, id) => .ok { f with
            refTypeId := some id, kind := n, refTypePath := r.dropLast.map Prod.snd }

/-- `EnumItem::accept_type`, `enums.rs` L14-42. -/
def EnumItem.acceptType (f : EnumItem) (s : Store) (own : Nat) : Res EnumItem :=
  match f.typePath with
  | [] => .err
  | first :: more =>
    if more.isEmpty && isPrimitive first then .ok { f with types := some first }
    else
      match s.resolve own f.typePath with
      | none => .err
      | some r =>
        match r.getLast? with
        | none => .panic
        | some (_, id) => .ok { f with
            refTypeId := some id, refTypePath := r.dropLast.map Prod.snd }

/-- `set_field_type_as_repeated`, `store.rs` L276-286, with `enums.rs` L111-118. -/
def Store.setRepeated (s : Store) : Res Store :=
  match s.cEnum with
  | some e =>
    match e.current with
    | some c => .ok { s with cEnum := some { e with current := some { c with repeated := true } } }
    | none => .err
  | none =>
    match s.cField with
    | some f => .ok { s with cField := some { f with repeated := true } }
    | none => .err

/-- `set_field_type_as_optional`, `store.rs` L288-295. -/
def Store.setOptional (s : Store) : Res Store :=
  match s.cField with
  | some f => .ok { s with cField := some { f with optional := true } }
  | none => .err

/-- `set_field_name`, `store.rs` L297-315. -/
def Store.setFieldName (s : Store) (w : Name) : Res Store :=
  if s.cStruct.isNone then .err
  else
    match s.cField with
    | none => .err
    | some f => do
      let f2 ← ({ f with name := w } : Field).acceptType s s.groupId
      pure { s with cField := some f2 }

/-- `close_field`, `store.rs` L317-329, with `add_field`, `structs.rs` L23-33: a second field of
the same name stops the tool. -/
def Store.closeField (s : Store) : Res Store :=
  match s.cStruct with
  | none => .err
  | some t =>
    match s.cField with
    | none => .err
    | some f =>
      if t.fields.any (fun g => g.name == f.name) then .err
      else .ok { s with
        cStruct := some { t with fields := t.fields ++ [{ f with parent := t.id }] }
        cField := none }

/-- `set_enum_type`, `store.rs` L331-338, with `Enum::add_type_path`, `enums.rs` L135-151. -/
def Store.setEnumType (s : Store) (w : Name) : Res Store :=
  match s.cEnum with
  | none => .err
  | some e =>
    match e.current with
    | some c => .ok { s with
        cEnum := some { e with current := some { c with typePath := c.typePath ++ [w] } } }
    | none => .ok { s with
        cEnum := some { e with current := some ⟨[], none, none, [], false, [w]⟩ } }

/-- `set_simple_enum_item`, `store.rs` L340-347, with `Enum::set_simple`, `enums.rs` L120-133. -/
def Store.setSimple (s : Store) (w : Name) : Res Store :=
  match s.cEnum with
  | none => .err
  | some e =>
    if e.current.isSome then .err
    else .ok { s with
      cEnum := some { e with
        variants := e.variants ++ [⟨w, some ['s', 't', 'r'], none, [], false, []⟩]
        current := none } }

/-- `set_enum_name`, `store.rs` L349-364, with `enums.rs` L79-87, L157-163. -/
def Store.setEnumName (s : Store) (w : Name) : Res Store :=
  match s.cEnum with
  | none => .err
  | some e =>
    match e.current with
    | none => .err
    | some c => do
      let c2 ← c.acceptType { s with cEnum := none } s.groupId
      pure { s with
        cEnum := some { e with variants := e.variants ++ [{ c2 with name := w }], current := none } }

/-- `open`, `store.rs` L374-378. -/
def Store.openBody (s : Store) : Res Store :=
  if s.cGroup.isNone && s.cStruct.isNone && s.cEnum.isNone then .err else .ok s

/-- `close`, `store.rs` L380-405: an enum, else a struct, else the group. The enclosing group is
taken back from the list. -/
def Store.close (s : Store) : Res Store :=
  match s.cEnum with
  | some e => .ok { s with enums := s.enums ++ [e], cEnum := none }
  | none =>
    match s.cStruct with
    | some t => .ok { s with structs := s.structs ++ [t], cStruct := none }
    | none =>
      match s.cGroup with
      | none => .err
      | some g =>
        let groups := s.groups ++ [g]
        if s.path.isEmpty then .panic
        else
          let path := s.path.dropLast
          match path.getLast? with
          | none => .ok { s with groups := groups, path := path, cGroup := none }
          | some top =>
            match groups.find? (fun x => x.id == top) with
            | none => .err
            | some p => .ok { s with
                groups := groups.eraseP (fun x => x.id == top), path := path, cGroup := some p }

/-- The name of the group of service structs, `store.rs` L3. -/
def serviceGroup : Name := "InternalServiceGroup".toList

/-- Give the fields of a service struct their ids, `store.rs` L75-79 and `structs.rs` L35-40. -/
def numberFields (parent : Nat) : Nat → List Field → List Field
  | _, [] => []
  | seq, f :: fs => { f with id := seq + 1, parent := parent } :: numberFields parent (seq + 1) fs

/-- `add_service_struct`, `store.rs` L40-83. The fields are `create_not_assigned_primitive`
fields of `fields.rs` L39-61. -/
def Store.addService (s : Store) (name : Name) (fields : List Field) : Store :=
  let isService (g : Group) : Bool := g.name == serviceGroup && g.parent == 0
  let s1 := if s.groups.any isService then s
    else { s with
      sequence := s.sequence + 1
      groups := s.groups ++ [⟨s.sequence + 1, 0, serviceGroup, [], [], []⟩] }
  match s1.groups.find? isService with
  | none => s1
  | some g =>
    let id := s1.sequence + 1
    let t : Struct := ⟨id, g.id, name, numberFields id id fields, s1.pathByParent g.id⟩
    { s1 with
      sequence := id + fields.length
      groups := s1.groups.map (fun x =>
        if x.id == g.id then { x with structs := x.structs ++ [id] } else x)
      structs := s1.structs ++ [t] }

end Verif.Prot
