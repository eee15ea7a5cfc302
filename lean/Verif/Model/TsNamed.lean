import Verif.Model.RustRender
import Verif.Model.TsValidate
set_option autoImplicit false
/-!
The names of fields and options in generated TypeScript code, `cli/src/protocol/render/typescript/mod.rs`
(`ts/mod.rs`): the types of all declarations with names. Which classes the printed references lead to is
in `Model.TsRender`; here a reference leads to the type with the id that the store found for it, as in
`Model.RustRender`.
-/
namespace Verif.Prot

open Verif Verif.Ts

/-- Primitive types, `get_primitive_ref`, `ts/mod.rs` L1467-1501, and `etype_ts`, L924-1052. -/
def namedPrim (w : Name) : Option NElem :=
  [(['b', 'o', 'o', 'l'], NElem.bool), (['i', '8'], .num .i8), (['i', '1', '6'], .num .i16),
   (['i', '3', '2'], .num .i32), (['i', '6', '4'], .num .i64), (['u', '8'], .num .u8),
   (['u', '1', '6'], .num .u16), (['u', '3', '2'], .num .u32), (['u', '6', '4'], .num .u64),
   (['f', '3', '2'], .num .f32), (['f', '6', '4'], .num .f64), (['s', 't', 'r'], .str)].lookup w

/-- The type of a field, `get_field_map_def`, `get_field_decode` and `get_field_encode`, `ts/mod.rs` L1054-1101,
L1150-1380: a reference decides first. -/
def namedField (ref : Nat → Option NElem) (f : Field) : Option NElem :=
  match f.refTypeId with
  | some id => ref id
  | none => namedPrim f.kind

/-- The type of an option, `ts/mod.rs` L318-348. -/
def namedItem (ref : Nat → Option NElem) (v : EnumItem) : Option NElem :=
  match v.types with
  | some w => namedPrim w
  | none =>
    match v.refTypeId with
    | some id => ref id
    | none => none

/-- The properties of a struct, `ts/mod.rs` L97-107, L175-195: a field is read and written as the property
with its name. Ids from 2^16 on, which do not fit into a record, are cut here. -/
def namedFields (ref : Nat → Option NElem) : List Field → Option NFields
  | [] => some .nil
  | f :: fs => do
    let e ← namedField ref f
    let rest ← namedFields ref fs
    pure (.cons f.name (UInt16.ofNat f.id) e f.repeated f.optional rest)

/-- The properties of an enum, `ts/mod.rs` L309-398. -/
def namedVariants (ref : Nat → Option NElem) : List EnumItem → Option NVariants
  | [] => some .nil
  | v :: vs => do
    let e ← namedItem ref v
    let rest ← namedVariants ref vs
    pure (.cons v.name e v.repeated rest)

/-- The type with an id; a struct has its class and the text of `getSignature` (`ts/mod.rs` L127-132).
`fuel` bounds the nesting. -/
def Store.namedElem (s : Store) : Nat → Nat → Option NElem
  | 0, _ => none
  | fuel + 1, id =>
    match s.structs.find? (fun t => t.id == id) with
    | some t => (namedFields (s.namedElem fuel) t.fields).map (NElem.struct t.id t.name)
    | none =>
      match s.enums.find? (fun e => e.id == id) with
      | some e => (namedVariants (s.namedElem fuel) e.variants).map NElem.enum
      | none => none

/-- One arm of `getMessage` for an enum, `ts/mod.rs` L1623-1681. -/
def Store.namedEnum (s : Store) (e : Enum) : Option (UInt32 × NVariants) := do
  let vs ← namedVariants (s.namedElem (s.sequence + 1)) e.variants
  pure (UInt32.ofNat e.id, vs)

/-- One arm of `getMessage` for a struct, `ts/mod.rs` L1623-1681. -/
def Store.namedStruct (s : Store) (t : Struct) : Option (UInt32 × NFields) := do
  let fs ← namedFields (s.namedElem (s.sequence + 1)) t.fields
  pure (UInt32.ofNat t.id, fs)

end Verif.Prot
