import Verif.Model.ProtocolStore
import Verif.Model.RustDispatch
set_option autoImplicit false
/-!
Model of the decisions of the Rust generator, `cli/src/protocol/render/rust/mod.rs`: which type
each field and each variant gets, and which arms the dispatcher has. `none` stands for a panic of
the generator or for generated code that does not compile.

Simplifications: groups are not modelled; the types of a group that was left open at the end of the
text (see C61) are not rendered at all, so this is a model for finished protocols. The generator
writes a reference as the path found in the source text; here it is the type that the store
resolved that path to. See `Spec/RustNames.lean` for the difference.
-/
namespace Verif.Prot

open Verif

/-- The primitive arms of `get_type_ref`, L560-573, and of `enum_item_type`, L451-464. `char`,
`isize` and `usize` are not among them. -/
def rustPrim (w : Name) : Option Elem :=
  [(['b', 'o', 'o', 'l'], Elem.bool), (['i', '8'], .num .i8), (['i', '1', '6'], .num .i16),
   (['i', '3', '2'], .num .i32), (['i', '6', '4'], .num .i64), (['u', '8'], .num .u8),
   (['u', '1', '6'], .num .u16), (['u', '3', '2'], .num .u32), (['u', '6', '4'], .num .u64),
   (['f', '3', '2'], .num .f32), (['f', '6', '4'], .num .f64), (['s', 't', 'r'], .str)].lookup w

/-- `get_type_ref`, L559-583: the kind decides first, then the reference; else the generator
panics. `ref` is the type with an id. -/
def rustField (ref : Nat → Option Elem) (f : Field) : Option Elem :=
  match rustPrim f.kind with
  | some e => some e
  | none =>
    match f.refTypeId with
    | some id => ref id
    | none => none

/-- `enum_item_type`, L449-473. -/
def rustItem (ref : Nat → Option Elem) (v : EnumItem) : Option Elem :=
  match v.types with
  | some w => rustPrim w
  | none =>
    match v.refTypeId with
    | some id => ref id
    | none => none

/-- The fields of a struct, `structs` L52-264. The id of a field is printed as a literal of type
`u16` (argument of `get_from_storage`), which has to fit. -/
def rustFields (ref : Nat → Option Elem) : List Field → Option Fields
  | [] => some .nil
  | f :: fs =>
    if f.id < 65536 then do
      let e ← rustField ref f
      let rest ← rustFields ref fs
      pure (.cons (UInt16.ofNat f.id) e f.repeated f.optional rest)
    else none

/-- The variants of an enum, `enums` L266-447. -/
def rustVariants (ref : Nat → Option Elem) : List EnumItem → Option Variants
  | [] => some .nil
  | v :: vs => do
    let e ← rustItem ref v
    let rest ← rustVariants ref vs
    pure (.cons e v.repeated rest)

/-- The type with an id: `get_struct`, `get_enum` (`store.rs` L85-91), unfolded. `fuel` bounds the
nesting. -/
def Store.refElem (s : Store) : Nat → Nat → Option Elem
  | 0, _ => none
  | fuel + 1, id =>
    match s.structs.find? (fun t => t.id == id) with
    | some t => (rustFields (s.refElem fuel) t.fields).map Elem.struct
    | none =>
      match s.enums.find? (fun e => e.id == id) with
      | some e => (rustVariants (s.refElem fuel) e.variants).map Elem.enum
      | none => none

/-- One arm of the dispatcher for an enum, `buffer` L750-768; the id is a literal of type `u32`, the
positions of the variants are literals of type `u16` (L322-334). -/
def Store.rustEnum (s : Store) (e : Enum) : Option (UInt32 × Variants) :=
  if e.id < 4294967296 ∧ e.variants.length ≤ 65536 then do
    let vs ← rustVariants (s.refElem (s.sequence + 1)) e.variants
    pure (UInt32.ofNat e.id, vs)
  else none

/-- One arm of the dispatcher for a struct, `buffer` L769-785. -/
def Store.rustStruct (s : Store) (t : Struct) : Option (UInt32 × Fields) :=
  if t.id < 4294967296 then do
    let fs ← rustFields (s.refElem (s.sequence + 1)) t.fields
    pure (UInt32.ofNat t.id, fs)
  else none

/-- `mapM` for options. -/
def mapAll {α β : Type} (f : α → Option β) : List α → Option (List β)
  | [] => some []
  | a :: as => do
    let b ← f a
    let bs ← mapAll f as
    pure (b :: bs)

/-- The generated protocol: `render` L828-863 with `buffer` L738-798. -/
def Store.rustProtocol (s : Store) (signature : UInt16) : Option Rust.Protocol := do
  let es ← mapAll s.rustEnum s.enums
  let ts ← mapAll s.rustStruct s.structs
  pure ⟨signature, es, ts⟩

end Verif.Prot
