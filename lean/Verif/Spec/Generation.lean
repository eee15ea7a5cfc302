import Verif.Spec.Protocol
import Verif.Model.RustDispatch
set_option autoImplicit false
/-!
What it means that generated code is that of a protocol, independently of the generator.
-/
namespace Verif.Prot

open Verif

/-- The meaning of the names of primitive types in protocol files. -/
inductive PrimMeans : Name → Elem → Prop where
  | bool : PrimMeans "bool".toList .bool
  | str : PrimMeans "str".toList .str
  | i8 : PrimMeans "i8".toList (.num .i8)
  | i16 : PrimMeans "i16".toList (.num .i16)
  | i32 : PrimMeans "i32".toList (.num .i32)
  | i64 : PrimMeans "i64".toList (.num .i64)
  | u8 : PrimMeans "u8".toList (.num .u8)
  | u16 : PrimMeans "u16".toList (.num .u16)
  | u32 : PrimMeans "u32".toList (.num .u32)
  | u64 : PrimMeans "u64".toList (.num .u64)
  | f32 : PrimMeans "f32".toList (.num .f32)
  | f64 : PrimMeans "f64".toList (.num .f64)

mutual
/-- `e` is the type with this id, all references unfolded. -/
inductive TypeIs (s : Store) : Nat → Elem → Prop where
  | struct {t : Struct} {fs : Fields} :
      t ∈ s.structs → FieldsAre s t.fields fs → TypeIs s t.id (.struct fs)
  | enum {e : Enum} {vs : Variants} :
      e ∈ s.enums → VariantsAre s e.variants vs → TypeIs s e.id (.enum vs)
/-- The fields in order, with their ids and flags; a field with a reference has the type it refers
to, others the primitive type of that name. -/
inductive FieldsAre (s : Store) : List Field → Fields → Prop where
  | nil : FieldsAre s [] .nil
  | prim {f : Field} {fs : List Field} {e : Elem} {rest : Fields} :
      f.refTypeId = none → PrimMeans f.kind e → FieldsAre s fs rest →
      FieldsAre s (f :: fs) (.cons (UInt16.ofNat f.id) e f.repeated f.optional rest)
  | ref {f : Field} {fs : List Field} {id : Nat} {e : Elem} {rest : Fields} :
      f.refTypeId = some id → TypeIs s id e → FieldsAre s fs rest →
      FieldsAre s (f :: fs) (.cons (UInt16.ofNat f.id) e f.repeated f.optional rest)
/-- The variants in order. -/
inductive VariantsAre (s : Store) : List EnumItem → Variants → Prop where
  | nil : VariantsAre s [] .nil
  | prim {v : EnumItem} {vs : List EnumItem} {w : Name} {e : Elem} {rest : Variants} :
      v.refTypeId = none → v.types = some w → PrimMeans w e → VariantsAre s vs rest →
      VariantsAre s (v :: vs) (.cons e v.repeated rest)
  | ref {v : EnumItem} {vs : List EnumItem} {id : Nat} {e : Elem} {rest : Variants} :
      v.refTypeId = some id → TypeIs s id e → VariantsAre s vs rest →
      VariantsAre s (v :: vs) (.cons e v.repeated rest)
end

/-- The two lists agree item by item. -/
inductive Pairwise2 {α β : Type} (R : α → β → Prop) : List α → List β → Prop where
  | nil : Pairwise2 R [] []
  | cons {a : α} {b : β} {as : List α} {bs : List β} :
      R a b → Pairwise2 R as bs → Pairwise2 R (a :: as) (b :: bs)

/-- `p` is the protocol described by the store. -/
def Describes (s : Store) (p : Rust.Protocol) : Prop :=
  Pairwise2 (fun (e : Enum) q => q.1.toNat = e.id ∧ VariantsAre s e.variants q.2) s.enums p.enums ∧
  Pairwise2 (fun (t : Struct) q => q.1.toNat = t.id ∧ FieldsAre s t.fields q.2) s.structs p.structs

/-- What the Rust generator supports: `char`, `isize`, `usize` are not used, types are not called
like a primitive type, no field is repeated and optional with an enum type, ids of fields fit in 16
bits and ids of types in 32 bits, and enums have at most 2^16 variants. -/
structure Supported (s : Store) : Prop where
  prims : ∀ t ∈ s.structs, ∀ f ∈ t.fields, f.refTypeId = none →
    f.kind ≠ "char".toList ∧ f.kind ≠ "isize".toList ∧ f.kind ≠ "usize".toList
  items : ∀ e ∈ s.enums, ∀ v ∈ e.variants, ∀ w, v.types = some w →
    w ≠ "char".toList ∧ w ≠ "isize".toList ∧ w ≠ "usize".toList
  names : (∀ t ∈ s.structs, isPrimitive t.name = false) ∧ (∀ e ∈ s.enums, isPrimitive e.name = false)
  plain : ∀ t ∈ s.structs, ∀ f ∈ t.fields, f.repeated = true → f.optional = true →
    ∀ e ∈ s.enums, f.refTypeId ≠ some e.id
  small : (∀ t ∈ s.structs, t.id < 2 ^ 32 ∧ ∀ f ∈ t.fields, f.id < 2 ^ 16) ∧
    (∀ e ∈ s.enums, e.id < 2 ^ 32 ∧ e.variants.length ≤ 2 ^ 16)

end Verif.Prot
