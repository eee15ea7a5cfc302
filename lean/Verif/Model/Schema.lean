import Verif.Model.Utf8
/-!
Protocol schemas as they reach the code generators, and the values of the generated types.
-/
namespace Verif

/-- Numeric primitive types. Models the numeric members of `ETypes`,
`cli/src/protocol/types.rs` (`char`, `isize`, `usize` are rejected by the Rust renderer,
`cli/src/protocol/render/rust/mod.rs` L561-582). -/
inductive Num where
  | u8 | u16 | u32 | u64 | i8 | i16 | i32 | i64 | f32 | f64
  deriving DecidableEq, Repr

/-- Byte sizes: `sizes::U8_LEN` … `sizes::F64_LEN` (used in `protocol.encode.rs` L94-202). -/
def Num.size : Num → Nat
  | .u8 => 1 | .i8 => 1
  | .u16 => 2 | .i16 => 2
  | .u32 => 4 | .i32 => 4 | .f32 => 4
  | .u64 => 8 | .i64 => 8 | .f64 => 8

mutual
/-- The type of one element. A reference to a struct or enum is replaced by its declaration.
Models `Field.kind` / `Field.ref_type_id` (`cli/src/protocol/fields.rs`) and
`EnumItem.types` / reference (`cli/src/protocol/enums.rs`).
Simplification: schemas are finite trees; a struct that contains itself through a vector is
covered only up to an arbitrary but fixed nesting depth. -/
inductive Elem where
  | num (n : Num)
  | bool
  | str
  | struct (fs : Fields)
  | enum (vs : Variants)
/-- Fields of a struct in declaration order: property id, element type, `repeated`, `optional`.
Models `Struct.fields`, `cli/src/protocol/structs.rs`, `cli/src/protocol/fields.rs`. -/
inductive Fields where
  | nil
  | cons (id : UInt16) (e : Elem) (rep opt : Bool) (rest : Fields)
/-- Variants of an enum in declaration order: payload element type, `repeated`.
Models `Enum.variants`, `cli/src/protocol/enums.rs`. -/
inductive Variants where
  | nil
  | cons (e : Elem) (rep : Bool) (rest : Variants)
end

/-- `Vec<T>` if repeated, else `T` (`rust/mod.rs` `get_declare_type_ref`, L548-553). -/
abbrev Rep (α : Type) : Bool → Type
  | true => List α
  | false => α

/-- `Option<..>` if optional (`rust/mod.rs` `get_declare_type_ref`, L555-557). -/
abbrev Opt (α : Type) : Bool → Type
  | true => Option α
  | false => α

mutual
/-- Values of the generated Rust type of an element. Numbers are represented by their bit
pattern (two's complement / IEEE bits), which `to_le_bytes` and `get_*_le` copy unchanged.
`none` for an enum is the extra variant `Defaults` (`rust/mod.rs` L286). -/
@[reducible] def Elem.Val : Elem → Type
  | .num n => Fin (256 ^ n.size)
  | .bool => Bool
  | .str => List Char
  | .struct fs => fs.Val
  | .enum vs => Option vs.Val
/-- A struct value is the tuple of its field values (`rust/mod.rs` L53-63). -/
@[reducible] def Fields.Val : Fields → Type
  | .nil => Unit
  | .cons _ e rep opt rest => Opt (Rep e.Val rep) opt × rest.Val
/-- A value of an enum is one of its variants with payload (`rust/mod.rs` L268-285). -/
@[reducible] def Variants.Val : Variants → Type
  | .nil => Empty
  | .cons e rep rest => Rep e.Val rep ⊕ rest.Val
end

/-- Property ids of a struct. -/
def Fields.ids : Fields → List UInt16
  | .nil => []
  | .cons id _ _ _ rest => id :: rest.ids

/-- Number of variants of an enum. -/
def Variants.count : Variants → Nat
  | .nil => 0
  | .cons _ _ rest => rest.count + 1

end Verif
