import Verif.Spec.Codec
set_option autoImplicit false
/-!
Vocabulary for statements about messages that pass through generated TypeScript code.
-/
namespace Verif.Spec

open Verif

mutual
/-- Schemas the TypeScript generator supports: property ids of a struct are distinct and below
256, an enum has at most 2^16 variants, no field is a repeated enum, no variant carries an enum or
a repeated struct. -/
def TsElemOk : Elem → Prop
  | .num _ => True
  | .bool => True
  | .str => True
  | .struct fs => TsFieldsOk fs
  | .enum vs => TsVariantsOk vs ∧ vs.count ≤ 65536
def TsFieldsOk : Fields → Prop
  | .nil => True
  | .cons id e rep _ rest =>
    TsElemOk e ∧ id ∉ rest.ids ∧ id.toNat < 256 ∧ ¬ (rep = true ∧ ∃ vs, e = .enum vs) ∧ TsFieldsOk rest
def TsVariantsOk : Variants → Prop
  | .nil => True
  | .cons e rep rest =>
    TsElemOk e ∧ (¬ ∃ vs, e = .enum vs) ∧ ¬ (rep = true ∧ ∃ fs, e = .struct fs) ∧ TsVariantsOk rest
end

/-- The string does not start with U+FEFF. -/
def NoBom (s : List Char) : Prop := s.head? ≠ some (Char.ofNat 0xFEFF)

/-- A value without content: the empty string, a struct that has no fields, an enum without
option. -/
def TsNoContent : (e : Elem) → e.Val → Prop
  | .str, s => s = []
  | .struct .nil, _ => True
  | .enum _, w => w = none
  | _, _ => False

mutual
/-- The values for which transport between TypeScript peers is claimed to be exact:
* no string starts with U+FEFF,
* no optional field is present without content,
* strings inside arrays are shorter than 2^32 bytes.
Enums without option and variants with empty payload are included. -/
def TsElemClean : (e : Elem) → e.Val → Prop
  | .num _, _ => True
  | .bool, _ => True
  | .str, s => NoBom s
  | .struct fs, v => TsFieldsClean fs v
  | .enum _, none => True
  | .enum vs, some w => TsVariantsClean vs w
def TsArrayClean : (e : Elem) → List e.Val → Prop
  | .num _, _ => True
  | .bool, _ => True
  | .str, ss => ∀ s ∈ ss, NoBom s ∧ (utf8 s).length < 2 ^ 32
  | .struct fs, vs => ∀ v ∈ vs, TsFieldsClean fs v
  | .enum _, _ => False
def TsFieldsClean : (fs : Fields) → fs.Val → Prop
  | .nil, _ => True
  | .cons _ e false false rest, (x, xs) => TsElemClean e x ∧ TsFieldsClean rest xs
  | .cons _ e true false rest, (x, xs) => TsArrayClean e x ∧ TsFieldsClean rest xs
  | .cons _ e false true rest, (x, xs) =>
    (∀ y, x = some y → TsElemClean e y ∧ ¬ TsNoContent e y) ∧ TsFieldsClean rest xs
  | .cons _ e true true rest, (x, xs) =>
    (∀ y, x = some y → TsArrayClean e y ∧ y ≠ []) ∧ TsFieldsClean rest xs
def TsVariantsClean : (vs : Variants) → vs.Val → Prop
  | .cons e false _, .inl x => TsElemClean e x
  | .cons e true _, .inl x => TsArrayClean e x
  | .cons _ _ rest, .inr y => TsVariantsClean rest y
end

mutual
/-- Schemas without enums whose arrays are arrays of numbers or bools. -/
def TsPlainElem : Elem → Prop
  | .num _ => True
  | .bool => True
  | .str => True
  | .struct fs => TsPlain fs
  | .enum _ => False
def TsPlain : Fields → Prop
  | .nil => True
  | .cons _ e rep _ rest =>
    TsPlainElem e ∧ (rep = true → (∃ n, e = .num n) ∨ e = .bool) ∧ TsPlain rest
end

/-- Replace the value of the field at a position. The type of the new value is that of the
field; an index behind the last field changes nothing. -/
def setField : (fs : Fields) → Nat → ((e : Elem) → (rep opt : Bool) →
    Opt (Rep e.Val rep) opt → Opt (Rep e.Val rep) opt) → fs.Val → fs.Val
  | .nil, _, _, v => v
  | .cons _ e rep opt _, 0, f, (x, xs) => (f e rep opt x, xs)
  | .cons _ _ _ _ rest, i + 1, f, (x, xs) => (x, setField rest i f xs)

/-- Is the field at this position of an enum type. -/
def isEnumField : Fields → Nat → Prop
  | .nil, _ => False
  | .cons _ e _ _ _, 0 => ∃ vs, e = .enum vs
  | .cons _ _ _ _ rest, i + 1 => isEnumField rest i

end Verif.Spec
