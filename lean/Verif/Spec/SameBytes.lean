import Verif.Spec.Codec
set_option autoImplicit false
/-!
Vocabulary for statements about bytes that programs of either language read.
-/
namespace Verif.Spec

open Verif

/-- The number that bytes stand for, the lowest byte first. -/
def littleEndian (b : Bytes) : Nat := b.foldr (fun x n => x.toNat + 256 * n) 0

/-- The last record with an id. -/
def IsLast (rs : List WireRec) (id : UInt16) (r : WireRec) : Prop :=
  ∃ before after, rs = before ++ r :: after ∧ r.id = id ∧ ∀ q ∈ after, q.id ≠ id

mutual
/-- The bytes stand for the same in both languages: booleans are 0 or 1, strings do not begin with a byte order mark, structs
are complete records with ids below 256, which are clean again, and enums have a clean value of at least one byte behind
their position. -/
def CleanBody : Elem → Bytes → Prop
  | .bool, b => ∀ x ∈ b, x = 0 ∨ x = 1
  | .str, b => ¬ [0xEF, 0xBB, 0xBF] <+: b
  | .struct fs, b => ∃ rs : List WireRec, b = wire rs ∧ (∀ r ∈ rs, r.Ok ∧ r.id.toNat < 256) ∧ CleanRecs fs rs
  | .enum vs, b => 2 < b.length ∧ CleanOption vs (littleEndian (b.take 2)) (b.drop 2)
  | .num _, _ => True
/-- The same for arrays: items of strings and structs are complete and clean. -/
def CleanArray : Elem → Bytes → Prop
  | .bool, b => ∀ x ∈ b, x = 0 ∨ x = 1
  | .str, b => ∃ items, b = itemsBytes 4 items ∧ ∀ i ∈ items, i.length < 2 ^ 32 ∧ ¬ [0xEF, 0xBB, 0xBF] <+: i
  | .struct fs, b => ∃ items, b = itemsBytes 8 items ∧ ∀ i ∈ items, i.length + 8 < 2 ^ 64 ∧
    ∃ rs : List WireRec, i = wire rs ∧ (∀ r ∈ rs, r.Ok ∧ r.id.toNat < 256) ∧ CleanRecs fs rs
  | .num _, _ => True
  | .enum _, _ => True
/-- The value of the option at a position is clean. -/
def CleanOption : Variants → Nat → Bytes → Prop
  | .nil, _, _ => True
  | .cons e rep _, 0, b => (rep = false → CleanBody e b) ∧ (rep = true → CleanArray e b)
  | .cons _ _ rest, i + 1, b => CleanOption rest i b
/-- The last records of all fields are clean; those of optional fields may be empty. -/
def CleanRecs : Fields → List WireRec → Prop
  | .nil, _ => True
  | .cons id e rep opt rest, rs =>
    (∀ r, IsLast rs id r → (opt = true ∧ r.body = []) ∨
      ((rep = false → CleanBody e r.body) ∧ (rep = true → CleanArray e r.body))) ∧ CleanRecs rest rs
end

mutual
/-- The bytes have the exact size of numbers and booleans. -/
def ExactBody : Elem → Bytes → Prop
  | .num n, b => b.length = n.size
  | .bool, b => b.length = 1
  | .str, _ => True
  | .struct fs, b => ∀ rs : List WireRec, b = wire rs → ExactRecs fs rs
  | .enum vs, b => ExactOption vs (littleEndian (b.take 2)) (b.drop 2)
/-- The same for arrays, which are not of enums. -/
def ExactArray : Elem → Bytes → Prop
  | .struct fs, b => ∀ items, b = itemsBytes 8 items → ∀ rs : List WireRec, wire rs ∈ items → ExactRecs fs rs
  | .enum _, _ => False
  | _, _ => True
/-- The same for the option at a position, which is no enum and no array of structs or enums. -/
def ExactOption : Variants → Nat → Bytes → Prop
  | .nil, _, _ => True
  | .cons e rep _, 0, b => (∀ vs, e ≠ .enum vs) ∧ (rep = true → ∀ fs, e ≠ .struct fs) ∧ (rep = false → ExactBody e b)
  | .cons _ _ rest, i + 1, b => ExactOption rest i b
/-- The same for the last records of all fields. -/
def ExactRecs : Fields → List WireRec → Prop
  | .nil, _ => True
  | .cons id e rep opt rest, rs =>
    (∀ r, IsLast rs id r → (opt = true ∧ r.body = []) ∨
      ((rep = false → ExactBody e r.body) ∧ (rep = true → ExactArray e r.body))) ∧ ExactRecs rest rs
end

mutual
/-- Booleans are 0 or 1, strings do not begin with a byte order mark, and records have ids below 256, as far as the bytes
consist of such parts. -/
def PlainBody : Elem → Bytes → Prop
  | .num _, _ => True
  | .bool, b => ∀ x ∈ b, x = 0 ∨ x = 1
  | .str, b => ¬ [0xEF, 0xBB, 0xBF] <+: b
  | .struct fs, b => ∀ rs : List WireRec, (∀ r ∈ rs, r.Ok) → b = wire rs → (∀ r ∈ rs, r.id.toNat < 256) ∧ PlainRecs fs rs
  | .enum vs, b => PlainOption vs (littleEndian (b.take 2)) (b.drop 2)
/-- The same for arrays. -/
def PlainArray : Elem → Bytes → Prop
  | .num _, _ => True
  | .bool, b => ∀ x ∈ b, x = 0 ∨ x = 1
  | .str, b => ∀ items, b = itemsBytes 4 items → ∀ i ∈ items, ¬ [0xEF, 0xBB, 0xBF] <+: i
  | .struct fs, b => ∀ items, b = itemsBytes 8 items → ∀ rs : List WireRec, (∀ r ∈ rs, r.Ok) → wire rs ∈ items →
    (∀ r ∈ rs, r.id.toNat < 256) ∧ PlainRecs fs rs
  | .enum _, _ => True
/-- The same for the option at a position. -/
def PlainOption : Variants → Nat → Bytes → Prop
  | .nil, _, _ => True
  | .cons e rep _, 0, b => (rep = false → PlainBody e b) ∧ (rep = true → PlainArray e b)
  | .cons _ _ rest, i + 1, b => PlainOption rest i b
/-- The same for the last records of all fields. -/
def PlainRecs : Fields → List WireRec → Prop
  | .nil, _ => True
  | .cons id e rep _ rest, rs =>
    (∀ r, IsLast rs id r → (rep = false → PlainBody e r.body) ∧ (rep = true → PlainArray e r.body)) ∧ PlainRecs rest rs
end

end Verif.Spec
