import Verif.Model.Schema
/-!
Vocabulary for statements about message transport. Nothing here refers to the encoders or
decoders.
-/
namespace Verif.Spec

open Verif

mutual
/-- Schemas that lead to compilable Rust code: property ids of a struct are distinct, an enum
has at most 2^16 variants, and there is no field that is optional and repeated with an enum
type (for such a field the generated code assigns an enum to an `Option<Vec<_>>`). -/
def ElemOk : Elem → Prop
  | .num _ => True
  | .bool => True
  | .str => True
  | .struct fs => FieldsOk fs
  | .enum vs => VariantsOk vs ∧ vs.count ≤ 65536
def FieldsOk : Fields → Prop
  | .nil => True
  | .cons id e rep opt rest =>
    ElemOk e ∧ id ∉ rest.ids ∧ ¬ (rep = true ∧ opt = true ∧ ∃ vs, e = .enum vs) ∧ FieldsOk rest
def VariantsOk : Variants → Prop
  | .nil => True
  | .cons e _ rest => ElemOk e ∧ VariantsOk rest
end

/-- A value without content: the empty string, or a struct that has no fields. -/
def NoContent : (e : Elem) → e.Val → Prop
  | .str, s => s = []
  | .struct .nil, _ => True
  | _, _ => False

/-- A (possibly repeated) value without content: also the empty vector. -/
def NoContentRep (e : Elem) : (rep : Bool) → Rep e.Val rep → Prop
  | false, x => NoContent e x
  | true, xs => xs = []

mutual
/-- The values for which transport is claimed to be exact:
* no enum is left in its artificial `Defaults` state,
* no enum variant carries a payload without content,
* no optional field is present without content,
* strings inside vectors are shorter than 2^32 bytes. -/
def ElemClean : (e : Elem) → e.Val → Prop
  | .num _, _ => True
  | .bool, _ => True
  | .str, _ => True
  | .struct fs, v => FieldsClean fs v
  | .enum _, none => False
  | .enum vs, some w => VariantsClean vs w
def VecClean : (e : Elem) → List e.Val → Prop
  | .num _, _ => True
  | .bool, _ => True
  | .str, ss => ∀ s ∈ ss, (utf8 s).length < 2 ^ 32
  | .struct fs, vs => ∀ v ∈ vs, FieldsClean fs v
  | .enum vs, ws => ∀ w ∈ ws, ∃ x, w = some x ∧ VariantsClean vs x
def FieldsClean : (fs : Fields) → fs.Val → Prop
  | .nil, _ => True
  | .cons _ e false false rest, (x, xs) => ElemClean e x ∧ FieldsClean rest xs
  | .cons _ e true false rest, (x, xs) => VecClean e x ∧ FieldsClean rest xs
  | .cons _ e false true rest, (x, xs) =>
    (∀ y, x = some y → ElemClean e y ∧ ¬ NoContent e y) ∧ FieldsClean rest xs
  | .cons _ e true true rest, (x, xs) =>
    (∀ y, x = some y → VecClean e y ∧ y ≠ []) ∧ FieldsClean rest xs
def VariantsClean : (vs : Variants) → vs.Val → Prop
  | .cons e false _, .inl x => ElemClean e x ∧ ¬ NoContent e x
  | .cons e true _, .inl x => VecClean e x ∧ x ≠ []
  | .cons _ _ rest, .inr y => VariantsClean rest y
end

mutual
/-- Weaker than `…Clean`: the value can be encoded (no `Defaults`) and strings inside vectors
are shorter than 2^32 bytes. Presence of empty optionals and empty enum payloads is allowed. -/
def ElemSendable : (e : Elem) → e.Val → Prop
  | .num _, _ => True
  | .bool, _ => True
  | .str, _ => True
  | .struct fs, v => FieldsSendable fs v
  | .enum _, none => False
  | .enum vs, some w => VariantsSendable vs w
def VecSendable : (e : Elem) → List e.Val → Prop
  | .num _, _ => True
  | .bool, _ => True
  | .str, ss => ∀ s ∈ ss, (utf8 s).length < 2 ^ 32
  | .struct fs, vs => ∀ v ∈ vs, FieldsSendable fs v
  | .enum vs, ws => ∀ w ∈ ws, ∃ x, w = some x ∧ VariantsSendable vs x
def FieldsSendable : (fs : Fields) → fs.Val → Prop
  | .nil, _ => True
  | .cons _ e false false rest, (x, xs) => ElemSendable e x ∧ FieldsSendable rest xs
  | .cons _ e true false rest, (x, xs) => VecSendable e x ∧ FieldsSendable rest xs
  | .cons _ e false true rest, (x, xs) =>
    (∀ y, x = some y → ElemSendable e y) ∧ FieldsSendable rest xs
  | .cons _ e true true rest, (x, xs) =>
    (∀ y, x = some y → VecSendable e y) ∧ FieldsSendable rest xs
def VariantsSendable : (vs : Variants) → vs.Val → Prop
  | .cons e false _, .inl x => ElemSendable e x
  | .cons e true _, .inl x => VecSendable e x
  | .cons _ _ rest, .inr y => VariantsSendable rest y
end

open Classical in
/-- Apply a partial function to all items; `none` as soon as one of them is `none`. -/
def allSome {α β : Type} (f : α → Option β) : List α → Option (List β)
  | [] => some []
  | x :: xs =>
    match f x, allSome f xs with
    | some y, some ys => some (y :: ys)
    | _, _ => none

open Classical in
mutual
/-- What the receiver really sees when a value is sent between two Rust peers: the value with
every present-but-empty optional turned into an absent one, or nothing at all (a decoding
error) if some enum in it carries an empty payload. -/
noncomputable def ElemSeen : (e : Elem) → e.Val → Option e.Val
  | .num _, v => some v
  | .bool, v => some v
  | .str, v => some v
  | .struct fs, v => FieldsSeen fs v
  | .enum _, none => none
  | .enum vs, some w => (VariantsSeen vs w).map some
noncomputable def VecSeen : (e : Elem) → List e.Val → Option (List e.Val)
  | .num _, vs => some vs
  | .bool, vs => some vs
  | .str, vs => some vs
  | .struct fs, vs => allSome (FieldsSeen fs) vs
  | .enum vs, ws => allSome (fun w => match w with
      | none => none
      | some x => (VariantsSeen vs x).map some) ws
noncomputable def FieldsSeen : (fs : Fields) → fs.Val → Option fs.Val
  | .nil, v => some v
  | .cons _ e rep opt rest, v =>
    let hd : Option (Opt (Rep e.Val rep) opt) := match rep, opt, v with
      | false, false, (x, _) => ElemSeen e x
      | true, false, (x, _) => VecSeen e x
      | false, true, (none, _) => some none
      | false, true, (some x, _) => if NoContent e x then some none else (ElemSeen e x).map some
      | true, true, (none, _) => some none
      | true, true, (some xs, _) => if xs = [] then some none else (VecSeen e xs).map some
    match hd, FieldsSeen rest v.2 with
    | some x, some xs => some (x, xs)
    | _, _ => none
noncomputable def VariantsSeen : (vs : Variants) → vs.Val → Option vs.Val
  | .cons e false _, .inl x => if NoContent e x then none else (ElemSeen e x).map .inl
  | .cons e true _, .inl x => if x = [] then none else (VecSeen e x).map .inl
  | .cons _ _ rest, .inr y => (VariantsSeen rest y).map .inr
end

/-- No top-level optional field of the struct is present without content. -/
def NoEmptyOptional : (fs : Fields) → fs.Val → Prop
  | .nil, _ => True
  | .cons _ _ _ false rest, (_, xs) => NoEmptyOptional rest xs
  | .cons _ e rep true rest, (x, xs) =>
    (∀ y, x = some y → ¬ NoContentRep e rep y) ∧ NoEmptyOptional rest xs

/-- Two struct values agree on which top-level optional fields are present. -/
def SamePresence : (fs : Fields) → fs.Val → fs.Val → Prop
  | .nil, _, _ => True
  | .cons _ _ _ false rest, (_, xs), (_, ys) => SamePresence rest xs ys
  | .cons _ _ _ true rest, (x, xs), (y, ys) => (x.isSome ↔ y.isSome) ∧ SamePresence rest xs ys

/-- One property record on the wire: a 16 bit id, a length field of `1`, `2`, `4` or `8` bytes
announced by its bit width, and the body. -/
structure WireRec where
  id : UInt16
  lenBytes : Nat
  body : Bytes

/-- The record is well formed: a legal width, and the body length fits. -/
def WireRec.Ok (r : WireRec) : Prop :=
  (r.lenBytes = 1 ∨ r.lenBytes = 2 ∨ r.lenBytes = 4 ∨ r.lenBytes = 8) ∧
  r.body.length < 256 ^ r.lenBytes

/-- Bytes of a record. -/
def WireRec.bytes (r : WireRec) : Bytes :=
  leBytes 2 r.id.toNat ++ [UInt8.ofNat (8 * r.lenBytes)] ++ leBytes r.lenBytes r.body.length ++ r.body

/-- Bytes of a list of records. -/
def wire (rs : List WireRec) : Bytes := rs.flatMap WireRec.bytes

/-- Length prefixed items, back to back. -/
def itemsBytes (prefixLen : Nat) (xs : List Bytes) : Bytes :=
  xs.flatMap (fun x => leBytes prefixLen x.length ++ x)

mutual
/-- The bytes of a body are framed properly: struct bodies are sequences of complete records
(all the way down), and no vector item announces a length at the very end of the 64 bit range.
The contents of the records do not matter otherwise. -/
def ElemFramed : Elem → Bytes → Prop
  | .num _, _ => True
  | .bool, _ => True
  | .str, _ => True
  | .struct fs, b => ∃ rs : List WireRec, (∀ r ∈ rs, r.Ok) ∧ b = wire rs ∧ FieldsFramed fs rs
  | .enum vs, b => 2 < b.length → VariantsFramed vs (leNat (b.take 2)) (b.drop 2)
def VecFramed : Elem → Bytes → Prop
  | .num _, _ => True
  | .bool, _ => True
  | .str, _ => True
  | .struct fs, b => ∀ xs n tail, n < 2 ^ 64 → b = itemsBytes 8 xs ++ leBytes 8 n ++ tail →
    8 + n < 2 ^ 64 ∧ (n ≤ tail.length →
      ∃ rs : List WireRec, (∀ r ∈ rs, r.Ok) ∧ tail.take n = wire rs ∧ FieldsFramed fs rs)
  | .enum vs, b => ∀ xs n tail, n < 2 ^ 64 → b = itemsBytes 8 xs ++ leBytes 8 n ++ tail →
    8 + n < 2 ^ 64 ∧ (n ≤ tail.length → 2 < n →
      VariantsFramed vs (leNat ((tail.take n).take 2)) ((tail.take n).drop 2))
def FieldsFramed : Fields → List WireRec → Prop
  | .nil, _ => True
  | .cons id e false _ rest, rs => (∀ r ∈ rs, r.id = id → ElemFramed e r.body) ∧ FieldsFramed rest rs
  | .cons id e true _ rest, rs => (∀ r ∈ rs, r.id = id → VecFramed e r.body) ∧ FieldsFramed rest rs
def VariantsFramed : Variants → Nat → Bytes → Prop
  | .nil, _, _ => True
  | .cons e false _, 0, b => ElemFramed e b
  | .cons e true _, 0, b => VecFramed e b
  | .cons _ _ rest, i + 1, b => VariantsFramed rest i b
end

end Verif.Spec
