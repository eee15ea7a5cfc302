import Verif.Model.TsValidate
set_option autoImplicit false
/-!
When a JavaScript value stands for a value of a declared type. Only the types of the model and the
reading of properties (`JsVal.get`, `prop`, `heldIn`, `JsVal.keys`) are used, none of its checks.
-/
namespace Verif.Ts

open Verif

/-- Types with negative numbers. -/
def Signed (n : Num) : Prop := n = .i8 ∨ n = .i16 ∨ n = .i32 ∨ n = .i64

instance (n : Num) : Decidable (Signed n) := inferInstanceAs (Decidable (_ ∨ _))

/-- The integers of an integer type. -/
def InRange (n : Num) (z : Int) : Prop :=
  if Signed n then -2 ^ (8 * n.size - 1) ≤ z ∧ z < 2 ^ (8 * n.size - 1)
  else 0 ≤ z ∧ z < 2 ^ (8 * n.size)

instance (n : Num) (z : Int) : Decidable (InRange n z) := by unfold InRange; infer_instance

/-- The JavaScript number is the integer `z`. -/
def Whole (x : JsNum) (z : Int) : Prop := x = .int z ∨ (x = .negZero ∧ z = 0)

/-- `v` is the bit pattern of the integer `z`: they agree modulo 2^bits. -/
def Pattern (n : Num) (z : Int) (v : Fin (256 ^ n.size)) : Prop :=
  ∃ k : Int, z = v.val + k * 2 ^ (8 * n.size)

/-- A JavaScript value stands for a number of the type: a `number` for the small integers and the
floats, a `bigint` for the 64-bit integers. -/
def FitsNum (eng : Engine) : (n : Num) → JsVal → Fin (256 ^ n.size) → Prop
  | .f32, x, v => ∃ y, x = .num y ∧ v = eng.f32 y
  | .f64, x, v => ∃ y, x = .num y ∧ v = eng.f64 y
  | .u64, x, v => ∃ z, x = .big z ∧ InRange .u64 z ∧ Pattern .u64 z v
  | .i64, x, v => ∃ z, x = .big z ∧ InRange .i64 z ∧ Pattern .i64 z v
  | n, x, v => ∃ y z, x = .num y ∧ Whole y z ∧ InRange n z ∧ Pattern n z v

/-- Item by item. -/
def Pairs {α β : Type} (R : α → β → Prop) : List α → List β → Prop
  | [], [] => True
  | a :: as, b :: bs => R a b ∧ Pairs R as bs
  | _, _ => False

/-- A repeated value is an array without holes whose items stand for the items. -/
def FitsRep {α : Type} (R : JsVal → α → Prop) : (rep : Bool) → JsVal → Rep α rep → Prop
  | false, x, v => R x v
  | true, x, vs => ∃ xs, x = .arr (xs.map some) ∧ Pairs R xs vs

/-- An optional value is absent exactly if the property is `undefined`. -/
def FitsOpt {α : Type} (R : JsVal → α → Prop) : (opt : Bool) → JsVal → Opt α opt → Prop
  | false, x, v => R x v
  | true, x, none => x = .undefined
  | true, x, some v => x ≠ .undefined ∧ R x v

/-- A private enum object agrees with an optional enum; nothing is asked if the field is absent. -/
def KeptOpt {α : Type} (R : Option (Nat × JsVal) → α → Prop) :
    (opt : Bool) → Option (Nat × JsVal) → Opt α opt → Prop
  | false, h, v => R h v
  | true, _, none => True
  | true, h, some v => R h v

/-- No option of the enum is defined in the object. -/
def Bare : NVariants → JsVal → Prop
  | .nil, _ => True
  | .cons name _ _ rest, x => x.get name = .undefined ∧ Bare rest x

mutual
/-- A JavaScript value stands for a value of the type. A struct is an instance of its class whose
properties stand for the fields and whose private enum objects agree with them. An enum is an
object in which exactly one option is defined, or none for the value without option. -/
def FitsOne (eng : Engine) : (e : NElem) → JsVal → e.erase.Val → Prop
  | .num n, x, v => FitsNum eng n x v
  | .bool, x, v => x = .bool v
  | .str, x, v => x = .str v
  | .struct cls sig fs, x, v => ∃ ps hidden, x = .inst cls sig ps hidden ∧
      FitsFields eng fs (prop ps) v ∧ Kept eng fs (heldIn hidden) v
  | .enum vs, x, v => x.isObject = true ∧
      (match v with
        | none => Bare vs x
        | some w => FitsChoice eng vs x w)
/-- The properties stand for the fields. -/
def FitsFields (eng : Engine) : (fs : NFields) → (List Char → JsVal) → fs.erase.Val → Prop
  | .nil, _, _ => True
  | .cons name _ e rep opt rest, get, v =>
    FitsOpt (FitsRep (FitsOne eng e) rep) opt (get name) v.1 ∧ FitsFields eng rest get v.2
/-- Exactly one option is defined and its value stands for the payload. -/
def FitsChoice (eng : Engine) : (vs : NVariants) → JsVal → vs.erase.Val → Prop
  | .nil, _, _ => False
  | .cons name e rep rest, x, w =>
    match w with
    | .inl v => x.get name ≠ .undefined ∧ FitsRep (FitsOne eng e) rep (x.get name) v ∧ Bare rest x
    | .inr w => x.get name = .undefined ∧ FitsChoice eng rest x w
/-- The private enum objects agree with the fields. -/
def Kept (eng : Engine) : (fs : NFields) → (List Char → Option (Nat × JsVal)) → fs.erase.Val → Prop
  | .nil, _, _ => True
  | .cons name _ (.enum vs) false opt rest, held, v =>
    KeptOpt (fun h w => match h, w with
      | none, none => True
      | some (i, x), some w => Holds eng vs i x w
      | _, _ => False) opt (held name) v.1 ∧ Kept eng rest held v.2
  | .cons _ _ _ _ _ rest, held, v => Kept eng rest held v.2
/-- The option at position `i` with the value `x` is the variant. -/
def Holds (eng : Engine) : (vs : NVariants) → Nat → JsVal → vs.erase.Val → Prop
  | .nil, _, _, _ => False
  | .cons _ e rep rest, i, x, w =>
    match w with
    | .inl v => i = 0 ∧ FitsRep (FitsOne eng e) rep x v
    | .inr w => ∃ j, i = j + 1 ∧ Holds eng rest j x w
end

/-- A program passes this object for a message of the type. -/
def Fits (eng : Engine) (fs : NFields) (obj : JsVal) (v : fs.erase.Val) : Prop :=
  obj.isObject = true ∧ FitsFields eng fs obj.get v

/-- Names of the fields. -/
def NFields.names : NFields → List (List Char)
  | .nil => []
  | .cons name _ _ _ _ rest => name :: rest.names

/-- Names of the variants. -/
def NVariants.names : NVariants → List (List Char)
  | .nil => []
  | .cons name _ _ rest => name :: rest.names

/-- The number is one that the validator lets pass although the protocol could carry others: a
64-bit integer below 2^53, a float that is neither NaN nor infinite. -/
def Usual : NElem → JsVal → Prop
  | .num .u64, x => ∀ z, x = .big z → z < 2 ^ 53
  | .num .i64, x => ∀ z, x = .big z → -2 ^ 53 < z ∧ z < 2 ^ 53
  | .num .f32, x => x ≠ .num .nan ∧ ∀ b, x ≠ .num (.inf b)
  | .num .f64, x => x ≠ .num .nan ∧ ∀ b, x ≠ .num (.inf b)
  | _, _ => True

/-- The value, or each item of the array. -/
def Each (P : JsVal → Prop) : Bool → JsVal → Prop
  | false, x => P x
  | true, x => ∀ xs, x = .arr xs → ∀ y, some y ∈ xs → P y

/-- All options of an enum object. -/
def EachOption (P : NElem → Bool → JsVal → Prop) : NVariants → JsVal → Prop
  | .nil, _ => True
  | .cons name e rep rest, x => P e rep (x.get name) ∧ EachOption P rest x

/-- One field; of an enum object all options. -/
def InField (P : NElem → Bool → JsVal → Prop) : NElem → Bool → JsVal → Prop
  | .enum vs, _, x => EachOption P vs x
  | e, rep, x => P e rep x

/-- All fields. -/
def EachField (P : NElem → Bool → JsVal → Prop) : NFields → (List Char → JsVal) → Prop
  | .nil, _ => True
  | .cons name _ e rep _ rest, get => InField P e rep (get name) ∧ EachField P rest get

/-- The objects of the enum fields have at most one key. -/
def OneKey : NFields → (List Char → JsVal) → Prop
  | .nil, _ => True
  | .cons name _ (.enum _) _ _ rest, get => (get name).keys ≤ 1 ∧ OneKey rest get
  | .cons _ _ _ _ _ rest, get => OneKey rest get

/-- The value of a message in which the enum fields whose objects have more than one key are without
option. -/
def asSent : (fs : NFields) → (List Char → JsVal) → fs.erase.Val → fs.erase.Val
  | .nil, _, v => v
  | .cons name _ (.enum _) false false rest, get, v =>
    (if (get name).keys ≤ 1 then v.1 else none, asSent rest get v.2)
  | .cons name _ (.enum _) false true rest, get, v =>
    (v.1.map (fun w => if (get name).keys ≤ 1 then w else none), asSent rest get v.2)
  | .cons _ _ _ _ _ rest, get, v => (v.1, asSent rest get v.2)

/-- All numbers are usual ones. -/
def UsualItem (e : NElem) (rep : Bool) (x : JsVal) : Prop := Each (Usual e) rep x

/-- What the validator does not look at: a number for an integer is whole, an instance of the right
class is in order. -/
def Exact (eng : Engine) : NElem → JsVal → Prop
  | .num .f32, _ => True
  | .num .f64, _ => True
  | .num _, x => ∀ lo tag, x ≠ .num (.frac lo tag)
  | .struct cls sig fs, x => ∀ sig' ps hidden, x = .inst cls sig' ps hidden →
      ∃ v, FitsOne eng (.struct cls sig fs) x v
  | _, _ => True

/-- The same for a value or the items of an array; an array has no holes. -/
def ExactItem (eng : Engine) (e : NElem) (rep : Bool) (x : JsVal) : Prop :=
  Each (Exact eng e) rep x ∧ (rep = true → ∀ xs, x = .arr xs → none ∉ xs)

end Verif.Ts
