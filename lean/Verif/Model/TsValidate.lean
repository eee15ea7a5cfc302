import Verif.Model.TsCodec
set_option autoImplicit false
/-!
How generated TypeScript code takes an arbitrary JavaScript value for a message: the static file
`protocol.validator.ts`, the `validate` functions of `protocol.primitives.*.ts`, the printed
`scheme`, `getValidator`, constructor and `from` of a struct, the printed `set` and `from` of an
enum, and what `encode` then writes. Static files are cited without their directory
`cli/src/protocol/render/typescript/static/`; `ts/mod.rs` is
`cli/src/protocol/render/typescript/mod.rs`.

`TsCodec.lean` starts from values that already have the declared type; here a value is whatever a
program may pass where the declared type is `any`.

Left out: proxies, getters and properties inherited from `Object.prototype` or `Array.prototype`
(a property that is not an own one reads as `undefined`); buffers, which `from` decodes instead
(`ts/mod.rs` L536-552, modelled by `decode` in `TsCodec.lean`).
-/
namespace Verif.Ts

open Verif

mutual
/-- Element types with the names that the printed `scheme` refers to. A struct carries the identity
of its class (for `instanceof`) and the string its `getSignature` returns (`ts/mod.rs` L127-132,
L153-158). Models `Field` and `EnumItem`, `cli/src/protocol/fields.rs`, `enums.rs`. -/
inductive NElem where
  | num (n : Num)
  | bool
  | str
  | struct (cls : Nat) (sig : List Char) (fs : NFields)
  | enum (vs : NVariants)
/-- Fields with their names, `cli/src/protocol/structs.rs`. -/
inductive NFields where
  | nil
  | cons (name : List Char) (id : UInt16) (e : NElem) (rep opt : Bool) (rest : NFields)
/-- Variants with their names, `cli/src/protocol/enums.rs`. -/
inductive NVariants where
  | nil
  | cons (name : List Char) (e : NElem) (rep : Bool) (rest : NVariants)
end

mutual
/-- The same type without names. -/
@[reducible] def NElem.erase : NElem → Elem
  | .num n => .num n
  | .bool => .bool
  | .str => .str
  | .struct _ _ fs => .struct fs.erase
  | .enum vs => .enum vs.erase
/-- The same fields without names. -/
@[reducible] def NFields.erase : NFields → Fields
  | .nil => .nil
  | .cons _ id e rep opt rest => .cons id e.erase rep opt rest.erase
/-- The same variants without names. -/
@[reducible] def NVariants.erase : NVariants → Variants
  | .nil => .nil
  | .cons _ e rep rest => .cons e.erase rep rest.erase
end

/-- A JavaScript number. `frac lo tag` is a number strictly between `lo` and `lo + 1`; `tag` tells
such numbers apart. Covers every double (and more). -/
inductive JsNum where
  | nan
  | inf (negative : Bool)
  | int (z : Int)
  | negZero
  | frac (lo : Int) (tag : Nat)
  deriving DecidableEq

/-- A JavaScript value. A hole of a sparse array is `none`. `inst` is an instance of a generated
class: its identity, its signature, its public properties and, per private `_field`
(`ts/mod.rs` L113-124), the option that this enum object holds (`_value`,
`protocol.primitives.enum.ts` L46): position and value. Strings are sequences of Unicode scalar
values; lone surrogates are left out. -/
inductive JsVal where
  | undefined
  | null
  | bool (b : Bool)
  | num (x : JsNum)
  | big (z : Int)
  | str (s : List Char)
  | arr (xs : List (Option JsVal))
  | obj (ps : List (List Char × JsVal))
  | inst (cls : Nat) (sig : List Char) (ps : List (List Char × JsVal))
      (hidden : List (List Char × Option (Nat × JsVal)))

/-- `x === undefined`. -/
def JsVal.isUndef : JsVal → Bool
  | .undefined => true
  | _ => false

/-- `typeof x === "object" && x !== null`, `protocol.validator.ts` L14, L33-36. -/
def JsVal.isObject : JsVal → Bool
  | .arr _ => true
  | .obj _ => true
  | .inst _ _ _ _ => true
  | _ => false

/-- Reading an own property; `undefined` if there is none. -/
def prop (ps : List (List Char × JsVal)) (name : List Char) : JsVal :=
  (ps.lookup name).getD .undefined

/-- `x[name]`, `x.name` for values other than `undefined` and `null`. -/
def JsVal.get : JsVal → List Char → JsVal
  | .obj ps, name => prop ps name
  | .inst _ _ ps _, name => prop ps name
  | _, _ => .undefined

/-- The items that `forEach` and `map` visit: all positions but the holes. -/
def visited (xs : List (Option JsVal)) : List JsVal := xs.filterMap id

/-- The number of holes. -/
def holes (xs : List (Option JsVal)) : Nat := xs.length - (visited xs).length

/-- `Object.keys(x).length` for values other than `undefined` and `null`. -/
def JsVal.keys : JsVal → Nat
  | .obj ps => ps.length
  | .inst _ _ ps hidden => ps.length + hidden.length
  | .arr xs => (visited xs).length
  | .str s => s.length
  | _ => 0

/-- The option held by a private enum object. -/
def heldIn (hidden : List (List Char × Option (Nat × JsVal))) (name : List Char) :
    Option (Nat × JsVal) :=
  (hidden.lookup name).getD none

/-- Is the value taken as true, `value ? 1 : 0`. -/
def JsVal.truthy : JsVal → Bool
  | .undefined => false
  | .null => false
  | .bool b => b
  | .num .nan => false
  | .num (.int 0) => false
  | .num .negZero => false
  | .num _ => true
  | .big z => z != 0
  | .str s => !s.isEmpty
  | _ => true

/-- A finite number as its floor and whether it lies above it; `none` for NaN and infinities. -/
def JsNum.floor : JsNum → Option (Int × Bool)
  | .nan => none
  | .inf _ => none
  | .int z => some (z, false)
  | .negZero => some (0, false)
  | .frac lo _ => some (lo, true)

/-- `value < min || value > max` is false. -/
def within (min max : Int) (x : Int × Bool) : Bool :=
  decide (min ≤ x.1) && (if x.2 then decide (x.1 < max) else decide (x.1 ≤ max))

/-- `MIN` and `MAX` of the integer types, L8-9 of `protocol.primitives.u8.ts` and alike. For the
64-bit types they are `Number.MAX_SAFE_INTEGER` and its negative. -/
def limits : Num → Int × Int
  | .u8 => (0, 255)
  | .u16 => (0, 65535)
  | .u32 => (0, 4294967295)
  | .u64 => (0, 9007199254740991)
  | .i8 => (-128, 127)
  | .i16 => (-32768, 32767)
  | .i32 => (-2147483648, 2147483647)
  | .i64 => (-9007199254740991, 9007199254740991)
  | .f32 => (0, 0)
  | .f64 => (0, 0)

/-- `validate` of a number type: `protocol.primitives.u8.ts` L49-60 and alike,
`protocol.primitives.u64.ts` L49-57, `protocol.primitives.i64.ts` L49-57,
`protocol.primitives.f32.ts` L46-54, `protocol.primitives.f64.ts` L46-54. -/
def validNum : Num → JsVal → Bool
  | .u64, .big z => within (limits .u64).1 (limits .u64).2 (z, false)
  | .i64, .big z => within (limits .i64).1 (limits .i64).2 (z, false)
  | .u64, _ => false
  | .i64, _ => false
  | .f32, .num x => x.floor.isSome
  | .f64, .num x => x.floor.isSome
  | n, .num x =>
    match x.floor with
    | none => false
    | some p => within (limits n).1 (limits n).2 p
  | _, _ => false

/-- `validate` of a single value: primitives as above, `protocol.primitives.bool.ts` L44-49,
`protocol.primitives.string.utf8.ts` L24-29, and for a struct only `instanceof`
(`ts/mod.rs` L511-523). An enum has no validator of its own. -/
def validOne : NElem → JsVal → Bool
  | .num n, x => validNum n x
  | .bool, .bool _ => true
  | .bool, _ => false
  | .str, .str _ => true
  | .str, _ => false
  | .struct cls _ _, .inst c _ _ _ => c == cls
  | .struct _ _ _, _ => false
  | .enum _, _ => false

/-- `validate` of a value or of an array: `instanceof Array` and each item that `forEach` visits
(holes are not visited), `protocol.primitives.array.u16.ts` L58-76 and alike,
`ts/mod.rs` L465-505. -/
def validItem (e : NElem) : Bool → JsVal → Bool
  | false, x => validOne e x
  | true, .arr xs => (visited xs).all (validOne e)
  | true, _ => false

/-- The loop over the options of an enum, `protocol.validator.ts` L38-63: `none` if a defined one
does not validate, otherwise the number of defined ones. -/
def validOptions : NVariants → JsVal → Option Nat
  | .nil, _ => some 0
  | .cons name e rep rest, target =>
    if (target.get name).isUndef then validOptions rest target
    else if validItem e rep (target.get name) then (validOptions rest target).map (· + 1)
    else none

/-- A property that is defined or not optional: `types` or `options`, `protocol.validator.ts`
L22-71, of the entry of `scheme` printed by `get_field_map_def`, `ts/mod.rs` L1054-1101. The
`repeated` flag of an enum field is not part of the entry. -/
def validKind (e : NElem) (rep : Bool) (x : JsVal) : Bool :=
  match e with
  | .enum vs =>
    x.isObject && (match validOptions vs x with
      | none => false
      | some k => decide (k ≤ 1))
  | _ => validItem e rep x

/-- One property, `protocol.validator.ts` L18-72. -/
def validField (e : NElem) (rep opt : Bool) (x : JsVal) : Bool :=
  if opt && x.isUndef then true else validKind e rep x

/-- All properties. -/
def validFields : NFields → JsVal → Bool
  | .nil, _ => true
  | .cons name _ e rep opt rest, obj =>
    validField e rep opt (obj.get name) && validFields rest obj

/-- `validate(obj, scheme)`, `protocol.validator.ts` L13-76. -/
def validate (fs : NFields) (obj : JsVal) : Bool := obj.isObject && validFields fs obj

/-- The signatures of the struct options, `enum_declaration`, `ts/mod.rs` L237-267. Those of
primitives are left out, since each primitive option finds its own one in the list. -/
def allowed : NVariants → List (List Char)
  | .nil => []
  | .cons _ (.struct _ sig _) _ rest => sig :: allowed rest
  | .cons _ _ _ rest => allowed rest

/-- `setValue(new Option(pos, value))` in the printed setter, `ts/mod.rs` L318-330, L356:
a primitive is wrapped whatever the value is; for a struct the value itself must have `encode` and
`decode` (`protocol.primitives.enum.ts` L15-30, throws) and an allowed signature (L48-58). A nested
enum stops the generator (`ts/mod.rs` L337-342). -/
def setOption (sigs : List (List Char)) : NElem → JsVal → Res Unit
  | .struct _ _ _, .inst _ sig _ _ => if sigs.contains sig then .ok () else .err
  | .struct _ _ _, _ => .panic
  | .enum _, _ => .panic
  | _, _ => .ok ()

/-- The assignments of the printed setter, `ts/mod.rs` L317-365. -/
def setLoop (sigs : List (List Char)) : NVariants → Nat → JsVal → Option (Nat × JsVal) →
    Res (Option (Nat × JsVal))
  | .nil, _, _, cur => .ok cur
  | .cons name e _ rest, i, src, cur =>
    if (src.get name).isUndef then setLoop sigs rest (i + 1) src cur
    else
      match setOption sigs e (src.get name) with
      | .ok _ => setLoop sigs rest (i + 1) src (some (i, src.get name))
      | .err => .err
      | .panic => .panic

/-- `set(src)` of an enum object without option, `enum_setter`, `ts/mod.rs` L309-367. -/
def setEnum (vs : NVariants) : JsVal → Res (Option (Nat × JsVal))
  | .undefined => .panic
  | .null => .panic
  | src => if src.keys > 1 then .err else setLoop (allowed vs) vs 0 src none

/-- `this._x = new E(); this._x.set(this.x)` in the constructor, for an optional field only if the
property is defined, `struct_constructor`, `ts/mod.rs` L419-440. The `Error` that `set` returns is
not looked at. -/
def hiddenStep (vs : NVariants) (opt : Bool) (x : JsVal) : Res (Option (Nat × JsVal)) :=
  if opt && x.isUndef then .ok none
  else
    match setEnum vs x with
    | .ok o => .ok o
    | .err => .ok none
    | .panic => .panic

/-- The private enum objects after the constructor. A private name `_x` is not confused with a
field that is called `_x`. -/
def hiddenOf : NFields → JsVal → Res (List (List Char × Option (Nat × JsVal)))
  | .nil, _ => .ok []
  | .cons name _ e _ opt rest, obj =>
    match e with
    | .enum vs => do
      let o ← hiddenStep vs opt (obj.get name)
      let tl ← hiddenOf rest obj
      pure ((name, o) :: tl)
    | _ => hiddenOf rest obj

/-- The public properties after the constructor, `ts/mod.rs` L406-418, L562-571. -/
def shownOf : NFields → JsVal → List (List Char × JsVal)
  | .nil, _ => []
  | .cons name _ _ _ _ rest, obj => (name, obj.get name) :: shownOf rest obj

/-- `S.from(obj)` of a struct for a value that is not a buffer, `struct_from`,
`ts/mod.rs` L530-579. `err` is a returned `Error`, `panic` a thrown one. -/
def fromObj (cls : Nat) (sig : List Char) (fs : NFields) (obj : JsVal) : Res JsVal :=
  if validate fs obj then do
    let hidden ← hiddenOf fs obj
    pure (.inst cls sig (shownOf fs obj) hidden)
  else .err

/-- Name of the variant at a position. -/
def NVariants.nameAt : NVariants → Nat → Option (List Char)
  | .nil, _ => none
  | .cons name _ _ _, 0 => some name
  | .cons _ _ _ rest, i + 1 => rest.nameAt i

/-- `E.from(obj)` of an enum for a value that is not a buffer, `ts/mod.rs` L622-654: `set`, and
then `get()` (L704-721, `protocol.primitives.enum.ts` L60-72), which throws if no option is set. -/
def enumFromObj (vs : NVariants) (obj : JsVal) : Res JsVal := do
  let o ← setEnum vs obj
  match o with
  | none => .panic
  | some (i, x) =>
    match vs.nameAt i with
    | none => .panic
    | some name => .ok (.obj [(name, x)])

/-- How the engine writes a number as a float (`writeFloatLE`, `writeDoubleLE`): arbitrary
functions. -/
structure Engine where
  f32 : JsNum → Fin (256 ^ Num.size .f32)
  f64 : JsNum → Fin (256 ^ Num.size .f64)

/-- `writeUInt8` … `writeBigInt64LE` of Node's `Buffer`, as called in
`protocol.primitives.u8.ts` L19-28 and alike: a value outside of the range of the type is refused
with an error, a fraction is cut off, NaN is written as 0. The range of the 64-bit functions is
that of the type. `none` is the error; it is also the answer for values of another JavaScript type,
whose conversion is left out. -/
def writeNum (eng : Engine) : Num → JsVal → Option Bytes
  | .f32, .num x => some (leBytes 4 (eng.f32 x).val)
  | .f64, .num x => some (leBytes 8 (eng.f64 x).val)
  | .u64, .big z =>
    if 0 ≤ z ∧ z < 18446744073709551616 then some (leBytes 8 z.toNat) else none
  | .i64, .big z =>
    if -9223372036854775808 ≤ z ∧ z < 9223372036854775808 then
      some (leBytes 8 (z % 18446744073709551616).toNat) else none
  | .u64, _ => none
  | .i64, _ => none
  | n, .num x =>
    match x with
    | .nan => some (leBytes n.size 0)
    | x =>
      match x.floor with
      | none => none
      | some (lo, fr) =>
        if within (limits n).1 (limits n).2 (lo, fr) then
          let cut := if fr && decide (lo < 0) then lo + 1 else lo
          some (leBytes n.size (cut % (256 ^ n.size : Nat)).toNat)
        else none
  | _, _ => none

/-- The items of an array of numbers, `protocol.primitives.array.u16.ts` L13-28 and alike:
`Buffer.alloc` for all positions, but only the items that `forEach` visits are written, one behind
the other. `holes` is the number of positions that are not visited. -/
def writeNums (eng : Engine) (n : Num) (holes : Nat) : List JsVal → Option Bytes
  | [] => some (List.replicate (holes * n.size) 0)
  | x :: xs =>
    match writeNum eng n x, writeNums eng n holes xs with
    | some b, some tl => some (b ++ tl)
    | _, _ => none

/-- The same for `ArrayBool.encode`, `protocol.primitives.array.bool.ts` L14-29. -/
def boolBytes (holes : Nat) (xs : List JsVal) : Bytes :=
  xs.flatMap (fun x => boolByte x.truthy) ++ List.replicate holes 0

/-- `StrUTF8.encode`, `protocol.primitives.string.utf8.ts` L14-17. The conversion of values of
another JavaScript type is left out. -/
def textOf : JsVal → Res (List Char)
  | .str s => .ok s
  | _ => .panic

/-- The strings of an array, `protocol.primitives.array.string.utf8.ts` L15-29. -/
def textsOf : List JsVal → Res (List (List Char))
  | [] => .ok []
  | x :: xs => do
    let s ← textOf x
    let ss ← textsOf xs
    pure (s :: ss)

/-- An error of a number type is thrown by `collect` (`protocol.convertor.ts` L16-22) or by
`Enum.encode` (`protocol.primitives.enum.ts` L78-81). -/
def orThrow : Option Bytes → Res Bytes
  | some b => .ok b
  | none => .panic

mutual
/-- `encode()` of an instance, `ts/mod.rs` L175-195, from its public properties and the options of
its private enum objects. -/
def encFields (eng : Engine) : NFields → (List Char → JsVal) →
    (List Char → Option (Nat × JsVal)) → Res Bytes
  | .nil, _, _ => .ok []
  | .cons name id e rep opt rest, get, held => do
    let hd ← (if opt && (get name).isUndef then .ok (recU8 id 0 [])
      else match rep with
        | false => recOne eng e id (get name) (held name)
        | true => recMany eng e id (get name))
    let tl ← encFields eng rest get held
    pure (hd ++ tl)
/-- The record of a single value, `get_field_encode`, `ts/mod.rs` L1337-1380. For an enum the
private object is encoded, whatever the public property is. An instance of another class would be
encoded by the code of that class; that is left out. -/
def recOne (eng : Engine) : NElem → UInt16 → JsVal → Option (Nat × JsVal) → Res Bytes
  | .num n, id, x, _ => do
    let b ← orThrow (writeNum eng n x)
    pure (recU8 id n.size b)
  | .bool, id, x, _ => .ok (recU8 id 1 (boolByte x.truthy))
  | .str, id, x, _ => do
    let s ← textOf x
    pure (recU64 id (utf8 s))
  | .struct _ _ fs, id, .inst _ _ ps hidden, _ => do
    let b ← encFields eng fs (prop ps) (heldIn hidden)
    pure (recU64 id b)
  | .struct _ _ _, _, _, _ => .panic
  | .enum _, id, _, none => .ok (recU64 id [])
  | .enum vs, id, _, some (i, x) => do
    let b ← encChoice eng vs i i x
    pure (recU64 id b)
/-- The record of an array, `ts/mod.rs` L1346, L1366; `encodeSelfArray` visits the items with
`forEach`, `protocol.convertor.ts` L138-164. -/
def recMany (eng : Engine) : NElem → UInt16 → JsVal → Res Bytes
  | .num n, id, .arr xs => do
    let b ← orThrow (writeNums eng n (holes xs) (visited xs))
    pure (recU64 id b)
  | .bool, id, .arr xs => .ok (recU64 id (boolBytes (holes xs) (visited xs)))
  | .str, id, .arr xs => do
    let ss ← textsOf (visited xs)
    let b ← encStrArray ss
    pure (recU64 id b)
  | .struct _ _ fs, id, .arr xs => do
    let b ← encSelfArray (fun x => match x with
      | .inst _ _ ps hidden => encFields eng fs (prop ps) (heldIn hidden)
      | _ => .panic) (visited xs)
    pure (recU64 id b)
  | _, _, _ => .panic
/-- `Enum.encode`, `protocol.primitives.enum.ts` L74-87, for the option at position `pos`; `i` is
its position in the rest of the list. A repeated struct or an enum cannot be held
(`setOption`). -/
def encChoice (eng : Engine) : NVariants → Nat → Nat → JsVal → Res Bytes
  | .nil, _, _, _ => .panic
  | .cons _ (.num n) false _, 0, pos, x => do
    let b ← orThrow (writeNum eng n x)
    pure (leBytes 2 pos ++ b)
  | .cons _ .bool false _, 0, pos, x => .ok (leBytes 2 pos ++ boolByte x.truthy)
  | .cons _ .str false _, 0, pos, x => do
    let s ← textOf x
    pure (leBytes 2 pos ++ utf8 s)
  | .cons _ (.struct _ _ fs) false _, 0, pos, x =>
    match x with
    | .inst _ _ ps hidden => do
      let b ← encFields eng fs (prop ps) (heldIn hidden)
      pure (leBytes 2 pos ++ b)
    | _ => .panic
  | .cons _ (.num n) true _, 0, pos, x =>
    match x with
    | .arr xs => do
      let b ← orThrow (writeNums eng n (holes xs) (visited xs))
      pure (leBytes 2 pos ++ b)
    | _ => .panic
  | .cons _ .bool true _, 0, pos, x =>
    match x with
    | .arr xs => .ok (leBytes 2 pos ++ boolBytes (holes xs) (visited xs))
    | _ => .panic
  | .cons _ .str true _, 0, pos, x =>
    match x with
    | .arr xs => do
      let ss ← textsOf (visited xs)
      let b ← encStrArray ss
      pure (leBytes 2 pos ++ b)
    | _ => .panic
  | .cons _ _ _ _, 0, _, _ => .panic
  | .cons _ _ _ rest, i + 1, pos, x => encChoice eng rest i pos x
end

/-- `encode()` of an instance made by the code of the class with these fields. -/
def encInst (eng : Engine) (fs : NFields) : JsVal → Res Bytes
  | .inst _ _ ps hidden => encFields eng fs (prop ps) (heldIn hidden)
  | _ => .panic

/-- `encode()` of an enum object, `protocol.primitives.enum.ts` L74-87. -/
def encEnum (eng : Engine) (vs : NVariants) : Option (Nat × JsVal) → Res Bytes
  | none => .ok []
  | some (i, x) => encChoice eng vs i i x

end Verif.Ts
