import Verif.Model.TsCodec
set_option autoImplicit false
/-!
A message object of generated TypeScript code: the public fields, and the private `_field`
objects kept for fields of an enum type. Printed by `cli/src/protocol/render/typescript/mod.rs`.
-/
namespace Verif.Ts

open Verif

/-- The object. `shown` are the public properties (`ts/mod.rs` L97-107); `hidden` are the contents
of the private enum objects (L109-122), other positions of `hidden` have no meaning. A nested
struct is taken as a value that is not changed after construction. -/
structure Obj (fs : Fields) where
  shown : fs.Val
  hidden : fs.Val

/-- The constructor, `ts/mod.rs` L399-443: properties are copied from the parameters, each enum
object is set from its property. -/
def Obj.new {fs : Fields} (v : fs.Val) : Obj fs := ⟨v, v⟩

/-- Assignment to public properties: nothing else happens, there are no setters. -/
def Obj.assign {fs : Fields} (o : Obj fs) (f : fs.Val → fs.Val) : Obj fs := ⟨f o.shown, o.hidden⟩

/-- What the printed encoders read, `get_field_encode`, `ts/mod.rs` L1337-1380: the private object
for an enum, the property otherwise. An optional enum is absent if the property is undefined
(L1340-1341), otherwise the private object is encoded; without option it is an empty record. -/
def picked : (fs : Fields) → fs.Val → fs.Val → fs.Val
  | .nil, _, _ => ()
  | .cons _ (.enum _) false false rest, (_, xs), (h, hs) => (h, picked rest xs hs)
  | .cons _ (.enum _) false true rest, (none, xs), (_, hs) => (none, picked rest xs hs)
  | .cons _ (.enum _) false true rest, (some _, xs), (h, hs) => (some h.join, picked rest xs hs)
  | .cons _ _ _ _ rest, (x, xs), (_, hs) => (x, picked rest xs hs)

/-- `encode()` of the object, `ts/mod.rs` L175-195. -/
def Obj.encode {fs : Fields} (o : Obj fs) : Res Bytes := Ts.encode fs (picked fs o.shown o.hidden)

/-- `decode(buffer)` of an object, `ts/mod.rs` L196-224, L1297-1321: properties and private objects
are set from the bytes. -/
def Obj.decode {fs : Fields} (buf : Bytes) : Res (Obj fs) := do
  let v ← Ts.decode fs buf
  pure ⟨v, v⟩

end Verif.Ts
