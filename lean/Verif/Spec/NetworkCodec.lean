import Verif.Spec.NetworkTsTs
import Verif.Spec.TsValidate
import Verif.Model.NetworkCodec
set_option autoImplicit false
/-!
When a JavaScript value is the same as a value of a declared type.
-/
namespace Verif.Network

open Verif Verif.Ts
open Verif.TsServer (Js)

/-- An array with the same items; its properties are the positions, in decimal notation. -/
def LooksRep {α : Type} (R : α → Js → Prop) : (rep : Bool) → Rep α rep → Js → Prop
  | false, v, x => R v x
  | true, vs, x => ∃ ps, x = .obj ps ∧ Ts.Pairs R vs (ps.map Prod.snd) ∧
      ps.map Prod.fst = (List.range vs.length).map (Nat.toDigits 10)

/-- A property is `undefined` exactly if the value is absent. -/
def LooksOpt {α : Type} (R : α → Js → Prop) : (opt : Bool) → Opt α opt → Option Js → Prop
  | false, v, x => ∃ y, x = some y ∧ R v y
  | true, some v, x => ∃ y, x = some y ∧ R v y
  | true, none, x => x = none

mutual
/-- The JavaScript value is the same as the value: the same number, boolean or string; an object with the
same fields; an object with the same option. -/
def LooksOne : (e : NElem) → e.erase.Val → Js → Prop
  | .num _, v, x => x = .num v.val
  | .bool, v, x => x = .bool v
  | .str, v, x => x = .str v
  | .struct _ _ fs, v, x => ∃ ps, x = .obj ps ∧ LooksFields fs v (fun n => ps.lookup n)
  | .enum vs, v, x => ∃ ps, x = .obj ps ∧ LooksEnum vs v (fun n => ps.lookup n)
/-- The property with the name of a field is the same as the field. -/
def LooksFields : (fs : NFields) → fs.erase.Val → (List Char → Option Js) → Prop
  | .nil, _, _ => True
  | .cons name _ e rep opt rest, v, get =>
    LooksOpt (LooksRep (LooksOne e) rep) opt v.1 (get name) ∧ LooksFields rest v.2 get
/-- The property with the name of the option is the same as its value, and there is no property with the
name of another option. -/
def LooksEnum : (vs : NVariants) → Option vs.erase.Val → (List Char → Option Js) → Prop
  | .nil, _, _ => True
  | .cons name e rep rest, v, get =>
    match v with
    | none => get name = none ∧ LooksEnum rest none get
    | some (.inl x) => (∃ y, get name = some y ∧ LooksRep (LooksOne e) rep x y) ∧ LooksEnum rest none get
    | some (.inr w) => get name = none ∧ LooksEnum rest (some w) get
end

/-- The object is the same as the message. -/
inductive Looks (cd : Codec) : Rust.Msg → Js → Prop
  | struct {id : UInt32} {fs : NFields} {v : fs.erase.Val} {ps : List (List Char × Js)} : (id, fs) ∈ cd.structs →
      LooksFields fs v (fun n => ps.lookup n) → Looks cd (.struct id fs.erase v) (.obj ps)
  | enum {id : UInt32} {vs : NVariants} {v : Option vs.erase.Val} {ps : List (List Char × Js)} : (id, vs) ∈ cd.enums →
      LooksEnum vs v (fun n => ps.lookup n) → Looks cd (.enum id vs.erase v) (.obj ps)

mutual
/-- Fields of a struct have different names, and so have options of an enum. -/
def NamesOne : NElem → Prop
  | .num _ => True
  | .bool => True
  | .str => True
  | .struct _ _ fs => NamesFields fs
  | .enum vs => NamesEnum vs
def NamesFields : NFields → Prop
  | .nil => True
  | .cons name _ e _ _ rest => NamesOne e ∧ name ∉ rest.names ∧ NamesFields rest
def NamesEnum : NVariants → Prop
  | .nil => True
  | .cons name e _ rest => NamesOne e ∧ name ∉ rest.names ∧ NamesEnum rest
end

end Verif.Network
