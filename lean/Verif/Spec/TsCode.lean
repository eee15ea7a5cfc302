import Verif.Spec.Generation
import Verif.Spec.RustNames
import Verif.Model.TsRender
set_option autoImplicit false
/-!
What the printed TypeScript code means: how names are looked up, which type a class codes, and when
the file can be loaded. Independent of how the generator chooses what it prints.
-/
namespace Verif.Prot

open Verif

/-- How TypeScript looks up a path written in the namespace of group `par` (0 is the file): the
first name is looked for from that namespace outwards, the innermost namespace that has it wins, and
the rest is followed from there. This is the same rule as for the Rust modules (`RustNames`). Names
of the static part of the file are left out. -/
abbrev TsNames := @RustNames

/-- The class of the static part that codes values of a type, one or an array of them:
`static/protocol.primitives.*.ts`. -/
inductive PrimClass : Name → Elem → Bool → Prop where
  | bool : PrimClass "bool".toList .bool false
  | i8 : PrimClass "i8".toList (.num .i8) false
  | i16 : PrimClass "i16".toList (.num .i16) false
  | i32 : PrimClass "i32".toList (.num .i32) false
  | i64 : PrimClass "i64".toList (.num .i64) false
  | u8 : PrimClass "u8".toList (.num .u8) false
  | u16 : PrimClass "u16".toList (.num .u16) false
  | u32 : PrimClass "u32".toList (.num .u32) false
  | u64 : PrimClass "u64".toList (.num .u64) false
  | f32 : PrimClass "f32".toList (.num .f32) false
  | f64 : PrimClass "f64".toList (.num .f64) false
  | str : PrimClass "StrUTF8".toList .str false
  | bools : PrimClass "ArrayBool".toList .bool true
  | i8s : PrimClass "ArrayI8".toList (.num .i8) true
  | i16s : PrimClass "ArrayI16".toList (.num .i16) true
  | i32s : PrimClass "ArrayI32".toList (.num .i32) true
  | i64s : PrimClass "ArrayI64".toList (.num .i64) true
  | u8s : PrimClass "ArrayU8".toList (.num .u8) true
  | u16s : PrimClass "ArrayU16".toList (.num .u16) true
  | u32s : PrimClass "ArrayU32".toList (.num .u32) true
  | u64s : PrimClass "ArrayU64".toList (.num .u64) true
  | f32s : PrimClass "ArrayF32".toList (.num .f32) true
  | f64s : PrimClass "ArrayF64".toList (.num .f64) true
  | strs : PrimClass "ArrayStrUTF8".toList .str true

mutual
/-- The printed class with this id codes `e`. The namespaces are those of the groups of `s`, and the
classes in them those of its types. -/
inductive TsClassIs (s : Store) (f : TsFile) : Nat → Elem → Prop where
  | struct {c : TsStruct} {fs : Fields} :
      c ∈ f.structs → TsFieldsAre s f c.scope c.fields fs → TsClassIs s f c.id (.struct fs)
  | enum {c : TsEnum} {vs : Variants} :
      c ∈ f.enums → TsItemsAre s f c.scope c.items vs → TsClassIs s f c.id (.enum vs)
/-- The fields of a class. All names printed for a struct have to name the same class, and an array
has to be coded as an array; otherwise the code does not compile. -/
inductive TsFieldsAre (s : Store) (f : TsFile) : Nat → List TsField → Fields → Prop where
  | nil {par : Nat} : TsFieldsAre s f par [] .nil
  | prim {par : Nat} {x : TsField} {xs : List TsField} {cls : Name} {e : Elem} {rep : Bool}
      {rest : Fields} :
      x.id < 2 ^ 16 → x.array = rep → x.decl = .prim → x.code = .prim cls → PrimClass cls e rep →
      TsFieldsAre s f par xs rest →
      TsFieldsAre s f par (x :: xs) (.cons (UInt16.ofNat x.id) e rep x.optional rest)
  | struct {par id : Nat} {x : TsField} {xs : List TsField} {decl path var : List Name}
      {fs rest : Fields} :
      x.id < 2 ^ 16 → x.array = false → x.decl = .struct decl → x.code = .struct path var →
      TsNames s.groups s par decl id → TsNames s.groups s par path id →
      TsNames s.groups s par var id → TsClassIs s f id (.struct fs) →
      TsFieldsAre s f par xs rest →
      TsFieldsAre s f par (x :: xs) (.cons (UInt16.ofNat x.id) (.struct fs) false x.optional rest)
  | structs {par id : Nat} {x : TsField} {xs : List TsField} {decl path : List Name} {bare : Name}
      {fs rest : Fields} :
      x.id < 2 ^ 16 → x.array = true → x.decl = .struct decl → x.code = .structs path bare →
      TsNames s.groups s par decl id → TsNames s.groups s par path id →
      TsNames s.groups s par [bare] id → TsClassIs s f id (.struct fs) →
      TsFieldsAre s f par xs rest →
      TsFieldsAre s f par (x :: xs) (.cons (UInt16.ofNat x.id) (.struct fs) true x.optional rest)
  | enum {par id : Nat} {x : TsField} {xs : List TsField} {decl bare : Name} {vs : Variants}
      {rest : Fields} :
      x.id < 2 ^ 16 → x.array = false → x.decl = .enum decl → x.code = .enum bare →
      TsNames s.groups s par [decl] id → TsNames s.groups s par [bare] id →
      TsClassIs s f id (.enum vs) → TsFieldsAre s f par xs rest →
      TsFieldsAre s f par (x :: xs) (.cons (UInt16.ofNat x.id) (.enum vs) false x.optional rest)
/-- The options of an enum. -/
inductive TsItemsAre (s : Store) (f : TsFile) : Nat → List TsItem → Variants → Prop where
  | nil {par : Nat} : TsItemsAre s f par [] .nil
  | prim {par : Nat} {xs : List TsItem} {cls : Name} {e : Elem} {rep : Bool} {rest : Variants} :
      PrimClass cls e rep → TsItemsAre s f par xs rest →
      TsItemsAre s f par (.prim cls :: xs) (.cons e rep rest)
  | struct {par id : Nat} {xs : List TsItem} {path : List Name} {fs : Fields} {rest : Variants} :
      TsNames s.groups s par path id → TsClassIs s f id (.struct fs) →
      TsItemsAre s f par xs rest →
      TsItemsAre s f par (.struct path :: xs) (.cons (.struct fs) false rest)
end

/-- The printed file is the code of protocol `p`: the arms of the dispatcher are the messages of
`p`, in order. -/
def TsFile.Means (s : Store) (f : TsFile) (p : Rust.Protocol) : Prop :=
  f.signature = p.signature.toNat ∧
  Pairwise2 (fun (a : TsArm) q => q.1.toNat = a.id ∧
    ∃ i, TsNames s.groups s 0 a.path i ∧ TsClassIs s f i (.enum q.2)) f.enumArms p.enums ∧
  Pairwise2 (fun (a : TsArm) q => q.1.toNat = a.id ∧
    ∃ i, TsNames s.groups s 0 a.path i ∧ TsClassIs s f i (.struct q.2)) f.structArms p.structs

/-- The file can be loaded: whenever a class is defined, the names that its static part evaluates
are names of classes defined before. -/
def TsFile.Loads (s : Store) (f : TsFile) : Prop :=
  ∀ pre c post, f.structs = pre ++ c :: post → ∀ path ∈ c.loads,
    ∃ id, TsNames s.groups s c.scope path id ∧ ∃ d ∈ pre, d.id = id

/-- The class of `t` needs the class of `u` when it is defined: it has a field of that type, or a
field of an enum type with an option of that type. -/
def Needs (s : Store) (t u : Struct) : Prop :=
  ∃ f ∈ t.fields, f.refTypeId = some u.id ∨
    ∃ e ∈ s.enums, f.refTypeId = some e.id ∧ ∃ v ∈ e.variants, v.refTypeId = some u.id

/-- `u` lies in a group inside the group of `t`. -/
def DeeperThan (s : Store) (t u : Struct) : Prop :=
  ∃ c ∈ s.groups, c.parent = t.parent ∧ Around s.groups c.id u.parent

/-- What the TypeScript generator supports besides `Supported`: fields of an enum type are not
repeated, and options refer to structs only, not repeated. -/
structure TsSupported (s : Store) : Prop where
  fields : ∀ t ∈ s.structs, ∀ f ∈ t.fields, f.repeated = true → ∀ e ∈ s.enums,
    f.refTypeId ≠ some e.id
  items : ∀ e ∈ s.enums, ∀ v ∈ e.variants, ∀ id, v.refTypeId = some id →
    v.repeated = false ∧ ∃ t ∈ s.structs, t.id = id

/-- No group around group `par` declares the first name of the path. -/
def HeadFree (s : Store) (par : Nat) (path : List Name) : Prop :=
  ∀ w rest, path = w :: rest → ∀ i, Around s.groups i par → ¬ Declares s.groups s i w

/-- References can be printed as the TypeScript generator prints them:
* the full path of a struct does not start with a name that a group around the reference declares,
* the written path of a struct leads there from the own group, or does not start with such a name,
* enums and repeated structs can be seen under their bare name. -/
structure TsVisible (s : Store) : Prop where
  written : ∀ t ∈ s.structs, ∀ f ∈ t.fields, ∀ u ∈ s.structs, f.refTypeId = some u.id →
    Leads s.groups s t.parent f.typePath u.id ∨ HeadFree s t.parent f.typePath
  full : ∀ t ∈ s.structs, ∀ f ∈ t.fields, ∀ u ∈ s.structs, f.refTypeId = some u.id →
    ∀ p, GroupPath s.groups u.parent p → HeadFree s t.parent (p ++ [u.name])
  bare : ∀ t ∈ s.structs, ∀ f ∈ t.fields, ∀ u ∈ s.structs, f.refTypeId = some u.id →
    f.repeated = true → TsNames s.groups s t.parent [u.name] u.id
  enums : ∀ t ∈ s.structs, ∀ f ∈ t.fields, ∀ e ∈ s.enums, f.refTypeId = some e.id →
    TsNames s.groups s t.parent [e.name] e.id
  items : ∀ e ∈ s.enums, ∀ v ∈ e.variants, ∀ u ∈ s.structs, v.refTypeId = some u.id →
    ∀ p, GroupPath s.groups u.parent p → HeadFree s e.parent (p ++ [u.name])

/-- Wherever a field of an enum type is declared, the structs in the options of that enum can be seen
under their bare name. -/
def OptionsVisible (s : Store) : Prop :=
  ∀ t ∈ s.structs, ∀ f ∈ t.fields, ∀ e ∈ s.enums, f.refTypeId = some e.id → ∀ v ∈ e.variants,
    ∀ u ∈ s.structs, v.refTypeId = some u.id → TsNames s.groups s t.parent [u.name] u.id

end Verif.Prot
