import Verif.Spec.Protocol
set_option autoImplicit false
/-!
The language of protocol files, independently of the parser: declarations as trees, how they may be
written down, when they are well formed, and what a store says about them.
-/
namespace Verif.Prot.Syntax

open Verif.Prot

/-- A field of a struct. -/
structure FieldD where
  type : List Name
  repeated : Bool
  name : Name
  optional : Bool
  deriving DecidableEq

/-- A variant of an enum. -/
inductive VariantD where
  | simple (name : Name)
  | typed (type : List Name) (repeated : Bool) (name : Name)
  deriving DecidableEq

/-- A sequence of declarations. -/
inductive Items where
  | nil
  | struct (name : Name) (fields : List FieldD) (rest : Items)
  | enum (name : Name) (variants : List VariantD) (rest : Items)
  | group (name : Name) (body : Items) (rest : Items)

/-! ### Writing down -/

/-- Punctuation. -/
inductive Mark where
  | opn
  | cls
  | semi
  | opt
  | dot

def Mark.char : Mark → Char
  | .opn => '{'
  | .cls => '}'
  | .semi => ';'
  | .opt => '?'
  | .dot => '.'

/-- Symbols of the language; `simple w` is the word `w` with a `;` right behind it. -/
inductive Sym where
  | word (w : Name)
  | simple (w : Name)
  | mark (m : Mark)
  | rep

def typeSyms : List Name → List Sym
  | [] => []
  | [w] => [.word w]
  | w :: w2 :: ws => .word w :: .mark .dot :: typeSyms (w2 :: ws)

def repSyms (b : Bool) : List Sym := if b then [.rep] else []

def optSyms (b : Bool) : List Sym := if b then [.mark .opt] else []

def fieldSyms (f : FieldD) : List Sym :=
  typeSyms f.type ++ (repSyms f.repeated ++ (.word f.name :: (optSyms f.optional ++ [.mark .semi])))

def variantSyms : VariantD → List Sym
  | .simple n => [.simple n]
  | .typed t r n => typeSyms t ++ (repSyms r ++ [.word n, .mark .semi])

def itemsSyms : Items → List Sym
  | .nil => []
  | .struct n fs rest =>
    .word "struct".toList :: .word n :: .mark .opn ::
      (fs.flatMap fieldSyms ++ (.mark .cls :: itemsSyms rest))
  | .enum n vs rest =>
    .word "enum".toList :: .word n :: .mark .opn ::
      (vs.flatMap variantSyms ++ (.mark .cls :: itemsSyms rest))
  | .group n body rest =>
    .word "group".toList :: .word n :: .mark .opn :: (itemsSyms body ++ (.mark .cls :: itemsSyms rest))

/-- White space. -/
def Blank (ws : List Char) : Prop := ∀ c ∈ ws, isSpace c = true

/-- A letter, digit or underscore. -/
def IdChar (c : Char) : Prop := isAlnum c = true ∨ c = '_'

/-- A name: letters, digits and underscores, not starting with a digit. -/
def Ident (w : Name) : Prop :=
  ∃ c cs, w = c :: cs ∧ isDigit c = false ∧ ∀ d ∈ w, IdChar d

/-- `text` writes down the symbols, with any white space in front of each symbol and at the end,
and with at least some non-identifier character behind each word. -/
inductive Spelled : List Sym → List Char → Prop where
  | nil {ws : List Char} : Blank ws → Spelled [] ws
  | word {ws : List Char} {w : Name} {ts : List Sym} {c : Char} {rest : List Char} :
      Blank ws → Ident w → ¬ IdChar c → Spelled ts (c :: rest) →
      Spelled (.word w :: ts) (ws ++ (w ++ c :: rest))
  | simple {ws : List Char} {w : Name} {ts : List Sym} {rest : List Char} :
      Blank ws → Ident w → Spelled ts rest → Spelled (.simple w :: ts) (ws ++ (w ++ ';' :: rest))
  | mark {ws : List Char} {m : Mark} {ts : List Sym} {rest : List Char} :
      Blank ws → Spelled ts rest → Spelled (.mark m :: ts) (ws ++ m.char :: rest)
  | rep {ws ws2 : List Char} {ts : List Sym} {rest : List Char} :
      Blank ws → Blank ws2 → Spelled ts rest →
      Spelled (.rep :: ts) (ws ++ '[' :: (ws2 ++ ']' :: rest))

/-- A type starts with a name that is no keyword. -/
def TypeName (t : List Name) : Prop :=
  ∃ w ws, t = w :: ws ∧ w ≠ "struct".toList ∧ w ≠ "enum".toList ∧ w ≠ "group".toList

def VariantD.Named : VariantD → Prop
  | .simple w => w ≠ "struct".toList ∧ w ≠ "enum".toList ∧ w ≠ "group".toList
  | .typed t _ _ => TypeName t

/-- All types start with a name that is no keyword. -/
def Named : Items → Prop
  | .nil => True
  | .struct _ fs rest => (∀ f ∈ fs, TypeName f.type) ∧ Named rest
  | .enum _ vs rest => (∀ v ∈ vs, v.Named) ∧ Named rest
  | .group _ body rest => Named body ∧ Named rest

/-! ### Meaning -/

/-- Full names of the structs and enums declared in a group with path `g`. -/
def typesOf (g : List Name) : Items → List (List Name)
  | .nil => []
  | .struct n _ rest => (g ++ [n]) :: typesOf g rest
  | .enum n _ rest => (g ++ [n]) :: typesOf g rest
  | .group n body rest => typesOf (g ++ [n]) body ++ typesOf g rest

/-- Full names of the groups. -/
def groupsOf (g : List Name) : Items → List (List Name)
  | .nil => []
  | .struct _ _ rest => groupsOf g rest
  | .enum _ _ rest => groupsOf g rest
  | .group n body rest => (g ++ [n]) :: (groupsOf (g ++ [n]) body ++ groupsOf g rest)

/-- Path, name and fields of the structs, in order. -/
def structsOf (g : List Name) : Items → List (List Name × Name × List FieldD)
  | .nil => []
  | .struct n fs rest => (g, n, fs) :: structsOf g rest
  | .enum _ _ rest => structsOf g rest
  | .group n body rest => structsOf (g ++ [n]) body ++ structsOf g rest

/-- Path, name and variants of the enums, in order. -/
def enumsOf (g : List Name) : Items → List (List Name × Name × List VariantD)
  | .nil => []
  | .struct _ _ rest => enumsOf g rest
  | .enum n vs rest => (g, n, vs) :: enumsOf g rest
  | .group n body rest => enumsOf (g ++ [n]) body ++ enumsOf g rest

/-- The reference `p` made in group `g` can be resolved, if `known` are the types declared so far:
it is the rest of a full name in `g`, or a full name that does not lead through `g` itself. -/
def Resolves (known : List (List Name)) (g p : List Name) : Prop :=
  g ++ p ∈ known ∨ (p ∈ known ∧ (g = [] ∨ ∀ q, q ≠ [] → p ≠ g ++ q))

/-- The type is primitive or can be resolved. -/
def TypeOk (known : List (List Name)) (g t : List Name) : Prop :=
  (∃ w, t = [w] ∧ isPrimitive w = true) ∨ Resolves known g t

def FieldsFine (known : List (List Name)) (g : List Name) (fs : List FieldD) : Prop :=
  (fs.map FieldD.name).Nodup ∧ ∀ f ∈ fs, TypeOk known g f.type

def VariantD.TypeFine (known : List (List Name)) (g : List Name) : VariantD → Prop
  | .simple _ => True
  | .typed t _ _ => TypeOk known g t

/-- The declarations are well formed: names of fields are distinct, types are known before they are
used. -/
def Fine (known : List (List Name)) (g : List Name) : Items → Prop
  | .nil => True
  | .struct n fs rest => FieldsFine known g fs ∧ Fine (known ++ [g ++ [n]]) g rest
  | .enum n vs rest =>
    (∀ v ∈ vs, v.TypeFine known g) ∧ Fine (known ++ [g ++ [n]]) g rest
  | .group n body rest =>
    Fine known (g ++ [n]) body ∧ Fine (known ++ typesOf (g ++ [n]) body) g rest

/-- Names of fields are distinct in every struct. -/
def FieldNamesDistinct : Items → Prop
  | .nil => True
  | .struct _ fs rest => (fs.map FieldD.name).Nodup ∧ FieldNamesDistinct rest
  | .enum _ _ rest => FieldNamesDistinct rest
  | .group _ body rest => FieldNamesDistinct body ∧ FieldNamesDistinct rest

/-! ### What a store says -/

/-- A field of the store, as a declaration. -/
def fieldView (f : Field) : FieldD := ⟨f.typePath, f.repeated, f.name, f.optional⟩

/-- A variant of the store, as a declaration. Variants without type have an empty path. -/
def variantView (v : EnumItem) : VariantD :=
  if v.typePath = [] then .simple v.name else .typed v.typePath v.repeated v.name

def structView (t : Struct) : List Name × Name × List FieldD :=
  (t.path, t.name, t.fields.map fieldView)

def enumView (e : Enum) : List Name × Name × List VariantD :=
  (e.path, e.name, e.variants.map variantView)

end Verif.Prot.Syntax
