import Verif.Model.Cli
set_option autoImplicit false
/-!
How arguments of the command line tool are meant to be read: the keys its help lists, from left to right.
-/
namespace Verif.Cli.Spec

/-- What can be given. -/
inductive Opt where
  | help | embedded | overwrite | source | workflow | rust | typescript | consumer | producer | puml
  deriving DecidableEq

def Opt.keys : Opt → List String
  | .help => ["--help", "-h"]
  | .embedded => ["--embedded", "--em", "-e"]
  | .overwrite => ["--overwrite", "--ow", "-o"]
  | .source => ["--source", "--src", "-s"]
  | .workflow => ["--workflow", "-wf"]
  | .rust => ["--destination-rs", "--dest-rs", "-rs"]
  | .typescript => ["--destination-ts", "--dest-ts", "-ts"]
  | .consumer => ["--consumer-dest", "-cd"]
  | .producer => ["--producer-dest", "-pd"]
  | .puml => ["--puml", "-d"]

/-- Options without value. -/
def Opt.plain : Opt → Prop
  | .help | .embedded | .overwrite => True
  | _ => False

/-- The argument is a key of the option. -/
def Opt.Key (o : Opt) (a : List Char) : Prop := ∃ k ∈ o.keys, a = k.toList

/-- The argument is a key. -/
def Key (a : List Char) : Prop := ∃ o : Opt, o.Key a

/-- A part of an argument list. -/
inductive Item where
  /-- A key without value. -/
  | flag (o : Opt) (key : List Char)
  /-- A key and its value. -/
  | value (o : Opt) (key v : List Char)
  /-- A key at the end of the list whose value is missing. -/
  | lone (o : Opt) (key : List Char)
  /-- Neither a key nor the value of one. -/
  | stray (a : List Char)

/-- The arguments of an item. -/
def Item.words : Item → List (List Char)
  | .flag _ k => [k]
  | .value _ k v => [k, v]
  | .lone _ k => [k]
  | .stray a => [a]

/-- The arguments of a list of items. -/
def words (items : List Item) : List (List Char) := items.flatMap Item.words

def Item.opt : Item → Option Opt
  | .flag o _ => some o
  | .value o _ _ => some o
  | .lone o _ => some o
  | .stray _ => none

/-- An argument list, read from left to right: what follows a key that takes a value is its value. -/
inductive Reads : List (List Char) → List Item → Prop where
  | nil : Reads [] []
  | flag {o : Opt} {k : List Char} {rest : List (List Char)} {items : List Item} (h : o.plain) (hk : o.Key k)
      (hr : Reads rest items) : Reads (k :: rest) (.flag o k :: items)
  | value {o : Opt} {k v : List Char} {rest : List (List Char)} {items : List Item} (h : ¬ o.plain) (hk : o.Key k)
      (hr : Reads rest items) : Reads (k :: v :: rest) (.value o k v :: items)
  | lone {o : Opt} {k : List Char} (h : ¬ o.plain) (hk : o.Key k) : Reads [k] [.lone o k]
  | stray {a : List Char} {rest : List (List Char)} {items : List Item} (h : ¬ Key a) (hr : Reads rest items) :
      Reads (a :: rest) (.stray a :: items)

/-- No value is itself a key. -/
def NoKeyAsValue (items : List Item) : Prop := ∀ o k v, Item.value o k v ∈ items → ¬ Key v

/-- No option is given twice. -/
def OptsOnce (items : List Item) : Prop := (items.filterMap Item.opt).Nodup

/-- The first key of this option is followed by this argument. -/
def Given (o : Opt) (args : List (List Char)) (v : List Char) : Prop :=
  ∃ l k r, args = l ++ k :: v :: r ∧ o.Key k ∧ ∀ x ∈ l, ¬ o.Key x

/-- Some key of this option is among the arguments. -/
def Has (o : Opt) (args : List (List Char)) : Prop := ∃ a ∈ args, o.Key a

/-- What is at this path is the same. -/
def Same (d d2 : Disk) (q : Files.Path) : Prop :=
  d2.world.files q = d.world.files q ∧
  (q.file = "Cargo.toml".toList → d2.world.manifests .rust q.dir = d.world.manifests .rust q.dir) ∧
  (q.file = "package.json".toList → d2.world.manifests .typescript q.dir = d.world.manifests .typescript q.dir)

/-- A file is at this path. -/
def FileAt (d : Disk) (q : Files.Path) : Prop :=
  (d.world.files q).isSome = true ∨
  (q.file = "Cargo.toml".toList ∧ (d.world.manifests .rust q.dir).isSome = true) ∨
  (q.file = "package.json".toList ∧ (d.world.manifests .typescript q.dir).isSome = true)

/-- Options that name a file to be written. -/
def outputs : List Opt := [.rust, .typescript, .puml]

/-- Options that name a folder to be written to. -/
def folders : List Opt := [.consumer, .producer]

/-- Something is at this path. -/
def PathAt (d : Disk) (p : Files.Dir) : Prop :=
  d.dirs p = true ∨ FileAt d ⟨p.dropLast, p.getLastD []⟩

/-- The text is these names with slashes between them. -/
inductive Slashed : List Char → List Files.Name → Prop where
  | last {n : Files.Name} (h : '/' ∉ n) : Slashed n [n]
  | more {n : Files.Name} {rest : List Char} {names : List Files.Name} (h : '/' ∉ n) (hr : Slashed rest names) :
      Slashed (n ++ '/' :: rest) (n :: names)

/-- Where a path leads from a folder: each name leads one folder down, except the empty one and `.`; a path that
begins with a slash starts at the root. -/
def Leads (pwd : Files.Dir) (arg : List Char) (p : Files.Dir) : Prop :=
  ∃ names, Slashed arg names ∧
    (((∃ rest, arg = '/' :: rest) ∧ p = names.filter fun n => n ≠ [] ∧ n ≠ ['.']) ∨
      ((∀ rest, arg ≠ '/' :: rest) ∧ p = pwd ++ names.filter fun n => n ≠ [] ∧ n ≠ ['.']))

end Verif.Cli.Spec
