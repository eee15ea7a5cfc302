import Verif.Model.Manifest
set_option autoImplicit false
/-!
What the files of a generated server or client should be, independently of the code that names and
writes them.
-/
namespace Verif.Files.Spec

open Verif Verif.Files
open Verif.Flow (Target)

/-- `a` is an upper case letter and `b` the same in lower case. -/
def UpperOf (a b : Char) : Prop := 'A' ≤ a ∧ a ≤ 'Z' ∧ b.toNat = a.toNat + 32

/-- The same character up to upper and lower case. -/
def SameLetter (a b : Char) : Prop := a = b ∨ UpperOf a b ∨ UpperOf b a

/-- Two texts of the same length with related characters. -/
def Letterwise (R : Char → Char → Prop) : List Char → List Char → Prop
  | [], [] => True
  | a :: l, b :: m => R a b ∧ Letterwise R l m
  | [], _ :: _ => False
  | _ :: _, [] => False

/-- References a generator takes for the same: they differ in upper and lower case only, in Rust also in
`.` and `_`. -/
def Alike : Target → Ref → Ref → Prop
  | .rust => Letterwise fun a b => SameLetter a b ∨ ((a = '.' ∨ a = '_') ∧ (b = '.' ∨ b = '_'))
  | .typescript => Letterwise SameLetter

/-- What is declared in a workflow. -/
inductive Kind where
  | request
  | event
  | beacon
  | broadcast
  deriving DecidableEq

/-- The references of a kind. -/
def declared (d : Decls) : Kind → List Ref
  | .request => d.requests
  | .event => d.events
  | .beacon => d.beacons
  | .broadcast => d.broadcasts

/-- Where the tool puts its own code for a declaration, and which renderer makes it. -/
def codePlace : Side → Target → Kind → Option (List String × String)
  | .server, .rust, .request => some (["implementation", "handlers"], "render_request_handler")
  | .server, .rust, .event => some (["implementation", "emitters"], "render_event_emitter")
  | .server, .rust, .beacon => some (["implementation", "beacons"], "render_beacon_emitter")
  | .server, .typescript, .request => some (["implementation", "responses"], "render_request_handler")
  | .server, .typescript, .event => some (["implementation", "events"], "render_event_emitter")
  | .server, .typescript, .beacon => some (["implementation", "beacons"], "render_beacon_emitter")
  | .client, .typescript, .request => some (["requests"], "render_request")
  | .client, .typescript, .beacon => some (["beacons"], "render_beacon")
  | _, _, _ => none

/-- Where the tool puts a file in which the user writes code for a declaration, and which renderer makes
the first version. -/
def userPlace : Side → Target → Kind → Option (List String × String)
  | .server, _, .request => some (["responses"], "render_request_response")
  | .server, _, .event => some (["events"], "render_event_impl")
  | .server, _, .beacon => some (["beacons"], "render_beacon_impl")
  | .client, .rust, .broadcast => some (["broadcasts"], "render_broadcast")
  | _, _, _ => none

/-- Folders and single files the user works in. -/
def UserFile : Side → Target → Path → Prop
  | .server, .rust, p =>
    p.dir ∈ [dir ["responses"], dir ["events"], dir ["beacons"]] ∨ p = ⟨[], "context.rs".toList⟩
  | .server, .typescript, p =>
    p.dir ∈ [dir ["responses"], dir ["events"], dir ["beacons"]] ∨ p = ⟨[], "context.ts".toList⟩
  | .client, .rust, p =>
    p.dir ∈ [dir ["broadcasts"], dir ["events"]] ∨ p = ⟨[], "context.rs".toList⟩
  | .client, .typescript, _ => False

/-- Names the generator needs for files of its own where declarations have theirs. -/
def reserved : Side → Target → Kind → List String
  | .server, .rust, .event => ["mod", "connected", "disconnected", "error", "ready", "shutdown"]
  | .server, .typescript, .event => ["index", "connected", "disconnected", "error", "ready", "shutdown"]
  | .server, .rust, _ => ["mod"]
  | .server, .typescript, _ => ["index"]
  | .client, .rust, _ => ["mod"]
  | .client, .typescript, _ => []

/-- No two different references are taken for the same, and none for a reserved name, except that the
events `connected` and `disconnected` may be declared. -/
def Apart (side : Side) (t : Target) (k : Kind) (l : List Ref) : Prop :=
  (∀ r ∈ l, ∀ r2 ∈ l, Alike t r r2 → r = r2) ∧
  ∀ r ∈ l, ∀ w ∈ reserved side t k, Alike t r w.toList →
    k = .event ∧ r = w.toList ∧ (w = "connected" ∨ w = "disconnected")

/-- The files that list the Rust modules next to them, and what they list modules for. -/
def listings : Side → List (List String × Kind)
  | .server => [(["responses"], .request), (["implementation", "handlers"], .request),
      (["events"], .event), (["implementation", "emitters"], .event),
      (["beacons"], .beacon), (["implementation", "beacons"], .beacon)]
  | .client => [(["broadcasts"], .broadcast)]

/-- The files that re-export the TypeScript handlers next to them. -/
def exportings : List (List String × Kind) :=
  [(["implementation", "responses"], .request), (["implementation", "events"], .event),
    (["implementation", "beacons"], .beacon)]

/-- A reference without its points. -/
def noPoints (r : Ref) : List Char := r.filter (· ≠ '.')

/-- The same text, except that the first letter may be upper case in one and lower case in the other. -/
def SameButFirst : List Char → List Char → Prop
  | [], [] => True
  | a :: l, b :: m => SameLetter a b ∧ l = m
  | [], _ :: _ => False
  | _ :: _, [] => False

/-- No two references differ in points and the case of the first letter only, and none is such a variant
of an event every server has, except for these themselves. -/
def ExportsApart (k : Kind) (l : List Ref) : Prop :=
  (∀ r ∈ l, ∀ r2 ∈ l, SameButFirst (noPoints r) (noPoints r2) → r = r2) ∧
  (k = .event → ∀ r ∈ l, ∀ w ∈ ["connected", "disconnected", "error", "ready", "shutdown"],
    SameButFirst (noPoints r) w.toList → r = w.toList ∧ (w = "connected" ∨ w = "disconnected"))

/-- Rust's strict and reserved keywords that are lower case. -/
def keywords : List String :=
  ["as", "break", "const", "continue", "crate", "else", "enum", "extern", "false", "fn", "for", "if",
    "impl", "in", "let", "loop", "match", "mod", "move", "mut", "pub", "ref", "return", "self", "static",
    "struct", "super", "trait", "true", "type", "unsafe", "use", "where", "while", "async", "await",
    "dyn", "abstract", "become", "box", "do", "final", "macro", "override", "priv", "typeof", "unsized",
    "virtual", "yield", "try"]

/-- A letter of ASCII or an underscore. -/
def IdStart (c : Char) : Prop := ('a' ≤ c ∧ c ≤ 'z') ∨ ('A' ≤ c ∧ c ≤ 'Z') ∨ c = '_'

/-- Also a digit. -/
def IdPart (c : Char) : Prop := IdStart c ∨ ('0' ≤ c ∧ c ≤ '9')

/-- What may follow `pub mod`. -/
def ModuleName (n : List Char) : Prop :=
  (∃ c l, n = c :: l ∧ IdStart c ∧ ∀ x ∈ l, IdPart x) ∧ n ≠ ['_'] ∧ ∀ w ∈ keywords, n ≠ w.toList

/-- Words JavaScript or TypeScript does not allow as names of variables in modules. -/
def scriptWords : List String :=
  ["await", "break", "case", "catch", "class", "const", "continue", "debugger", "default", "delete", "do",
    "else", "enum", "export", "extends", "false", "finally", "for", "function", "if", "implements", "import",
    "in", "instanceof", "interface", "let", "new", "null", "package", "private", "protected", "public",
    "return", "static", "super", "switch", "this", "throw", "true", "try", "typeof", "var", "void", "while",
    "with", "yield"]

/-- What may follow `as` in an export. -/
def ScriptName (n : List Char) : Prop :=
  (∃ c l, n = c :: l ∧ IdStart c ∧ ∀ x ∈ l, IdPart x) ∧ ∀ w ∈ scriptWords, n ≠ w.toList

/-- Names with points between them, as far as this matters here: starts like a name, and otherwise only
letters, digits, underscores and points. -/
def Dotted (r : Ref) : Prop := ∃ c l, r = c :: l ∧ IdStart c ∧ ∀ x ∈ l, IdPart x ∨ x = '.'

/-- The files below a folder. -/
def below (base : Dir) (fs : Files) : Files := fun p => fs ⟨base ++ p.dir, p.file⟩

/-- Neither folder is inside the other. -/
def Disjoint (a b : Dir) : Prop := ¬ a <+: b ∧ ¬ b <+: a

/-- The folder itself or the next one above it that has something, not counting the root. -/
def Nearest (has : Dir → Prop) (base d : Dir) : Prop :=
  d ≠ [] ∧ d <+: base ∧ has d ∧ ∀ e, e ≠ [] → e <+: base → has e → e.length ≤ d.length

/-- What a manifest says under nested keys. -/
def entry : Value → List Name → Option Value
  | v, [] => some v
  | .leaf _, _ :: _ => none
  | .table get, k :: more =>
    match get k with
    | none => none
    | some v => entry v more

/-- A table whose `dependencies`, if there, are a table. -/
def Usable : Value → Prop
  | .leaf _ => False
  | .table get => ∀ v, get "dependencies".toList = some v → ∃ g, v = .table g

/-- A dependency some generator needs, under a name. -/
def Needed (jobs : List Job) (t : Target) (k : Name) (x : Value) : Prop :=
  ∃ j ∈ jobs, j.target = t ∧ (k, x) ∈ required j.side t

end Verif.Files.Spec
