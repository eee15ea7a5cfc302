import Verif.Model.Files
set_option autoImplicit false
/-!
The last step of each workflow generator: the dependencies the generated code needs go into the nearest
`Cargo.toml` or `package.json`; and the four generators together. Files are cited relative to
`cli/src/workflow/render/`.

Manifests are modelled after parsing, the order of entries and the layout are left out. Folders are
absolute, as components below the root; `..` in a path is not resolved. Writing succeeds.
-/
namespace Verif.Files

open Verif
open Verif.Flow (Target)

/-- A value of a manifest, `toml::Value` and `serde_json::Value`: a table or anything else. -/
inductive Value where
  | leaf (text : List Char)
  | table (get : Name → Option Value)

/-- The manifests of one language by folder: no file, a file that cannot be parsed, or a value. -/
abbrev Manifests := Dir → Option (Option Value)

/-- `Map::insert`. -/
def insert (get : Name → Option Value) (key : Name) (v : Value) : Name → Option Value :=
  fun k => if k = key then some v else get k

/-- The loop over the required dependencies, `producer/rust/render_cargo.rs` L49-58,
`producer/typescript/render_package.rs` L49-58: nothing is added to something that is not a table. -/
def addDeps : List (Name × Value) → Value → Value
  | [], deps => deps
  | (k, v) :: more, .table get => addDeps more (.table (insert get k v))
  | _ :: more, .leaf s => addDeps more (.leaf s)

/-- `render` from L28 on, `producer/rust/render_cargo.rs` L28-65, `producer/typescript/render_package.rs`
L28-65; `consumer/` has the same text. -/
def merge (required : List (Name × Value)) : Value → Value
  | .leaf s => .leaf s
  | .table get =>
    .table (insert get "dependencies".toList
      (addDeps required ((get "dependencies".toList).getD (.table fun _ => none))))

/-- `get_target_file`, `producer/rust/render_cargo.rs` L74-88, `producer/typescript/render_package.rs`
L74-88, for a folder whose components are given from the last to the first: up to, but not including,
the root, which has no parent. -/
def nearestUp (m : Manifests) : List Name → Option Dir
  | [] => none
  | n :: up => if (m (n :: up).reverse).isSome then some (n :: up).reverse else nearestUp m up

/-- `render`, `producer/rust/render_cargo.rs` L21-72, `producer/typescript/render_package.rs` L21-72;
`none` for an error. -/
def mergeAt (required : List (Name × Value)) (base : Dir) (m : Manifests) : Option Manifests :=
  match nearestUp m base.reverse with
  | none => none
  | some d =>
    match m d with
    | some (some v) => some fun x => if x = d then some (some (merge required v)) else m x
    | _ => none

/-- A dependency given by its version. -/
def dep (name version : String) : Name × Value := (name.toList, .leaf version.toList)

/-- A dependency given by version and features (`""` for none); features are kept as text. -/
def depWith (name version features : String) : Name × Value :=
  (name.toList, .table fun k =>
    if k = "version".toList then some (.leaf version.toList)
    else if k = "features".toList then
      if features.isEmpty then none else some (.leaf features.toList)
    else none)

/-- `static/required.toml` and `static/required.json`: `producer/rust/static/required.toml` L1-9,
`consumer/rust/static/required.toml` L1-10, `producer/typescript/static/required.json` L1-3,
`consumer/typescript/static/required.json` L1-3. -/
def required : Side → Target → List (Name × Value)
  | .server, .rust =>
    [dep "clibri" "0.1.7", depWith "uuid" "0.8.1" "v4", dep "bytes" "1.1.0", dep "regex" "1",
     depWith "tokio" "1.5.0" "full", depWith "futures" "0.3.14" "", dep "thiserror" "1.0.26",
     dep "log" "0.4.14", dep "tokio-util" "0.6.7"]
  | .client, .rust =>
    [dep "clibri" "0.1.7", depWith "uuid" "0.8.2" "v4", dep "bytes" "1.1.0", dep "regex" "1",
     depWith "tokio" "1.14.0" "full", depWith "futures" "0.3.14" "", dep "thiserror" "1.0.30",
     dep "log" "0.4.14", dep "tokio-util" "0.6.9", dep "chrono" "0.4.19"]
  | _, .typescript => [dep "clibri" "0.1.2"]

/-- What the generators change. -/
structure World where
  files : Files
  /-- `Cargo.toml` and `package.json`. -/
  manifests : Target → Manifests

/-- One generator with its last step, `producer/rust/render.rs` L35-67, `producer/typescript/render.rs`
L31-59, `consumer/rust/render.rs` L56-75, `consumer/typescript/render.rs` L23-42; `false` for an error:
the files are written by then. -/
def generate (side : Side) (t : Target) (base : Dir) (d : Decls) (w : World) : World × Bool :=
  let files := run ((ops side t d).map (Op.under base)) w.files
  match mergeAt (required side t) base (w.manifests t) with
  | none => (⟨files, w.manifests⟩, false)
  | some m => (⟨files, fun x => if x = t then m else w.manifests x⟩, true)

/-- A generator to run: side, target and folder. -/
structure Job where
  side : Side
  target : Target
  base : Dir
  deriving DecidableEq

/-- Generators one after the other up to the first error (`?` in `render.rs` L54-117). -/
def generateAll (d : Decls) : List Job → World → World × Bool
  | [], w => (w, true)
  | j :: more, w =>
    match generate j.side j.target j.base d w with
    | (w2, true) => generateAll d more w2
    | (w2, false) => (w2, false)

/-- One of the two loops, `render.rs` L54-85, L86-117. -/
def sideJobs (side : Side) (dest : Option Dir) (outs : List Target) : List Job :=
  match dest with
  | none => []
  | some dest => outs.map fun t => ⟨side, t, dest ++ targetDir outs t⟩

/-- `render`, `render.rs` L40-119, for a workflow with a configuration: the client's destination and the
server's. -/
def render (client server : Option Dir) (c : Flow.Config) (d : Decls) (w : World) : World × Bool :=
  if client.isNone && ! c.consumer.isEmpty then (w, false)
  else if server.isNone && ! c.producer.isEmpty then (w, false)
  else generateAll d (sideJobs .client client c.consumer ++ sideJobs .server server c.producer) w

end Verif.Files
