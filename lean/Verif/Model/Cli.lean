import Verif.Model.Manifest
import Verif.Model.ProtocolParser
import Verif.Model.WorkflowParser
import Verif.Model.Puml
set_option autoImplicit false
/-!
The command line tool: its arguments, what it does with them, and how it ends. Files are cited relative
to `cli/src/`.

Simplifications. Arguments are valid Unicode (`env::args` panics otherwise). `..` in a path is not
resolved. What is printed is not modelled, except that errors are told from success. Whether a file can
be read, written or removed, whether a folder can be made, and whether a renderer fails or dies is left
open (`Env`). The workflow generators do not die (see `Model/Manifest.lean`).
-/
namespace Verif.Cli

open Verif
open Verif.Files (Name Dir Path Content World)
open Verif.Flow (Target)

abbrev Arg := List Char

/-! ### Paths and files -/

/-- The parts of a text between slashes. -/
def splitSlash : List Char → List Name
  | [] => [[]]
  | c :: rest =>
    if c = '/' then [] :: splitSlash rest
    else
      match splitSlash rest with
      | [] => [[c]]
      | n :: more => (c :: n) :: more

/-- `Path::new(pwd).join(arg)`, `arguments/args_option_files.rs` L198 and so on: an absolute argument
replaces the folder; empty parts and `.` do not count. -/
def join (pwd : Dir) (arg : Arg) : Dir :=
  let parts := (splitSlash arg).filter fun n => n ≠ [] && n ≠ ['.']
  if arg.head? = some '/' then parts else pwd ++ parts

/-- The path as a file in a folder. -/
def asFile (p : Dir) : Path := ⟨p.dropLast, p.getLastD []⟩

/-- Files, manifests and folders. A file called `Cargo.toml` or `package.json` is in `world.manifests`, or
in `world.files` if the tool wrote something else there; see `Disk.put`. -/
structure Disk where
  world : World
  dirs : Dir → Bool

/-- The manifest this file is. -/
def manifestOf (p : Path) : Option Target :=
  if p.file = "Cargo.toml".toList then some .rust
  else if p.file = "package.json".toList then some .typescript
  else none

/-- `Path::exists`. -/
def Disk.has (d : Disk) (p : Dir) : Bool :=
  d.dirs p || (d.world.files (asFile p)).isSome ||
  match manifestOf (asFile p) with
  | some t => (d.world.manifests t (asFile p).dir).isSome
  | none => false

/-- Something is written to a file or (`none`) the file is removed. A manifest that is written to cannot be
parsed any more. -/
def Disk.put (d : Disk) (p : Path) (c : Option Content) : Disk :=
  { d with world :=
    { files := fun q => if q = p then c else d.world.files q
      manifests := fun t x =>
        if manifestOf p = some t ∧ x = p.dir then (if c.isSome then some none else none)
        else d.world.manifests t x } }

/-- A file is removed if it is there. -/
def Disk.cleared (d : Disk) (p : Dir) : Disk := if d.has p then d.put (asFile p) none else d

/-- `fs::create_dir`. -/
def Disk.makeDir (d : Disk) (p : Dir) : Disk := { d with dirs := fun q => q = p || d.dirs q }

/-- How an action ends: `Ok(())`, `Err(..)`, or with the process: `stop!` (1) or a panic (101). -/
inductive End where
  | ok
  | err
  | died (status : Nat)
  deriving DecidableEq

/-- What the tool does not decide. -/
structure Env where
  /-- `env::current_dir`. -/
  pwd : Option Dir
  /-- `fs::read_to_string` and `hash::get`. -/
  read : Disk → Path → Option (List Char)
  /-- Whether a file can be opened and written. -/
  canWrite : Disk → Path → Bool
  canRemove : Disk → Path → Bool
  canMake : Disk → Dir → Bool
  /-- How the protocol renderers end before they write: `ok` or `died`, see C66, C124. -/
  renders : Target → Bool → Prot.Store → End

/-- `helpers::fs::write` with `overwrite == true`, `helpers/fs.rs` L13-41. -/
def write (env : Env) (p : Dir) (c : Content) (d : Disk) : Disk × End :=
  if d.has p && ! env.canRemove d (asFile p) then (d, .err)
  else if env.canWrite (d.cleared p) (asFile p) then ((d.cleared p).put (asFile p) (some c), .ok)
  else (d.cleared p, .err)

/-! ### Arguments -/

/-- Keys, `arguments/args_option_help.rs` L6-9, `args_option_embedded.rs` L6-10,
`args_option_overwrite.rs` L6-10, `args_option_files.rs` L18-36. -/
def helpKeys : List String := ["--help", "-h"]
def embeddedKeys : List String := ["--embedded", "--em", "-e"]
def overwriteKeys : List String := ["--overwrite", "--ow", "-o"]
def sourceKeys : List String := ["--source", "--src", "-s"]
def workflowKeys : List String := ["--workflow", "-wf"]
def rustKeys : List String := ["--destination-rs", "--dest-rs", "-rs"]
def tsKeys : List String := ["--destination-ts", "--dest-ts", "-ts"]
def consumerKeys : List String := ["--consumer-dest", "-cd"]
def producerKeys : List String := ["--producer-dest", "-pd"]
def pumlKeys : List String := ["--puml", "-d"]

/-- The argument is one of the keys. -/
def isOne (keys : List String) (a : Arg) : Bool := keys.any fun k => k.toList = a

/-- A flag is given, `arguments/args_option_overwrite.rs` L20, `args_option_help.rs` L19,
`args_option_embedded.rs` L20. -/
def flag (keys : List String) (args : List Arg) : Bool := args.any (isOne keys)

/-- The argument after the first of the keys, `arguments/args_option_files.rs` L193-200 and so on to
L254. -/
def valueOf (keys : List String) : List Arg → Option Arg
  | [] => none
  | a :: rest => if isOne keys a then rest.head? else valueOf keys rest

/-- Cleaner of a flag, `arguments/args_option_overwrite.rs` L53-60, `args_option_help.rs` L58-65,
`args_option_embedded.rs` L53-60. -/
def cleanFlag (keys : List String) : List Arg → List Arg
  | [] => []
  | a :: rest => if isOne keys a then rest else a :: cleanFlag keys rest

/-- One round of the cleaner of the keys with values, `arguments/args_option_files.rs` L424-437. -/
def cleanValue (keys : List String) : List Arg → List Arg
  | [] => []
  | a :: rest => if isOne keys a then rest.drop 1 else a :: cleanValue keys rest

/-- `get_unknown_args`, `ctrlargs.rs` L178-189, `arguments/args_option_files.rs` L412-441. -/
def unknown (args : List Arg) : List Arg :=
  cleanValue pumlKeys (cleanValue producerKeys (cleanValue consumerKeys (cleanValue tsKeys (cleanValue rustKeys
    (cleanValue workflowKeys (cleanValue sourceKeys (cleanFlag overwriteKeys (cleanFlag embeddedKeys
      (cleanFlag helpKeys args)))))))))

/-- `ArgsOptionFiles`, `arguments/args_option_files.rs` L38-47; of `errs` only whether there are any. -/
structure Opts where
  src : Option Dir
  workflow : Option Dir
  consumer : Option Dir
  producer : Option Dir
  rs : Option Dir
  ts : Option Dir
  uml : Option Dir
  errs : Bool

/-- `set_src`, `set_workflow`, `arguments/args_option_files.rs` L63-83: the path, and an error. -/
def source (d : Disk) : Option Dir → Option Dir × Bool
  | none => (none, false)
  | some p => if d.has p then (some p, false) else (none, true)

/-- `set_dest_rs`, `set_dest_ts`, `set_dest_uml`, `arguments/args_option_files.rs` L85-103, L137-145. -/
def destination (d : Disk) (overwrite : Bool) : Option Dir → Option Dir × Bool
  | none => (none, false)
  | some p => if ! overwrite && d.has p then (none, true) else (some p, false)

/-- `set_dest_consumer`, `set_dest_producer`, `arguments/args_option_files.rs` L105-135: the folder is made
while the arguments are read. -/
def folder (env : Env) (d : Disk) : Option Dir → Option Dir × Bool × Disk
  | none => (none, false, d)
  | some p =>
    if d.has p then (some p, false, d)
    else if env.canMake d p then (some p, false, d.makeDir p)
    else (none, true, d)

/-- `new`, `arguments/args_option_files.rs` L187-256. -/
def Opts.new (env : Env) (pwd : Dir) (args : List Arg) (d : Disk) : Opts × Disk :=
  let ow := flag overwriteKeys args
  let path (keys : List String) := (valueOf keys args).map (join pwd)
  let src := source d (path sourceKeys)
  let workflow := source d (path workflowKeys)
  let rs := destination d ow (path rustKeys)
  let ts := destination d ow (path tsKeys)
  let consumer := folder env d (path consumerKeys)
  let producer := folder env consumer.2.2 (path producerKeys)
  let uml := destination producer.2.2 ow (path pumlKeys)
  (⟨src.1, workflow.1, consumer.1, producer.1, rs.1, ts.1, uml.1,
    src.2 || workflow.2 || rs.2 || ts.2 || consumer.2.1 || producer.2.1 || uml.2⟩, producer.2.2)

/-- `has_errors`, `ctrlargs.rs` L106-128: only the file options have errors. -/
def hasErrors (args : List Arg) (o : Opts) : Bool :=
  if ! (unknown args).isEmpty then true else if flag helpKeys args then false else o.errs

/-! ### Actions -/

/-- One of the two protocol outputs at the end of `action`, `arguments/args_option_files.rs` L337-352,
L353-368; `render`, `protocol/render/rust/mod.rs` L835-864. -/
def output (env : Env) (t : Target) (overwrite embedded : Bool) (s : Prot.Store) (dest : Option Dir) (d : Disk) :
    Disk × End :=
  match dest with
  | none => (d, .ok)
  | some p =>
    if d.has p && ! overwrite then (d, .err)
    else if d.has p && ! env.canRemove d (asFile p) then (d, .err)
    else
      match env.renders t embedded s with
      | .ok => write env p (.code t embedded s) (d.cleared p)
      | e => (d.cleared p, e)

/-- Two steps; the second only after success (`?`). -/
def andThen (r : Disk × End) (f : Disk → Disk × End) : Disk × End :=
  match r with
  | (d, .ok) => f d
  | (d, e) => (d, e)

/-- The folders that are there after the generators: those of their files. A simplification: also after an
error the folders of the generators not run count as made. -/
def madeDirs (jobs : List Files.Job) (d : Files.Decls) (q : Dir) : Bool :=
  jobs.any fun j => (Files.ops j.side j.target d).any fun op => q.isPrefixOf (j.base ++ op.path.dir)

/-- `workflow_render`, `workflow/render/render.rs` L40-119, see `Files.render`; without configuration it is an
error (`get_config()?`). -/
def workflowCode (consumer producer : Option Dir) (w : Flow.Store) (d : Disk) : Disk × End :=
  match w.config with
  | none => (d, .err)
  | some c =>
    let r := Files.render consumer producer c (Files.Decls.ofStore w) d.world
    let jobs := Files.sideJobs .client consumer c.consumer ++ Files.sideJobs .server producer c.producer
    (⟨r.1, fun q => d.dirs q || madeDirs jobs (Files.Decls.ofStore w) q⟩, if r.2 then .ok else .err)

/-- `PumlRender::render`, `workflow/render/puml/mod.rs` L34-62; the text is that of `Model/Puml.lean`. -/
def drawing (env : Env) (p : Dir) (w : Flow.Store) (d : Disk) : Disk × End :=
  match Puml.render w with
  | some t => write env p (.scheme t) d
  | none => (d, .err)

/-- The part of `action` with a workflow, `arguments/args_option_files.rs` L311-336, and then `outputs` with the
protocol the workflow parser may have added to. `none`: not finished after `n` rounds of the parser. -/
def withWorkflow (n : Nat) (env : Env) (o : Opts) (s : Prot.Store) (d : Disk)
    (outputs : Prot.Store → Disk → Disk × End) : Option (Disk × End) :=
  match o.workflow with
  | none => some (outputs s d)
  | some p =>
    match env.read d (asFile p) with
    | none => some (d, .err)
    | some text =>
      match Flow.loop n (Flow.PState.init s) text with
      | none => none
      | some .rejected => some (d, .err)
      | some .panicked => some (d, .died 101)
      | some (.accepted w s2) =>
        some (andThen
          (match o.uml with
            | some u => drawing env u w d
            | none => workflowCode o.consumer o.producer w d)
          (outputs s2))

/-- `action`, `arguments/args_option_files.rs` L287-376. -/
def action (n : Nat) (env : Env) (overwrite embedded : Bool) (o : Opts) (d : Disk) : Option (Disk × End) :=
  match o.src with
  | none => some (d, .err)
  | some p =>
    match env.read d (asFile p) with
    | none => some (d, .err)
    | some text =>
      match Prot.loop n Prot.PState.init text with
      | none => none
      | some .rejected => some (d, .err)
      | some .stopped => some (d, .died 1)
      | some .panicked => some (d, .died 101)
      | some (.accepted s) =>
        if o.workflow.isNone && o.uml.isSome then some (d, .err)
        else
          withWorkflow n env o s d fun s d =>
            andThen (output env .rust overwrite embedded s o.rs d) fun d =>
              output env .typescript overwrite embedded s o.ts d

/-- How the process ends. -/
inductive Ending where
  /-- The current folder is unknown. -/
  | lost
  /-- `has_errors`. -/
  | rejected
  /-- `actions` returned errors. -/
  | failed
  /-- The process ended in an action. -/
  | died (status : Nat)
  | done
  deriving DecidableEq

/-- The exit status, `ctrlargs.rs` L69 (0), `main.rs` L18-26. -/
def Ending.status : Ending → Nat
  | .lost => 0
  | .rejected => 1
  | .failed => 0
  | .died s => s
  | .done => 0

/-- `main`, `main.rs` L18-26; `CtrlArgs::new`, `actions`, `ctrlargs.rs` L64-104, L130-142. The actions of the
other options change nothing, so the order of the map does not matter. -/
def main (n : Nat) (env : Env) (args : List Arg) (d : Disk) : Option (Disk × Ending) :=
  match env.pwd with
  | none => some (d, .lost)
  | some pwd =>
    let (o, d1) := Opts.new env pwd args d
    if hasErrors args o then some (d1, .rejected)
    else
      match action n env (flag overwriteKeys args) (flag embeddedKeys args) o d1 with
      | none => none
      | some (d2, .ok) => some (d2, .done)
      | some (d2, .err) => some (d2, .failed)
      | some (d2, .died s) => some (d2, .died s)

/-- The tool, called with these arguments, turns one state of the disk into another and ends so. -/
def Runs (env : Env) (args : List Arg) (d d2 : Disk) (e : Ending) : Prop :=
  ∃ n, main n env args d = some (d2, e)

end Verif.Cli
