import Verif.Model.WorkflowEntities
set_option autoImplicit false
/-!
Which files the four workflow generators (Rust and TypeScript, server and client) write, in which
order, and which of them are left alone if they exist. Files are cited relative to
`cli/src/workflow/render/`.

Paths are relative to the destination folder. What is written is not modelled as
text: `Content` says which renderer made it, for which declaration. Writing succeeds (no full disk, no
missing rights), folders are there when needed, and every declaration has its reference (`get_request`
and `get_reference` of accepted declarations do not fail).
-/
namespace Verif.Files

open Verif

abbrev Name := Prot.Name

abbrev Ref := Flow.Ref

/-- A folder, as the components of its path below the destination folder. -/
abbrev Dir := List Name

/-- A file below the destination folder. -/
structure Path where
  dir : Dir
  file : Name
  deriving DecidableEq

/-- What is in a file. -/
inductive Content where
  /-- Something that was not written in this run. -/
  | other (n : Nat)
  /-- A text shipped with the tool, `include_str!("./static/..")`. -/
  | static (path : Path)
  /-- The output of a renderer that does not depend on a single declaration. -/
  | whole (renderer : Name)
  /-- The output of a renderer for a declaration. -/
  | made (renderer : Name) (ref : Ref)
  /-- `pub mod a; pub mod b;` and fixed text. -/
  | mods (names : List Name)
  /-- `export { handler as aHandler } from "./a";` and fixed text: exported name and module. -/
  | exports (names : List (Name × Name))
  /-- The code of a protocol as the command line tool writes it (`Model/Cli.lean`). -/
  | code (target : Flow.Target) (embedded : Bool) (protocol : Prot.Store)
  /-- The diagram of a workflow (`Model/Puml.lean`) as the command line tool writes it (`Model/Cli.lean`). -/
  | scheme (text : List Char)
  deriving DecidableEq

/-- One write. `keep`: if the file exists, it is left as it is (`[SKIP]`). -/
structure Op where
  path : Path
  content : Content
  keep : Bool
  deriving DecidableEq

/-- The files below the destination folder. -/
abbrev Files := Path → Option Content

/-- `helpers::fs::write` with `overwrite == true`, `cli/src/helpers/fs.rs` L13-41: an existing file is
removed first. With `keep` the callers return before, for example
`producer/rust/render_request_response.rs` L56-59, `producer/rust/render_static.rs` L157-171. -/
def Op.run (op : Op) (fs : Files) : Files :=
  if op.keep && (fs op.path).isSome then fs
  else fun p => if p = op.path then some op.content else fs p

/-- The writes of a generator one after the other. -/
def run (ops : List Op) (fs : Files) : Files := ops.foldl (fun fs op => op.run fs) fs

/-- A folder written as a list of string literals. -/
def dir (l : List String) : Dir := l.map String.toList

/-- A write that replaces. -/
def put (d : List String) (file : Name) (c : Content) : Op := ⟨⟨dir d, file⟩, c, false⟩

/-- A write that leaves existing files alone. -/
def keep (d : List String) (file : Name) (c : Content) : Op := ⟨⟨dir d, file⟩, c, true⟩

/-- A shipped file that replaces. -/
def putStatic (d : List String) (file : Name) : Op := put d file (.static ⟨dir d, file⟩)

/-- A shipped file that leaves existing files alone. -/
def keepStatic (d : List String) (file : Name) : Op := keep d file (.static ⟨dir d, file⟩)

/-- `to_lowercase`. References consist of ASCII characters, `cli/src/workflow/parser.rs` L221-226. -/
def lower (r : List Char) : Name := r.map Char.toLower

/-- `to_lowercase().replace(".", "_")`, for example `producer/rust/render_request_handler.rs` L225;
the other order in `consumer/rust/render_broadcast.rs` L57 gives the same. -/
def rustName (r : Ref) : Name := (lower r).map fun c => if c = '.' then '_' else c

/-- `format!("{}.rs", ..)`. -/
def rustFile (r : Ref) : Name := rustName r ++ ".rs".toList

/-- `format!("{}.ts", r.to_lowercase())`, for example `producer/typescript/render_request_handler.rs`
L308. -/
def tsFile (r : Ref) : Name := lower r ++ ".ts".toList

/-- `first_letter_lowercase`, `cli/src/helpers/string.rs` L1-7. -/
def firstLower : List Char → Name
  | [] => []
  | c :: r => c.toLower :: r

/-- `format!("{}Handler", first_letter_lowercase(&r.replace(".", "")))`, for example
`producer/typescript/render_request_handlers_mod.rs` L66-70. -/
def tsExport (r : Ref) : Name × Name :=
  (firstLower (r.filter (· ≠ '.')) ++ "Handler".toList, lower r)

/-- The declarations a workflow consists of, as far as file names depend on them. -/
structure Decls where
  requests : List Ref
  events : List Ref
  beacons : List Ref
  /-- The references of all broadcasts of requests and events, in the order of the text. -/
  broadcasts : List Ref

/-- The declarations of a store. Broadcasts: `get_all_broadcasts`, `consumer/rust/render.rs` L19-48,
before repeated ones are left out. -/
def Decls.ofStore (s : Flow.Store) : Decls where
  requests := s.requests.filterMap (·.request)
  events := s.events.filterMap (·.reference)
  beacons := s.beacons.map (·.reference)
  broadcasts :=
    s.requests.flatMap (fun r => r.actions.flatMap (fun a => a.broadcast.map (·.reference))) ++
    s.events.flatMap (fun e => e.broadcasts.map (·.reference))

/-- The loops of `get_all_broadcasts`, `consumer/rust/render.rs` L19-48: the first of each reference. -/
def distinct (l : List Ref) : List Ref :=
  l.foldl (fun acc r => if acc.any (· == r) then acc else acc ++ [r]) []

/-! ### Rust server -/

/-- The loop over requests, `producer/rust/render.rs` L42-45; `render_request_response.rs` L54-82,
L160-173, `render_request_handler.rs` L100-115, L213-226. -/
def rustRequest (r : Ref) : List Op :=
  [keep ["responses"] (rustFile r) (.made "render_request_response".toList r),
   put ["implementation", "handlers"] (rustFile r) (.made "render_request_handler".toList r)]

/-- The loop over events, L48-51; `render_event_impl.rs` L48-87, L101-116, `render_event_emitter.rs`
L117-194, L200-215. -/
def rustEvent (r : Ref) : List Op :=
  [keep ["events"] (rustFile r) (.made "render_event_impl".toList r),
   put ["implementation", "emitters"] (rustFile r) (.made "render_event_emitter".toList r)]

/-- The loop over beacons, L52-55; `render_beacon_impl.rs` L34-60, `render_beacon_emitter.rs` L50-76. -/
def rustBeacon (r : Ref) : List Op :=
  [keep ["beacons"] (rustFile r) (.made "render_beacon_impl".toList r),
   put ["implementation", "beacons"] (rustFile r) (.made "render_beacon_emitter".toList r)]

/-- Events every server has: `paths::events`, `producer/rust/render_static.rs` L10-17. -/
def fixedEvents : List String := ["connected", "disconnected", "error", "ready", "shutdown"]

/-- The static files of an event unless the workflow declares it under exactly this reference,
`producer/rust/render_static.rs` L53-92. -/
def rustDefault (events : List Ref) (name : String) : List Op :=
  if events.any (· == name.toList) then []
  else
    [keepStatic ["events"] (name.toList ++ ".rs".toList),
     putStatic ["implementation", "emitters"] (name.toList ++ ".rs".toList)]

/-- `render`, `producer/rust/render_static.rs` L52-155. -/
def rustStatic (events : List Ref) : List Op :=
  rustDefault events "connected" ++ rustDefault events "disconnected" ++
  [keepStatic ["events"] "error.rs".toList,
   keepStatic ["events"] "ready.rs".toList,
   keepStatic ["events"] "shutdown.rs".toList,
   putStatic ["implementation", "emitters"] "error.rs".toList,
   putStatic ["implementation", "emitters"] "ready.rs".toList,
   putStatic ["implementation", "emitters"] "shutdown.rs".toList,
   putStatic [] "mod.rs".toList,
   putStatic ["implementation", "scope"] "mod.rs".toList,
   keepStatic [] "context.rs".toList]

/-- The modules listed for events: `render_event_impl_mod.rs` L22-40, `render_event_emitters_mod.rs`
L68-81 (there the fixed ones come last). -/
def rustEventMods (events : List Ref) : List Name :=
  fixedEvents.map String.toList ++ (events.filter (fun r => ! Flow.isDefaultEvent r)).map rustName

/-- `RustRender::render` of the server, `producer/rust/render.rs` L35-67, without the last step
(`render_cargo`, modelled in `Verif.Model.Manifest`). The lists: `render_request_responses_mod.rs` L20-31,
`render_request_handlers_mod.rs` L20-68, `render_beacon_emitters_mod.rs` L45-57,
`render_beacon_impl_mod.rs` L25-37. The last four: `render_protocol.rs` L20-42,
`render_identification.rs` L178-199, L249-261, `render_consumer.rs` L116-142, `render_mod.rs`
L1023-1042, L1215-1227. -/
def rustServer (d : Decls) : List Op :=
  d.requests.flatMap rustRequest ++
  [put ["responses"] "mod.rs".toList (.mods (d.requests.map rustName)),
   put ["implementation", "handlers"] "mod.rs".toList (.mods (d.requests.map rustName))] ++
  d.events.flatMap rustEvent ++ d.beacons.flatMap rustBeacon ++
  [put ["implementation", "beacons"] "mod.rs".toList (.mods (d.beacons.map rustName)),
   put ["beacons"] "mod.rs".toList (.mods (d.beacons.map rustName)),
   put ["events"] "mod.rs".toList (.mods (rustEventMods d.events)),
   put ["implementation", "emitters"] "mod.rs".toList (.mods (rustEventMods d.events))] ++
  rustStatic d.events ++
  [put ["implementation", "protocol"] "mod.rs".toList (.whole "render_protocol".toList),
   put ["implementation", "consumer"] "identification.rs".toList (.whole "render_identification".toList),
   put ["implementation", "consumer"] "mod.rs".toList (.whole "render_consumer".toList),
   put ["implementation"] "mod.rs".toList (.whole "render_mod".toList)]

/-! ### TypeScript server -/

/-- `producer/typescript/render.rs` L38-41; `render_request_response.rs` L38-64,
`render_request_handler.rs` L175-210, L296-309. -/
def tsRequest (r : Ref) : List Op :=
  [keep ["responses"] (tsFile r) (.made "render_request_response".toList r),
   put ["implementation", "responses"] (tsFile r) (.made "render_request_handler".toList r)]

/-- `producer/typescript/render.rs` L43-46; `render_event_impl.rs` L85-105, L115-127,
`render_event_emitter.rs` L139-164, L233-246. -/
def tsEvent (r : Ref) : List Op :=
  [keep ["events"] (tsFile r) (.made "render_event_impl".toList r),
   put ["implementation", "events"] (tsFile r) (.made "render_event_emitter".toList r)]

/-- `producer/typescript/render.rs` L48-51; `render_beacon_impl.rs` L37-60,
`render_beacon_emitter.rs` L57-77. -/
def tsBeacon (r : Ref) : List Op :=
  [keep ["beacons"] (tsFile r) (.made "render_beacon_impl".toList r),
   put ["implementation", "beacons"] (tsFile r) (.made "render_beacon_emitter".toList r)]

/-- `producer/typescript/render_static.rs` L58-97. -/
def tsDefault (events : List Ref) (name : String) : List Op :=
  if events.any (· == name.toList) then []
  else
    [keepStatic ["events"] (name.toList ++ ".ts".toList),
     putStatic ["implementation", "events"] (name.toList ++ ".ts".toList)]

/-- `render`, `producer/typescript/render_static.rs` L57-173. -/
def tsStatic (events : List Ref) : List Op :=
  tsDefault events "connected" ++ tsDefault events "disconnected" ++
  [keepStatic ["events"] "error.ts".toList,
   keepStatic ["events"] "ready.ts".toList,
   keepStatic ["events"] "shutdown.ts".toList,
   putStatic ["implementation", "consumer"] "index.ts".toList,
   putStatic ["implementation", "consumer"] "filter.ts".toList,
   putStatic ["implementation", "scope"] "index.ts".toList,
   putStatic ["implementation", "events"] "error.ts".toList,
   putStatic ["implementation", "events"] "ready.ts".toList,
   putStatic ["implementation", "events"] "shutdown.ts".toList,
   putStatic [] "index.ts".toList,
   keepStatic [] "context.ts".toList]

/-- The handlers exported for events, `producer/typescript/render_event_emitters_mod.rs` L11-16,
L65-82. -/
def tsEventExports (events : List Ref) : List (Name × Name) :=
  (events.filter (fun r => ! Flow.isDefaultEvent r)).map tsExport ++
  ["disconnected", "connected", "error", "ready", "shutdown"].map
    (fun n => (n.toList ++ "Handler".toList, n.toList))

/-- `TypescriptRender::render` of the server, `producer/typescript/render.rs` L31-59, without the last
step (`render_package`). The lists: `render_request_handlers_mod.rs` L60-74,
`render_beacon_emitters_mod.rs` L31-44. Then `render_protocol.rs` L20-42, `render_identification.rs`
L113-128, L162-174, `render_mod.rs` L621-642, L741-753. -/
def tsServer (d : Decls) : List Op :=
  d.requests.flatMap tsRequest ++
  [put ["implementation", "responses"] "index.ts".toList (.exports (d.requests.map tsExport))] ++
  d.events.flatMap tsEvent ++
  [put ["implementation", "events"] "index.ts".toList (.exports (tsEventExports d.events))] ++
  d.beacons.flatMap tsBeacon ++
  [put ["implementation", "beacons"] "index.ts".toList (.exports (d.beacons.map tsExport)),
   put ["implementation", "protocol"] "index.ts".toList (.whole "render_protocol".toList),
   put ["implementation", "consumer"] "identification.ts".toList (.whole "render_identification".toList)] ++
  tsStatic d.events ++
  [put ["implementation"] "index.ts".toList (.whole "render_mod".toList)]

/-! ### Rust client -/

/-- `render`, `consumer/rust/render_static.rs` L50-117. -/
def rustClientStatic : List Op :=
  ["connected", "disconnected", "error", "reconnect", "shutdown"].map
    (fun n => keepStatic ["events"] (n.toList ++ ".rs".toList)) ++
  [putStatic ["events"] "mod.rs".toList,
   putStatic ["implementation", "consumer"] "api.rs".toList,
   putStatic ["implementation", "consumer"] "error.rs".toList,
   putStatic ["implementation"] "mod.rs".toList,
   putStatic [] "mod.rs".toList,
   keepStatic [] "context.rs".toList]

/-- `RustRender::render` of the client, `consumer/rust/render.rs` L56-75, without the last step
(`render_cargo`): `render_broadcast.rs` L33-59, `render_broadcast_mod.rs` L25-52,
`render_controller.rs` L103-113, L214-226, `render_consumer.rs` L731-755, L802-814,
`render_options.rs` L45-67, `render_protocol.rs` L20-42. -/
def rustClient (d : Decls) : List Op :=
  (distinct d.broadcasts).map
    (fun r => keep ["broadcasts"] (rustFile r) (.made "render_broadcast".toList r)) ++
  [put ["broadcasts"] "mod.rs".toList (.mods ((distinct d.broadcasts).map rustName)),
   put ["implementation", "consumer"] "controller.rs".toList (.whole "render_controller".toList),
   put ["implementation", "consumer"] "mod.rs".toList (.whole "render_consumer".toList),
   put ["implementation", "consumer"] "options.rs".toList (.whole "render_options".toList),
   put ["implementation", "protocol"] "mod.rs".toList (.whole "render_protocol".toList)] ++
  rustClientStatic

/-! ### TypeScript client -/

/-- `TypescriptRender::render` of the client, `consumer/typescript/render.rs` L23-42, without the last
step (`render_package`): `render_request.rs` L93-121, L352-365, `render_beacon.rs` L137-144, L159-171,
`render_consumer.rs` L286-323, L446-448, `render_interfaces_request.rs` L29-46, `render_options.rs`
L49-56, `render_protocol.rs` L20-42. -/
def tsClient (d : Decls) : List Op :=
  d.requests.map (fun r => put ["requests"] (tsFile r) (.made "render_request".toList r)) ++
  d.beacons.map (fun r => put ["beacons"] (tsFile r) (.made "render_beacon".toList r)) ++
  [put [] "index.ts".toList (.whole "render_consumer".toList),
   put ["interfaces"] "request.ts".toList (.whole "render_interfaces_request".toList),
   put [] "options.ts".toList (.whole "render_options".toList),
   put ["protocol"] "protocol.ts".toList (.whole "render_protocol".toList)]

/-! ### Several generators -/

/-- `consumer` and `producer`. -/
inductive Side where
  | server
  | client
  deriving DecidableEq

/-- The writes of one generator. -/
def ops (side : Side) (t : Flow.Target) (d : Decls) : List Op :=
  match side, t with
  | .server, .rust => rustServer d
  | .server, .typescript => tsServer d
  | .client, .rust => rustClient d
  | .client, .typescript => tsClient d

/-- Writes below another folder. -/
def Op.under (d : Dir) (op : Op) : Op := { op with path := ⟨d ++ op.path.dir, op.path.file⟩ }

/-- The folder of a target: the destination itself if there is only one target, else a folder of its
own below; `render.rs` L56-84, L88-116. -/
def targetDir (outs : List Flow.Target) (t : Flow.Target) : Dir :=
  if outs.length > 1 then
    match t with
    | .rust => ["rust".toList]
    | .typescript => ["typescript".toList]
  else []

end Verif.Files
