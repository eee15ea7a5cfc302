import Verif.Model.Files
set_option autoImplicit false
/-!
Which modules the generated files refer to. Files are cited relative to `cli/src/workflow/render/`.

Only files of the generated tree are listed, not packages (`clibri`). A reference is a list of paths; the
compiler is content if one of them exists.
-/
namespace Verif.Files

open Verif
open Verif.Flow (Target)

/-- `"./n"` from the folder `D`: `n.ts` or `n/index.ts`. -/
def tsAt (D : List String) (n : Name) : List Path :=
  [⟨dir D, n ++ ".ts".toList⟩, ⟨dir D ++ [n], "index.ts".toList⟩]

/-- `mod n;` in the `mod.rs` of the folder `D`: `n.rs` or `n/mod.rs`. -/
def rustAt (D : List String) (n : Name) : List Path :=
  [⟨dir D, n ++ ".rs".toList⟩, ⟨dir D ++ [n], "mod.rs".toList⟩]

/-- What `index.ts` of `implementation/responses`, `implementation/events` and `implementation/beacons`
refer to besides the handlers: `producer/typescript/render_request_handlers_mod.rs` L8-15,
`producer/typescript/render_event_emitters_mod.rs` L8-15, `producer/typescript/render_beacon_emitters_mod.rs`
L8-15. `"../index"` is `implementation/index.ts`. -/
def tsIndexImports (d : Dir) : List (List Path) :=
  [tsAt ["implementation"] "protocol".toList, tsAt ["implementation"] "index".toList,
   tsAt ["implementation"] "consumer".toList, tsAt [] "context".toList] ++
  if d = dir ["implementation", "events"] then [tsAt ["implementation", "events"] "error".toList] else []

/-- The imports of files made for a declaration of the TypeScript server: `producer/typescript/`
`render_request_handler.rs` L15-17, L121-123, L207, `render_request_response.rs` L8-16, L47,
`render_event_emitter.rs` L15-16, L61-62, L160, `render_event_impl.rs` L8-9, L21, L39-40, L58, L103 (the
import of `Output` is there only if the event has broadcasts), `render_beacon_emitter.rs` L8-10, L61,
`render_beacon_impl.rs` L14-15. -/
def tsMadeImports (renderer : Name) (r : Ref) : List (List Path) :=
  if renderer = "render_request_handler".toList then
    [tsAt ["implementation", "responses"] "index".toList, tsAt ["responses"] (lower r),
     tsAt ["implementation"] "scope".toList]
  else if renderer = "render_request_response".toList then
    [tsAt ["implementation", "responses"] (lower r), tsAt ["implementation"] "responses".toList,
     tsAt ["implementation"] "scope".toList]
  else if renderer = "render_event_emitter".toList then
    [tsAt ["implementation", "events"] "index".toList, tsAt ["events"] (lower r)]
  else if renderer = "render_event_impl".toList then
    [tsAt ["implementation"] "events".toList, tsAt ["implementation", "events"] (lower r)]
  else if renderer = "render_beacon_emitter".toList then
    [tsAt ["implementation", "beacons"] "index".toList, tsAt ["beacons"] (lower r),
     tsAt ["implementation"] "scope".toList]
  else if renderer = "render_beacon_impl".toList then
    [tsAt ["implementation"] "beacons".toList, tsAt ["implementation"] "scope".toList]
  else []

/-- The imports of the shipped files of the TypeScript server, `producer/typescript/static/`:
`events/*.ts` L1-8, `implementation/events/*.ts` L1-3, `implementation/consumer/index.ts` L2-6,
`implementation/consumer/filter.ts` L1-2, `implementation/scope/index.ts` L1-3, `index.ts` L1-2,
`context.ts` L1. -/
def tsStaticImports (p : Path) : List (List Path) :=
  if p.dir = dir ["events"] then [tsAt ["implementation"] "events".toList]
  else if p.dir = dir ["implementation", "events"] then
    [tsAt ["implementation", "events"] "index".toList, [⟨dir ["events"], p.file⟩]]
  else if p = ⟨dir ["implementation", "consumer"], "index.ts".toList⟩ then
    [tsAt ["implementation", "consumer"] "identification".toList, tsAt ["implementation"] "protocol".toList,
     tsAt ["implementation", "consumer"] "filter".toList]
  else if p = ⟨dir ["implementation", "consumer"], "filter.ts".toList⟩ then
    [tsAt ["implementation", "consumer"] "index".toList,
     tsAt ["implementation", "consumer"] "identification".toList]
  else if p = ⟨dir ["implementation", "scope"], "index.ts".toList⟩ then
    [tsAt ["implementation"] "consumer".toList, tsAt ["implementation"] "index".toList,
     tsAt [] "context".toList]
  else if p = ⟨[], "index.ts".toList⟩ then [tsAt [] "implementation".toList, tsAt [] "context".toList]
  else if p = ⟨[], "context.ts".toList⟩ then [tsAt ["implementation"] "protocol".toList]
  else []

/-- What a file at `p` with a content refers to.

Rust server: `producer/rust/render_mod.rs` L9-21, `producer/rust/static/mod.rs` L1-2,
`producer/rust/render_consumer.rs` L9. TypeScript server: `producer/typescript/render_mod.rs` L8-15,
`producer/typescript/render_identification.rs` L11. Rust client: `consumer/rust/static/mod.rs` L1-4,
`consumer/rust/static/implementation/mod.rs` L1-2, `consumer/rust/static/events/mod.rs` L1-5,
`consumer/rust/render_consumer.rs` L11-14. TypeScript client: `consumer/typescript/render_consumer.rs`
L13-15, L418-445, `consumer/typescript/render_request.rs` L8-11, `consumer/typescript/render_beacon.rs`
L8-10. -/
def imports (side : Side) (t : Target) (d : Decls) (p : Path) (c : Content) : List (List Path) :=
  match side, t, c with
  | _, .rust, .mods names =>
    names.map fun n => [⟨p.dir, n ++ ".rs".toList⟩, ⟨p.dir ++ [n], "mod.rs".toList⟩]
  | .server, .rust, .whole r =>
    if r = "render_mod".toList then
      ["consumer", "emitters", "handlers", "protocol", "scope"].map
        (fun n => rustAt ["implementation"] n.toList) ++
      [[⟨dir ["implementation", "beacons"], "mod.rs".toList⟩], [⟨dir ["beacons"], "mod.rs".toList⟩],
       [⟨dir ["events"], "mod.rs".toList⟩], [⟨dir ["responses"], "mod.rs".toList⟩]]
    else if r = "render_consumer".toList then
      [rustAt ["implementation", "consumer"] "identification".toList]
    else []
  | .server, .rust, .static q =>
    if q = ⟨[], "mod.rs".toList⟩ then [rustAt [] "context".toList, rustAt [] "implementation".toList] else []
  | .server, .typescript, .made r ref => tsMadeImports r ref
  | .server, .typescript, .exports l =>
    l.map (fun e => [⟨p.dir, e.2 ++ ".ts".toList⟩, ⟨p.dir ++ [e.2], "index.ts".toList⟩]) ++
      tsIndexImports p.dir
  | .server, .typescript, .static q => tsStaticImports q
  | .server, .typescript, .whole r =>
    if r = "render_mod".toList then
      [tsAt ["implementation"] "consumer".toList, tsAt ["implementation"] "events".toList,
       tsAt [] "context".toList, tsAt ["implementation"] "responses".toList,
       tsAt ["implementation"] "beacons".toList, tsAt ["implementation"] "protocol".toList]
    else if r = "render_identification".toList then [tsAt ["implementation"] "protocol".toList]
    else []
  | .client, .rust, .static q =>
    if q = ⟨[], "mod.rs".toList⟩ then
      ["broadcasts", "context", "events", "implementation"].map (fun n => rustAt [] n.toList)
    else if q = ⟨dir ["implementation"], "mod.rs".toList⟩ then
      ["consumer", "protocol"].map (fun n => rustAt ["implementation"] n.toList)
    else if q = ⟨dir ["events"], "mod.rs".toList⟩ then
      ["connected", "disconnected", "error", "reconnect", "shutdown"].map
        (fun n => rustAt ["events"] n.toList)
    else []
  | .client, .rust, .whole r =>
    if r = "render_consumer".toList then
      ["api", "controller", "error", "options"].map
        (fun n => rustAt ["implementation", "consumer"] n.toList)
    else []
  | .client, .typescript, .made _ _ =>
    [tsAt ["protocol"] "protocol".toList, tsAt [] "index".toList, tsAt ["interfaces"] "request".toList]
  | .client, .typescript, .whole r =>
    if r = "render_consumer".toList then
      [tsAt [] "options".toList, tsAt ["protocol"] "protocol".toList] ++
      d.requests.map (fun r => tsAt ["requests"] (lower r)) ++
      d.beacons.map (fun r => tsAt ["beacons"] (lower r))
    else []
  | _, _, _ => []

end Verif.Files
