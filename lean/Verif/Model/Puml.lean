import Verif.Model.WorkflowEntities
set_option autoImplicit false
/-!
Model of the renderer of sequence diagrams: `cli/src/workflow/render/puml/mod.rs`, `render_request.rs`,
`render_event.rs`, `render_beacon.rs`, with the helpers of `cli/src/helpers/render.rs`. Texts are lists of
characters; `none` is `Err(..)`. Writing the file is not part of this model, see `Model/Cli.lean`.
-/
namespace Verif.Puml

open Verif.Flow (Ref Broadcast Event Action Request Store)

abbrev Text := List Char

/-! ### Helpers -/

/-- `str::replace` of the standard library: occurrences from left to right, what is put in is not looked at
again. The number counts characters of the occurrence still to be left out. -/
def replaceFrom (pat rep : Text) : Nat → Text → Text
  | _, [] => []
  | k + 1, _ :: cs => replaceFrom pat rep k cs
  | 0, c :: cs =>
    if pat.isPrefixOf (c :: cs) then rep ++ replaceFrom pat rep (pat.length - 1) cs
    else c :: replaceFrom pat rep 0 cs

def replace (s pat rep : Text) : Text := replaceFrom pat rep 0 s

/-- `split('\n')`. -/
def splitLines : Text → List Text
  | [] => [[]]
  | c :: cs =>
    if c = '\n' then [] :: splitLines cs
    else
      match splitLines cs with
      | [] => [[c]]
      | l :: ls => (c :: l) :: ls

/-- `tabs`, `helpers/render.rs` L1-5. -/
def tabs (n : Nat) : Text := List.replicate (n * 4) ' '

/-- The loop of `inject_tabs`, `helpers/render.rs` L10-18. -/
def joinTabs (t : Text) : List Text → Text
  | [] => []
  | [l] => t ++ l
  | l :: l2 :: ls => t ++ l ++ '\n' :: joinTabs t (l2 :: ls)

/-- `inject_tabs`, `helpers/render.rs` L7-20. -/
def injectTabs (n : Nat) (s : Text) : Text := joinTabs (tabs n) (splitLines s)

/-! ### Requests -/

/-- `templates::MODULE`, `render_request.rs` L4-7. -/
def requestTemplate : Text :=
  ("group [[name]]\n    Consumer -> Producer: [[request]]\n" ++
    "    Producer -->x Consumer: <font color=red>[[error]][[conclusions]]\nend").toList

/-- The loop over broadcasts, `render_request.rs` L49-57. -/
def actionBroadcasts (bs : List Broadcast) : Text :=
  bs.foldl (fun out b =>
    out ++ "\nProducer ".toList ++ (if b.optional then "-->" else "->").toList ++ " Consumers: ".toList ++
      b.reference) []

/-- The loop over actions, `render_request.rs` L38-67. -/
def actionsText : Text → List Action → Option Text
  | out, [] => some out
  | out, a :: rest =>
    match a.conclusion with
    | none => none
    | some name =>
      match a.response with
      | none => none
      | some reference =>
        actionsText
          (out ++ "\n== ".toList ++ name ++ " ==\n    Producer -> Consumer: ".toList ++ reference ++
            injectTabs 1 (actionBroadcasts a.broadcast)) rest

/-- `get_response`, `request.rs` L210-220. -/
def getResponse (q : Request) : Option Ref :=
  match q.actions with
  | [] => none
  | a :: _ => a.response

/-- `get_conclusions`, `render_request.rs` L35-72. -/
def conclusions (q : Request) : Option Text :=
  if q.actions.length > 1 then actionsText [] q.actions
  else (getResponse q).map fun r => "\nProducer -> Consumer: ".toList ++ r

/-- `RenderRequest::render`, `render_request.rs` L23-33; `get_request` and `get_err`, `request.rs` L200-208,
L222-228. -/
def renderRequest (q : Request) : Option Text :=
  match q.request with
  | none => none
  | some r =>
    let out := replace requestTemplate "[[name]]".toList (replace r ".".toList [])
    let out := replace out "[[request]]".toList r
    match q.error with
    | none => none
    | some e =>
      let out := replace out "[[error]]".toList e
      match conclusions q with
      | none => none
      | some c => some (replace out "[[conclusions]]".toList (injectTabs 1 c))

/-! ### Events -/

/-- `templates::MODULE`, `render_event.rs` L4-6. -/
def eventTemplate : Text :=
  "group [[name]]\n    Producer -> Producer: [[reference]][[broadcasts]]\nend".toList

/-- `get_broadcasts`, `render_event.rs` L33-39. -/
def eventBroadcasts (bs : List Broadcast) : Text :=
  bs.foldl (fun out b => out ++ "\nProducer --> Consumer: ".toList ++ b.reference) []

/-- `RenderEvent::render`, `render_event.rs` L22-31; `get_reference`, `event.rs` L84-92. -/
def renderEvent (e : Event) : Option Text :=
  match e.reference with
  | none => none
  | some r =>
    let out := replace eventTemplate "[[name]]".toList r
    let out := replace out "[[reference]]".toList r
    some (replace out "[[broadcasts]]".toList (injectTabs 1 (eventBroadcasts e.broadcasts)))

/-! ### Beacons -/

/-- `templates::MODULE`, `render_beacon.rs` L4-7. -/
def beaconTemplate : Text :=
  ("group Beacons\n    Consumer -> Producer: Connected Event\n" ++
    "    Consumer -> Producer: Disconnected Event[[broadcasts]]\nend").toList

/-- `get_beacons`, `render_beacon.rs` L32-38. -/
def beaconLines (bs : List Broadcast) : Text :=
  bs.foldl (fun out b => out ++ "\nConsumer --> Producer: ".toList ++ b.reference) []

/-- `RenderBeacons::render`, `render_beacon.rs` L23-30. -/
def renderBeacons (bs : List Broadcast) : Text :=
  replace beaconTemplate "[[broadcasts]]".toList (injectTabs 1 (beaconLines bs))

/-! ### The diagram -/

/-- `templates::MODULE`, `puml/mod.rs` L13-17. -/
def moduleTemplate : Text :=
  "@startuml\n\n    collections Consumers as Consumers\n    [[content]]\n@enduml".toList

/-- One round of the loops of `PumlRender::render`, `puml/mod.rs` L42-46. -/
def put (out part : Text) : Text := out ++ '\n' :: injectTabs 1 part ++ ['\n']

/-- A loop of `PumlRender::render`, `puml/mod.rs` L41-54. -/
def putAll {α : Type} (f : α → Option Text) : Text → List α → Option Text
  | out, [] => some out
  | out, x :: xs =>
    match f x with
    | none => none
    | some t => putAll f (put out t) xs

/-- `PumlRender::render`, `puml/mod.rs` L34-61, up to `fs::write`. -/
def render (s : Store) : Option Text :=
  match putAll renderRequest [] s.requests with
  | none => none
  | some out =>
    match putAll renderEvent out s.events with
    | none => none
    | some out => some (replace moduleTemplate "[[content]]".toList (put out (renderBeacons s.beacons)))

end Verif.Puml
