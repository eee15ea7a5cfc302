import Verif.Model.RustStream
import Verif.Model.WorkflowEntities
set_option autoImplicit false
/-!
The parts of a generated Rust server (producer): what it knows about its clients, what it can do to
the outside world, and the code generated for requests, events and beacons. Files are cited relative
to `cli/src/workflow/render/producer/rust/`.

The outside world is the argument `Env`: the transport and all code written by the user of the
generated server. Its answers may depend on the whole state of the server including everything that
happened before, so a statement for every `Env` is a statement for every behaviour of transport and
user code. The server keeps a list of what happened (`past`, newest first); the code never reads it.
-/
namespace Verif.Server

open Verif

/-- `Uuid` of a connection. Only equality is used. -/
abbrev Uuid := Nat

abbrev Ref := Flow.Ref

/-- `ProducerIdentificationStrategy`, `render_mod.rs` L102-114. -/
inductive Strategy where
  | log
  | emitError
  | disconnect
  | emitErrorAndDisconnect
  | ignore
  deriving DecidableEq

/-- `ConsumerErrorHandelingStrategy`, `render_mod.rs` L116-126. -/
inductive ErrorStrategy where
  | emitError
  | disconnect
  | emitErrorAndDisconnect
  | log
  deriving DecidableEq

/-- `Options`, `render_mod.rs` L128-132. -/
structure Options where
  identification : Strategy
  onError : ErrorStrategy

/-- `Options::new`, `render_mod.rs` L141-147. -/
def Options.new : Options := ⟨.log, .emitErrorAndDisconnect⟩

/-- A decoded message from a client, seen by the `match` of `render_mod.rs` L447-648: the hash request
of the group `InternalServiceGroup`, or any other struct or enum with its dotted name. `P` is the
type of contents. A self key of type `InternalServiceGroup.HashRequest` is not representable. -/
inductive In (P : Type) where
  | hash (protocol workflow : List Char)
  | msg (ref : Ref) (payload : P)

/-- A message to a client, before packing: `ConnectConfirmationBeacon` (`render_mod.rs` L811), the
response to a self key (L460-462), `HashResponse` (L524-530; its text is constant, kept is whether
there is an error), `BeaconConfirmation` (`render_beacon_emitter.rs` L25), or a message of the
protocol, with its dotted name. -/
inductive Out (P : Type) where
  | confirmation
  | selfKey (uuid : Uuid)
  | hash (error : Bool)
  | beacon
  | msg (ref : Ref) (payload : P)

/-- What can happen. Input from outside: `opened`, `closed`, `confirmed`, `chunk` (data from a client
arrives), `got` (a message of a client is looked at), `keyChange`, `assignment`. Calls of the
transport: `send` with sequence, message and outcome, `drop` (disconnect). Calls of user code:
`respond` and `beacon` (with client, name, sequence), `event`, `error`, `ready`; `deferred` is the
end of an emitter, `scope.call()`. -/
inductive Act (P : Type) where
  | opened (u : Uuid)
  | closed (u : Uuid)
  | confirmed (u : Uuid)
  | chunk (u : Uuid)
  | got (u : Uuid) (m : In P) (seq : UInt32)
  | keyChange (u : Uuid)
  | assignment (u : Uuid)
  | send (u : Uuid) (seq : UInt32) (o : Out P) (ok : Bool)
  | drop (u : Uuid)
  | respond (u : Uuid) (ref : Ref) (seq : UInt32)
  | beacon (u : Uuid) (ref : Ref) (seq : UInt32)
  | event (ref : Ref)
  | error (u : Option Uuid)
  | ready
  | deferred

/-- `Consumer` (`render_consumer.rs` L25-31) with its `Identification`
(`render_identification.rs` L66-73; the channel and the copy of the strategy are left out). -/
structure Consumer (P : Type) where
  reader : Rust.Reader (In P)
  key : Option P
  assigned : Option P
  discredited : Bool
  hashAccepted : Bool
  confirmed : Bool

/-- `Consumer::new` and `Identification::new`, `render_consumer.rs` L34-46,
`render_identification.rs` L76-89. -/
def Consumer.new {P : Type} : Consumer P := ⟨.new, none, none, false, false, false⟩

/-- `Identification::key`, `render_identification.rs` L113-119; `merge old new` is the generated body
of the `else` branch. -/
def Consumer.setKey {P : Type} (merge : P → P → P) (c : Consumer P) (k : P) (overwrite : Bool) :
    Consumer P :=
  match c.key with
  | none => { c with key := some k }
  | some old => { c with key := some (if overwrite then k else merge old k) }

/-- `Identification::assign`, `render_identification.rs` L121-127. -/
def Consumer.assign {P : Type} (merge : P → P → P) (c : Consumer P) (k : P) (overwrite : Bool) :
    Consumer P :=
  match c.assigned with
  | none => { c with assigned := some k }
  | some old => { c with assigned := some (if overwrite then k else merge old k) }

/-- `Identification::assigned`, `render_identification.rs` L129-145. -/
def Consumer.isAssigned {P : Type} (c : Consumer P) (strategy : Strategy) : Bool :=
  if c.assigned.isNone then
    match strategy with
    | .ignore => true
    | .log => true
    | _ => false
  else true

/-- The locals of `listener`: the map `consumers` (`render_mod.rs` L666) as list of pairs, the queue
of `tx_confirm` / `rx_confirm` (L664-665), and the past. -/
structure State (P : Type) where
  consumers : List (Uuid × Consumer P)
  confirms : List Uuid
  past : List (Act P)

/-- Start of `listener`. -/
def State.new {P : Type} : State P := ⟨[], [], []⟩

/-- `consumers.get(&uuid)`. -/
def State.find {P : Type} (s : State P) (u : Uuid) : Option (Consumer P) := s.consumers.lookup u

/-- A change through `consumers.get_mut(&uuid)`. -/
def State.set {P : Type} (s : State P) (u : Uuid) (c : Consumer P) : State P :=
  { s with consumers := s.consumers.map (fun p => if p.1 = u then (u, c) else p) }

/-- Note what happens. -/
def State.push {P : Type} (s : State P) (a : Act P) : State P := { s with past := a :: s.past }

/-- What user code answers in the template with conclusions: `Result<Response, protocol::[[error]]>`
where `Response` has one constructor per action with the response and its broadcasts
(`render_request_response.rs` L10-26, L77-125). -/
abbrev Cast (P : Type) := List Uuid × P

/-- The type of one broadcast, `render_request_response.rs` L133-146. -/
def CastVal (P : Type) : Bool → Type
  | true => Option (Cast P)
  | false => Cast P

/-- The broadcasts of an action or event, in the order of declaration. -/
def Casts (P : Type) : List Flow.Broadcast → Type
  | [] => Unit
  | b :: bs => CastVal P b.optional × Casts P bs

inductive Conclusion (P : Type) (r : Flow.Request) where
  | error (e : P)
  | action (i : Fin r.actions.length) (response : P) (casts : Casts P (r.actions.get i).broadcast)

/-- The same for the template without conclusions: `Result<protocol::[[response]],
protocol::[[error]]>`, `render_request_response.rs` L27-38. -/
inductive Reply (P : Type) where
  | error (e : P)
  | response (p : P)

/-- Transport and user code. `none` and `panic` stand for a panic.
`send`, `drop`: `server::Control` of the transport. `conclude`, `reply`: `responses::*::response`.
`beacon`: `beacons::*::emit`. `emit`: `events::*::emit` of declared events and of `connected` and
`disconnected`. `error`, `ready`: `static/events/error.rs`, `ready.rs`. -/
structure Env (P : Type) where
  send : State P → Uuid → UInt32 → Out P → Bool
  drop : State P → Uuid → Bool
  conclude : State P → (r : Flow.Request) → Uuid → P → Option (Conclusion P r)
  reply : State P → Flow.Request → Uuid → P → Option (Reply P)
  beacon : State P → Ref → Uuid → P → Res Unit
  emit : State P → (e : Flow.Event) → Option P → Res (Casts P e.broadcasts)
  error : State P → Option Uuid → Res Unit
  ready : State P → Res Unit

/-- What is generated from the protocol and the workflow: the decoder, the workflow, the name of the
self key, the two hashes (`render_mod.rs` L41-44), which messages can be packed (`pack` fails for
enums without value), and the bodies of the two merge functions. -/
structure Cfg (P : Type) where
  decoder : Rust.Decoder (In P)
  workflow : Flow.Store
  selfKey : Ref
  protocolHash : List Char
  workflowHash : List Char
  packs : Out P → Bool
  mergeKey : P → P → P
  mergeAssigned : P → P → P

/-- A piece of the server. `err` is an `Err(..)` passed on with `?`. -/
abbrev Proc (P : Type) := State P → Res Unit × State P

/-- `p.await?; q`. -/
def Proc.andThen {P : Type} (p q : Proc P) : Proc P := fun s =>
  match p s with
  | (.ok _, s') => q s'
  | (.err, s') => (.err, s')
  | (.panic, s') => (.panic, s')

/-- Nothing. -/
def Proc.skip {P : Type} : Proc P := fun s => (.ok (), s)

/-- `control.send(pack(..), Some(uuid))`, `render_mod.rs` L210-219. -/
def send {P : Type} (env : Env P) (u : Uuid) (seq : UInt32) (o : Out P) (s : State P) :
    Bool × State P :=
  let ok := env.send s u seq o
  (ok, s.push (.send u seq o ok))

/-- `Control::broadcast`, `render_mod.rs` L221-235: failures are only logged. -/
def broadcast {P : Type} (env : Env P) (o : Out P) : List Uuid → State P → State P
  | [], s => s
  | u :: us, s => broadcast env o us (send env u 0 o s).2

/-- `for msg in broadcasting.iter_mut() { broadcast(msg, control) }`,
`render_request_handler.rs` L38-40. -/
def broadcastAll {P : Type} (env : Env P) : List (Ref × Cast P) → State P → State P
  | [], s => s
  | (r, us, p) :: cs, s => broadcastAll env cs (broadcast env (.msg r p) us s)

/-- The pushes to `broadcasting`: required broadcasts always, optional ones if given.
`render_request_handler.rs` L155-189, `render_event_emitter.rs` L139-170. -/
def castList {P : Type} : (bs : List Flow.Broadcast) → Casts P bs → List (Ref × Cast P)
  | [], _ => []
  | ⟨r, true⟩ :: bs, (some c, cs) => (r, c) :: castList bs cs
  | ⟨_, true⟩ :: bs, (none, cs) => castList bs cs
  | ⟨r, false⟩ :: bs, (c, cs) => (r, c) :: castList bs cs

/-- The common end of the two request templates: broadcasts and answer are packed, the answer is
sent, then the broadcasts, then deferred code runs. `render_request_handler.rs` L28-44 and L49-53;
L74-82. -/
def finish {P : Type} (cfg : Cfg P) (env : Env P) (u : Uuid) (seq : UInt32) (o : Out P)
    (casts : List (Ref × Cast P)) : Proc P := fun s =>
  if !casts.all (fun c => cfg.packs (.msg c.1 c.2.2)) || !cfg.packs o then (.err, s)
  else
    match send env u seq o s with
    | (false, s) => (.err, s)
    | (true, s) => (.ok (), (broadcastAll env casts s).push .deferred)

/-- The generated `process` of a request: `render_request_handler.rs` L9-45 (more than one action) and
L57-83 (otherwise), selected at L103. The names of error and response are those of the workflow. -/
def process {P : Type} (cfg : Cfg P) (env : Env P) (r : Flow.Request) (u : Uuid) (p : P)
    (seq : UInt32) : Proc P := fun s =>
  let s := s.push (.respond u (r.request.getD []) seq)
  if r.actions.length > 1 then
    match env.conclude s r u p with
    | none => (.panic, s)
    | some (.error e) => finish cfg env u seq (.msg (r.error.getD []) e) [] s
    | some (.action i x casts) =>
      finish cfg env u seq (.msg ((r.actions.get i).response.getD []) x) (castList _ casts) s
  else
    match env.reply s r u p with
    | none => (.panic, s)
    | some (.error e) => finish cfg env u seq (.msg (r.error.getD []) e) [] s
    | some (.response x) =>
      finish cfg env u seq (.msg ((r.actions.head?.bind Flow.Action.response).getD []) x) [] s

/-- The generated `emit` of a beacon, `render_beacon_emitter.rs` L15-36. -/
def emitBeacon {P : Type} (cfg : Cfg P) (env : Env P) (ref : Ref) (u : Uuid) (p : P)
    (seq : UInt32) : Proc P := fun s =>
  let s := s.push (.beacon u ref seq)
  match env.beacon s ref u p with
  | .panic => (.panic, s)
  | .err => (.err, s)
  | .ok _ => finish cfg env u seq .beacon [] s

/-- The generated `emit` of an event, `render_event_emitter.rs` L10-101; all four templates, a list of
broadcasts may be empty. -/
def emitEvent {P : Type} (cfg : Cfg P) (env : Env P) (e : Flow.Event) (p : Option P) : Proc P :=
  fun s =>
  let s := s.push (.event (e.reference.getD []))
  match env.emit s e p with
  | .panic => (.panic, s)
  | .err => (.err, s)
  | .ok casts =>
    let casts := castList _ casts
    if !casts.all (fun c => cfg.packs (.msg c.1 c.2.2)) then (.err, s)
    else (.ok (), (broadcastAll env casts s).push .deferred)

/-- The emitter for `connected` and `disconnected`: the declared one, or the static one without
broadcasts (`render_static.rs` L53-92, `static/implementation/emitters/connected.rs`). -/
def defaultEvent {P : Type} (cfg : Cfg P) (name : Ref) : Flow.Event :=
  match cfg.workflow.events.find? (fun e => e.reference = some name) with
  | some e => e
  | none => ⟨some name, [], [], .nothing, true⟩

end Verif.Server
