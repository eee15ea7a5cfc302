import Verif.Model.RustStream
import Verif.Model.WorkflowParser
set_option autoImplicit false
/-!
A generated Rust client (consumer). Files are cited relative to
`cli/src/workflow/render/consumer/rust/`; `render_consumer.rs` is cited by line only.

One call of `listen` is modelled: the tasks `client_api_task` and `client_messages_task`, the spawned
`auth`, and calls of user code. They run concurrently and talk through channels, so a run is a list of
inputs that say which of them goes on, in any order; an input that cannot happen does nothing. A task
goes on until it waits the next time. Channels without limit are lists; a channel for one answer
(`oneshot`) is a `Reply` at the task that waits. The state keeps a list of what happened, newest
first, which the code never reads.

Left out: the task that hands out `Consumer` (L215-233), `Api::send` (no generated code calls it),
messages of the transport that are not binary, logging, and a timeout of 0 ms, which can end a call
before its request is passed on. `Consumer::shutdown` is the input `shutdown`: that it goes through the
channel of commands and shuts down the transport first is left out. How the transport behaves is left
open: its events and results are inputs.
-/
namespace Verif.Client

open Verif

abbrev Name := Prot.Name

abbrev Ref := Flow.Ref

variable {P : Type}

/-- A decoded message from the server: the four of the group `InternalServiceGroup` the client looks
at, and any other one with its name; of errors it is kept whether there is one. -/
inductive In (P : Type) where
  | confirmation
  | selfKey (uuid : List Char)
  | hash (error : Bool)
  | beacon (error : Bool)
  | msg (ref : Ref) (body : P)

/-- A message to the server: self key (L637-642), hash request (L672-681), and request or beacon with
the uuid that is packed with it. -/
inductive Out (P : Type) where
  | selfKey
  | hash
  | msg (uuid : Option (List Char)) (ref : Ref) (body : P)

/-- What user code asks for: `render_controller.rs` L64-87, L37-63. -/
inductive Job where
  | request (r : Flow.Request)
  | beacon (ref : Ref)

/-- Who waits for a response. -/
inductive Who where
  | auth (n : Nat)
  | call (n : Nat)
  deriving DecidableEq

/-- What a call returns: a variant of the response enum with its message, the variant `Err`, `Ok(())`,
or an error: `Broadcast`, `UnexpectedResponse`, `Timeout`, any other one. -/
inductive Result (P : Type) where
  | conclusion (c : Option Name) (ref : Ref) (body : P)
  | error (ref : Ref) (body : P)
  | confirmed
  | refused
  | unexpected
  | timeout
  | failed

/-- `Emitter`, L55-61, with the broadcasts. Errors: of the transport, of the reader, of the handshake,
of `api.accept`, and an unknown message. `shutdown`: whether all went without error. -/
inductive Event (P : Type) where
  | connected
  | disconnected
  | shutdown (ok : Bool)
  | transportError
  | readError
  | authError
  | acceptError
  | unknown (seq : UInt32)
  | broadcast (ref : Ref) (body : P)

/-- What can happen: user code calls, a call ends, `numbered`: a call gets its sequence, a message is
passed to the transport, a piece of data arrives, a message is looked at, is handed to who waits for
it, an event goes to user code, a handshake starts or ends, a task ends (with or without error). -/
inductive Act (P : Type) where
  | called (n : Nat) (job : Job) (body : P)
  | ended (n : Nat) (r : Result P)
  | numbered (n : Nat) (seq : UInt32)
  | sent (who : Who) (seq : UInt32) (o : Out P)
  | chunk (bytes : Bytes)
  | got (seq : UInt32) (m : In P)
  | delivered (who : Who) (seq : UInt32) (m : In P)
  | emitted (e : Event P)
  | authStarted (n : Nat)
  | authEnded (n : Nat) (uuid : Option (List Char))
  | apiEnded (ok : Bool)
  | messagesEnded (ok : Bool)
  | panicked

/-- The receiving end of a `oneshot` channel. -/
inductive Reply (α : Type) where
  | waiting
  | ready (a : α)
  | closed

/-- A sender was dropped. -/
def Reply.close {α : Type} : Reply α → Reply α
  | .waiting => .closed
  | r => r

/-- `Channel`, `static/implementation/consumer/api.rs` L8-15. -/
inductive Cmd (P : Type) where
  | request (who : Who) (seq : UInt32) (o : Out P)
  | accept (seq : UInt32) (m : In P)
  | uuid (n : Nat)
  | sequence (n : Nat)

/-- `Auth`, L43-47. -/
inductive AuthMsg where
  | setUuid (r : Option (List Char))
  | getUuid (n : Nat)
  deriving DecidableEq

/-- Where a call waits: for its sequence, the uuid, the response. -/
inductive Phase (P : Type) where
  | sequence (r : Reply UInt32)
  | uuid (seq : UInt32) (r : Reply (Option (List Char)))
  | response (seq : UInt32) (r : Reply (In P))

/-- A call of user code. -/
structure Call (P : Type) where
  job : Job
  body : P
  phase : Phase P

/-- Where `auth` waits, L629-715. -/
inductive AuthPhase (P : Type) where
  | start
  | key (r : Reply (In P))
  | hash (uuid : List Char) (r : Reply (In P))

/-- The variables of `client_api_task`, L422-423. -/
structure Api where
  pending : List (UInt32 × Who)
  sequence : UInt32

/-- Where `client_messages_task` is: waiting for something to do (L507), between two messages (L525),
or waiting for `api.accept` (L548). -/
inductive Place (P : Type) where
  | idle
  | between
  | accepting (seq : UInt32) (m : In P) (r : Reply Bool)

/-- The variables of `client_messages_task`, L505-506. -/
structure Msgs (P : Type) where
  reader : Rust.Reader (In P)
  place : Place P
  uuid : Option (List Char)

/-- The whole client; `none` is a task that ended. `open_` until `client.connect()` returned; `failed`:
one of the three ended with an error; `shut`: user code asked for `shutdown` (L247-263); `over`: `listen`
returned. -/
structure State (P : Type) where
  api : Option Api
  queue : List (Cmd P)
  msgs : Option (Msgs P)
  auths : List (Nat × AuthPhase P)
  authQueue : List AuthMsg
  calls : List (Nat × Call P)
  next : Nat
  cancelled : Bool
  open_ : Bool
  failed : Bool
  shut : Bool
  over : Bool
  past : List (Act P)

/-- The start of `listen`, L190-212, L422-423, L505-506. -/
def State.new : State P :=
  ⟨some ⟨[], 10⟩, [], some ⟨.new, .idle, none⟩, [], [], [], 0, false, true, false, false, false, []⟩

/-- Note what happens. -/
def State.push (s : State P) (a : Act P) : State P := { s with past := a :: s.past }

/-- What is generated from protocol and workflow. `packs` says which messages can be packed,
`parseUuid` is `Uuid::from_str` followed by `to_string`. -/
structure Cfg (P : Type) where
  decoder : Rust.Decoder (In P)
  workflow : Flow.Store
  packs : Out P → Bool
  parseUuid : List Char → Option (List Char)

/-- `get_all_broadcasts`, `render.rs` L19-48; only which names are there matters. -/
def Cfg.broadcasts (cfg : Cfg P) : List Ref :=
  (cfg.workflow.requests.flatMap (fun r => r.actions.flatMap Flow.Action.broadcast) ++
    cfg.workflow.events.flatMap Flow.Event.broadcasts).map Flow.Broadcast.reference

/-! ### Calls of user code -/

/-- The object in the list changes. -/
def State.setCall (s : State P) (n : Nat) (c : Call P) : State P :=
  { s with calls := s.calls.map (fun p => if p.1 = n then (n, c) else p) }

/-- A call returns, or user code drops it. -/
def State.dropCall (s : State P) (n : Nat) : State P :=
  { s with calls := s.calls.filter (fun p => p.1 ≠ n) }

/-- A call returns. -/
def State.endCall (s : State P) (n : Nat) (r : Result P) : State P :=
  (s.dropCall n).push (.ended n r)

/-- `tx_client_api.send(..)`. -/
def State.command (s : State P) (c : Cmd P) : State P := { s with queue := s.queue ++ [c] }

/-- The message a call sends, `render_controller.rs` L160, L176. -/
def Job.ref : Job → Ref
  | .request r => r.request.getD []
  | .beacon ref => ref

/-- The `match message` at the end of a call: `render_controller.rs` L82-86 with L177-207 (the arms are
tried in order), L52-62. -/
def conclude (job : Job) (m : In P) : Result P :=
  match job, m with
  | .request r, .msg ref body =>
    match r.actions.find? (fun a => a.response = some ref) with
    | some a => .conclusion a.conclusion ref body
    | none => if r.error = some ref then .error ref body else .unexpected
  | .beacon _, .beacon error => if error then .refused else .confirmed
  | _, _ => .unexpected

/-- User code calls a method: up to the first `await` in `api.sequence()`, `api.rs` L35-45. -/
def call (job : Job) (body : P) (s : State P) : State P :=
  let n := s.next
  let s := ({ s with next := n + 1 } : State P).push (.called n job body)
  match s.api with
  | none => s.push (.ended n .failed)
  | some _ =>
    ({ s with calls := s.calls ++ [(n, ⟨job, body, .sequence .waiting⟩)] } : State P).command
      (.sequence n)

/-- A call goes on: `render_controller.rs` L68-81, L41-51; `api.rs` L54-70, L88-108. -/
def proceed (cfg : Cfg P) (n : Nat) (s : State P) : State P :=
  match s.calls.lookup n with
  | none => s
  | some c =>
    match c.phase with
    | .sequence (.ready q) =>
      match s.api with
      | none => s.endCall n .failed
      | some _ => (s.setCall n { c with phase := .uuid q .waiting }).command (.uuid n)
    | .uuid q (.ready u) =>
      if cfg.packs (.msg u c.job.ref c.body) then
        match s.api with
        | none => s.endCall n .failed
        | some _ => (s.setCall n { c with phase := .response q .waiting }).command
            (.request (.call n) q (.msg u c.job.ref c.body))
      else s.endCall n .failed
    | .response _ (.ready m) => s.endCall n (conclude c.job m)
    | .sequence .closed => s.endCall n .failed
    | .uuid _ .closed => s.endCall n .failed
    | .response _ .closed => s.endCall n .failed
    | _ => s

/-- The timeout of a request, `render_controller.rs` L73-81; beacons have none. -/
def timeout (n : Nat) (s : State P) : State P :=
  match s.calls.lookup n with
  | some ⟨.request _, _, .response _ _⟩ => s.endCall n .timeout
  | _ => s

/-! ### The tasks end -/

/-- A call whose sender is dropped with `client_api_task`. A uuid may be under way already. -/
def Call.orphan (c : Call P) (underWay : Bool) : Call P :=
  match c.phase with
  | .sequence r => { c with phase := .sequence r.close }
  | .uuid q r => if underWay then c else { c with phase := .uuid q r.close }
  | .response q r => { c with phase := .response q r.close }

/-- The same for `auth`: its sender is in the channel or in `pending`, L435-439. -/
def AuthPhase.orphan : AuthPhase P → AuthPhase P
  | .start => .start
  | .key r => .key r.close
  | .hash u r => .hash u r.close

/-- The same for `api.accept`: its sender is in the channel, L445. -/
def Place.orphan : Place P → Place P
  | .accepting q m r => .accepting q m r.close
  | p => p

/-- `client_api_task` ends; its variables and the commands in the channel are dropped. L293-306. -/
def endApi (ok : Bool) (s : State P) : State P :=
  ({ s with
    api := none
    queue := []
    cancelled := true
    failed := s.failed || !ok
    calls := s.calls.map (fun p => (p.1, p.2.orphan (s.authQueue.contains (.getUuid p.1))))
    auths := s.auths.map (fun p => (p.1, p.2.orphan))
    msgs := s.msgs.map (fun m => { m with place := m.place.orphan }) } : State P).push (.apiEnded ok)

/-- A call that waits for the uuid while its sender is in the channel `rx_auth`, L618. -/
def Call.unheard (c : Call P) (underWay : Bool) : Call P :=
  match c.phase with
  | .uuid q r => if underWay then { c with phase := .uuid q r.close } else c
  | _ => c

/-- `client_messages_task` ends; what is in the channel `rx_auth` is dropped. L267-292. -/
def endMsgs (ok : Bool) (s : State P) : State P :=
  ({ s with
    msgs := none
    authQueue := []
    cancelled := true
    failed := s.failed || !ok
    calls := s.calls.map (fun p => (p.1, p.2.unheard (s.authQueue.contains (.getUuid p.1)))) } :
    State P).push (.messagesEnded ok)

/-! ### `client_api_task` -/

/-- `response.send(msg)`, L447; `none` if the receiver is gone. -/
def deliver (who : Who) (seq : UInt32) (m : In P) (s : State P) : Option (State P) :=
  match who with
  | .call n =>
    match s.calls.lookup n with
    | some ⟨job, body, .response q .waiting⟩ =>
      some ((s.setCall n ⟨job, body, .response q (.ready m)⟩).push (.delivered who seq m))
    | _ => none
  | .auth n =>
    match s.auths.lookup n with
    | some (.key .waiting) =>
      some (({ s with auths := s.auths.map (fun p =>
        if p.1 = n then (n, .key (.ready m)) else p) } : State P).push (.delivered who seq m))
    | some (.hash u .waiting) =>
      some (({ s with auths := s.auths.map (fun p =>
        if p.1 = n then (n, .hash u (.ready m)) else p) } : State P).push (.delivered who seq m))
    | _ => none

/-- `tx_response.send(accepted)`, L457. The other task waits for it. -/
def answerAccept (b : Bool) (s : State P) : State P :=
  { s with msgs := s.msgs.map (fun m =>
      match m.place with
      | .accepting q x .waiting => { m with place := .accepting q x (.ready b) }
      | _ => m) }

/-- The next sequence, L471-474. -/
def nextSequence (q : UInt32) : UInt32 :=
  let q := q + 1
  if q ≥ 4294967295 - 1 then 10 else q

/-- One command, L428-488; `sends` says whether the transport takes the message. -/
def command (sends : Bool) (a : Api) (c : Cmd P) (s : State P) : State P :=
  match c with
  | .request who seq o =>
    if (a.pending.lookup seq).isSome then endApi false s
    else
      let s := { s with api := some { a with pending := (seq, who) :: a.pending } }
      if sends then s.push (.sent who seq o) else endApi false s
  | .accept seq m =>
    match a.pending.lookup seq with
    | none => answerAccept false s
    | some who =>
      let s := { s with api := some { a with pending := a.pending.filter (fun p => p.1 ≠ seq) } }
      match deliver who seq m s with
      | some s => answerAccept true s
      | none => endApi false s
  | .uuid n =>
    match s.msgs with
    | some _ => { s with authQueue := s.authQueue ++ [.getUuid n] }
    | none => endApi false s
  | .sequence n =>
    let q := nextSequence a.sequence
    let s := { s with api := some { a with sequence := q } }
    match s.calls.lookup n with
    | some ⟨job, body, .sequence .waiting⟩ =>
      (s.setCall n ⟨job, body, .sequence (.ready q)⟩).push (.numbered n q)
    | _ => endApi false s

/-- `client_api_task` takes a command, L424-427. -/
def apiStep (sends : Bool) (s : State P) : State P :=
  match s.api, s.queue with
  | some a, c :: cs => command sends a c { s with queue := cs }
  | _, _ => s

/-! ### `client_messages_task` -/

/-- `tx_consumer_event.send(..)`; the receiver lives as long as there are senders. -/
def emit (e : Event P) (s : State P) : State P := s.push (.emitted e)

/-- The match on a message that nobody waits for, L562-569. -/
def offer (cfg : Cfg P) (seq : UInt32) (m : In P) (s : State P) : State P :=
  match m with
  | .msg ref body =>
    if ref ∈ cfg.broadcasts then emit (.broadcast ref body) s else emit (.unknown seq) s
  | _ => emit (.unknown seq) s

/-- A piece of data, L517-580. A panic takes down all parts of `listen`. -/
def received (cfg : Cfg P) (bytes : Bytes) (s : State P) : State P :=
  match s.msgs with
  | some ⟨reader, .idle, uuid⟩ =>
    let s := s.push (.chunk bytes)
    match Rust.chunk cfg.decoder reader bytes with
    | (.ok, r) => { s with msgs := some ⟨r, .between, uuid⟩ }
    | (.panic, _) => ({ endMsgs false (endApi false s) with open_ := false, over := true } :
        State P).push .panicked
    | (_, r) => emit .readError { s with msgs := some ⟨r, .idle, uuid⟩ }
  | _ => s

/-- The task goes on with its messages, L525-570. If `client_api_task` has ended, `api.accept` fails
at once. -/
def work (cfg : Cfg P) (s : State P) : State P :=
  match s.msgs with
  | some ⟨reader, .between, uuid⟩ =>
    match Rust.next reader with
    | (none, r) => { s with msgs := some ⟨r, .idle, uuid⟩ }
    | (some x, r) =>
      let s := ({ s with msgs := some ⟨r, .between, uuid⟩ } : State P).push (.got x.header.sequence x.msg)
      match x.msg with
      | .confirmation =>
        ({ s with auths := s.auths ++ [(s.next, .start)], next := s.next + 1 } : State P).push
          (.authStarted s.next)
      | m =>
        match s.api with
        | none => offer cfg x.header.sequence m (emit .acceptError s)
        | some _ => ({ s with msgs := some ⟨r, .accepting x.header.sequence m .waiting, uuid⟩ } :
            State P).command (.accept x.header.sequence m)
  | some ⟨reader, .accepting q m r, uuid⟩ =>
    let t := { s with msgs := some ⟨reader, .between, uuid⟩ }
    match r with
    | .waiting => s
    | .ready true => t
    | .ready false => offer cfg q m t
    | .closed => offer cfg q m (emit .acceptError t)
  | _ => s

/-- A message from the channel `rx_auth`, L604-622. -/
def authMessage (cfg : Cfg P) (s : State P) : State P :=
  match s.msgs, s.authQueue with
  | some ⟨reader, .idle, uuid⟩, x :: xs =>
    let s := { s with authQueue := xs }
    match x with
    | .setUuid (some u) =>
      match cfg.parseUuid u with
      | some v => emit .connected { s with msgs := some ⟨reader, .idle, some v⟩ }
      | none => endMsgs false s
    | .setUuid none => endMsgs false (emit .authError s)
    | .getUuid n =>
      match s.calls.lookup n with
      | some ⟨job, body, .uuid q .waiting⟩ =>
        { s.setCall n ⟨job, body, .uuid q (.ready uuid)⟩ with msgs := some ⟨reader, .idle, uuid⟩ }
      | _ => endMsgs false s
  | _, _ => s

/-! ### `auth` -/

/-- `auth` returns and its result is sent, L536-545. -/
def endAuth (n : Nat) (r : Option (List Char)) (s : State P) : State P :=
  let s := ({ s with auths := s.auths.filter (fun p => p.1 ≠ n) } : State P).push (.authEnded n r)
  match s.msgs with
  | some _ => { s with authQueue := s.authQueue ++ [.setUuid r] }
  | none => s

/-- `auth` goes on, L629-715. -/
def auth (cfg : Cfg P) (n : Nat) (s : State P) : State P :=
  let to (p : AuthPhase P) : State P :=
    { s with auths := s.auths.map (fun x => if x.1 = n then (n, p) else x) }
  match s.auths.lookup n with
  | some .start =>
    if s.api.isSome && cfg.packs .selfKey then
      (to (.key .waiting)).command (.request (.auth n) 0 .selfKey)
    else endAuth n none s
  | some (.key (.ready (.selfKey u))) =>
    if s.api.isSome && cfg.packs .hash then
      (to (.hash u .waiting)).command (.request (.auth n) 1 .hash)
    else endAuth n none s
  | some (.hash u (.ready (.hash false))) => endAuth n (some u) s
  | some (.key .waiting) => s
  | some (.hash _ .waiting) => s
  | some _ => endAuth n none s
  | none => s

/-! ### The client -/

/-- Which task goes on. `abandon`: user code drops the future of a call. `received`, `disconnected`,
`failure` and `eventsEnd` are events of the transport (L508, L516-601); `closed`: `client.connect()`
returns or is given up (L307-328). `cancel`: user code uses the token (`render_controller.rs` L33-35).
`apiStops`, `messagesStop`: a task notices the cancellation. `finish`: the three parts have ended. -/
inductive Input (P : Type) where
  | call (job : Job) (body : P)
  | proceed (n : Nat)
  | timeout (n : Nat)
  | abandon (n : Nat)
  | api (sends : Bool)
  | received (bytes : Bytes)
  | work
  | authMessage
  | auth (n : Nat)
  | disconnected
  | failure
  | eventsEnd
  | cancel
  | shutdown
  | closed (ok : Bool)
  | apiStops
  | messagesStop
  | finish

/-- One step of one task, see `Input`. -/
def step (cfg : Cfg P) (s : State P) : Input P → State P
  | .call job body => call job body s
  | .proceed n => proceed cfg n s
  | .timeout n => timeout n s
  | .abandon n => s.dropCall n
  | .api sends => apiStep sends s
  | .received bytes => received cfg bytes s
  | .work => work cfg s
  | .authMessage => authMessage cfg s
  | .auth n => auth cfg n s
  | .disconnected =>
    match s.msgs with
    | some ⟨reader, .idle, _⟩ => { s with msgs := some ⟨reader, .idle, none⟩ }
    | _ => s
  | .failure =>
    match s.msgs with
    | some ⟨_, .idle, _⟩ => emit .transportError s
    | _ => s
  | .eventsEnd =>
    match s.msgs with
    | some ⟨_, .idle, _⟩ => endMsgs true s
    | _ => s
  | .cancel => { s with cancelled := true }
  | .shutdown => if s.cancelled then s else { s with cancelled := true, shut := true }
  | .closed ok =>
    if s.open_ then
      emit .disconnected { (if ok then s else emit .transportError s) with
        open_ := false, cancelled := true, failed := s.failed || !ok }
    else s
  | .apiStops => if s.cancelled && s.api.isSome then endApi true s else s
  | .messagesStop =>
    match s.cancelled, s.msgs with
    | true, some ⟨_, .idle, _⟩ => endMsgs true s
    | _, _ => s
  | .finish =>
    if s.api.isNone && s.msgs.isNone && !s.open_ && !s.over then
      emit (.shutdown (!s.failed)) { s with over := true }
    else s

/-- A run. -/
def run (cfg : Cfg P) (is : List (Input P)) (s : State P) : State P := is.foldl (step cfg) s

/-! ### Reconnection -/

/-- `ReconnectionStrategy`, `render_options.rs` L25-29, without the time. -/
inductive Reconnection where
  | reconnect
  | doNot
  deriving DecidableEq

/-- Whether `connect` calls `listen` again after this state, L133-165, L348-372; `agrees` is the answer
of `events::reconnect::handler`. -/
def goesOn (strategy : Reconnection) (agrees : Bool) (s : State P) : Bool :=
  s.over && !s.failed && strategy = .reconnect && !s.shut && agrees

end Verif.Client
