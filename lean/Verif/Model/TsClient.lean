import Verif.Model.TsServer
set_option autoImplicit false
/-!
A generated TypeScript client (consumer). Files are cited relative to
`cli/src/workflow/render/consumer/typescript/`; `render_consumer.rs` is cited by line only.

The code runs on one thread. A call from outside runs to its end; what is passed to `then` and `catch`
of a promise runs later, as a job of its own. So a run is a list of inputs: events of the transport,
calls by user code, and jobs, in any order (JavaScript runs jobs first in, first out; nothing here
depends on that). User code that is called runs at once: `Env` says what it calls meanwhile, and
whether it throws. Decoded messages are the nested objects of the TypeScript server, `TsServer.Msg`.
The state keeps a list of what happened, newest first, which the code never reads.

Left out: own calls of `request` and `getSequence` by user code, `Consumer.get` and `Consumer.wait`
(every request object has its client), `destroy` of the client, exceptions thrown by the transport
(`send` returns its errors), logging, and what objects inherit. A `catch` behind a `then` takes no job
of its own.
-/
namespace Verif.TsClient

open Verif

abbrev Name := Prot.Name

abbrev Ref := Flow.Ref

abbrev Js := TsServer.Js

abbrev Msg := TsServer.Msg

/-- `message.a.b.c`, with the tests for `undefined` the generated code makes on the way. What is no
object has no properties. -/
def get : Js → List Name → Option Js
  | v, [] => some v
  | v, n :: ns =>
    match v.prop n with
    | some w => get w ns
    | none => none

/-- The value in a message under a reference: `render_request.rs` L269-284, L300-307, L320-335;
L173-178, L200-205, `render_beacon.rs` L64-75. -/
def extract (m : Msg) (ref : Ref) : Option Js :=
  get (TsServer.nest m.path m.body) (Flow.splitDot ref)

/-- What a request object asks for: `render_request.rs`, `render_beacon.rs`. -/
inductive Kind where
  | request (r : Flow.Request)
  | beacon (ref : Ref)

/-- `ERequestState`, `render_interfaces_request.rs` L9-13. -/
inductive ReqState where
  | ready
  | pending
  | destroyed
  deriving DecidableEq

/-- A request object: the class with its message, `_state` and `_handlers` (the names of those that
are set). `render_request.rs` L16-22, `render_beacon.rs` L14-28. -/
structure Obj where
  kind : Kind
  body : Js
  state : ReqState
  handlers : List Name

/-- A message to the server: the self key (L170), the hashes (L194-197), or the message of a request
object. -/
inductive Out where
  | selfKey
  | hash
  | msg (ref : Ref) (body : Js)

/-- Whose promise waits for an answer: `assign` (number `n`; called by the handshake or by user code),
`_hash` of a handshake, or `send` (number `n`) of request object `o`. -/
inductive Waiter where
  | assign (n : Nat) (shake : Bool)
  | hash (n : Nat) (uuid : Js)
  | call (n : Nat) (o : Nat)

/-- How a promise returned by `send` settles. Resolved: with the value found under a reference, or for
a beacon without value. Rejected: by the error in a confirmation of a beacon, the answer is something
else, the object is in use or destroyed, the message cannot be packed or sent, or a handler threw. -/
inductive Result where
  | resolved (ref : Ref) (v : Js)
  | confirmed
  | refused
  | unexpected
  | busy
  | gone
  | failed
  | threw

/-- Events raised for user code, L83-88. -/
inductive Event where
  | connected
  | ready (uuid : Js)
  | disconnected
  | error
  | broadcast (ref : Ref) (body : Js)

/-- What can happen. Input from outside: `opened`, `closed`, `trouble`, `chunk`, `got` (a message is
looked at). User code: `created`, `called`, `destroyed`. Inside: `assigning` (`assign` is called),
`sent`, `delivered` (an answer settles a promise), `ignored` (a message is dropped), `assignEnded` (the
promise of `assign` settles), `shakeEnded` (a handshake is done or given up). To user code: `emitted`, `handled`
(a handler of a request object is called), `ended` (the promise of `send` settles). -/
inductive Act where
  | opened
  | closed
  | trouble
  | chunk (bytes : Bytes)
  | got (seq : UInt32) (m : Msg)
  | created (o : Nat) (kind : Kind) (body : Js)
  | called (n : Nat) (o : Nat)
  | destroyed (o : Nat)
  | assigning (n : Nat) (shake : Bool)
  | sent (w : Waiter) (seq : Nat) (out : Out)
  | delivered (w : Waiter) (seq : UInt32) (m : Msg)
  | ignored (seq : UInt32) (m : Msg)
  | assignEnded (n : Nat) (v : Option Js)
  | shakeEnded (n : Nat) (ok : Bool)
  | emitted (e : Event)
  | handled (n : Nat) (name : Name) (v : Option Js)
  | ended (n : Nat) (r : Result)

/-- A job: what was passed to `then` or `catch` and can run now. The last one is the `then` of `assign`
in the handshake, L219. -/
inductive Task where
  | answered (w : Waiter) (m : Msg)
  | failed (w : Waiter)
  | assigned (n : Nat) (uuid : Js)

/-- The fields of `Consumer`, L72-80, the request objects, the jobs, and the past. -/
structure State where
  reader : Rust.Reader Msg
  pending : List (Nat × Waiter)
  uuid : Option (List Char)
  sequence : Nat
  objs : List (Nat × Obj)
  tasks : List Task
  next : Nat
  past : List Act

def State.new : State := ⟨.new, [], none, 1, [], [], 0, []⟩

/-- Note what happens. -/
def State.push (s : State) (a : Act) : State := { s with past := a :: s.past }

/-- What is generated from protocol and workflow. `packs` says which messages can be packed without
exception. -/
structure Cfg where
  decoder : Rust.Decoder Msg
  workflow : Flow.Store
  packs : Out → Bool

/-- `get_all_broadcasts`, L338-367; dropping duplicates does not matter. -/
def Cfg.broadcasts (cfg : Cfg) : List Ref :=
  (cfg.workflow.requests.flatMap (fun r => r.actions.flatMap Flow.Action.broadcast) ++
    cfg.workflow.events.flatMap Flow.Event.broadcasts).map Flow.Broadcast.reference

/-- What user code calls: it makes a request object, sets a handler (`render_request.rs` L62-65, L74-77,
`render_beacon.rs` L112-120), calls `send` or `destroy` of an object, or `assign` of the client. -/
inductive Op where
  | create (kind : Kind) (body : Js)
  | on (o : Nat) (name : Name)
  | send (o : Nat)
  | destroy (o : Nat)
  | assign

/-- User code and transport: what user code does when it is called, whether it throws, and whether the
transport takes a message. -/
structure Env where
  during : State → Act → List Op
  throws : State → Act → Bool
  sends : State → Out → Bool

/-! ### Requests -/

/-- The promise returned by `send` settles. -/
def State.endCall (s : State) (n : Nat) (r : Result) : State := s.push (.ended n r)

/-- A new job. -/
def State.later (s : State) (t : Task) : State := { s with tasks := s.tasks ++ [t] }

/-- The promise of `assign`, `_hash` or `send` is rejected, because `pack` throws (L172, L199,
`render_request.rs` L46) or in a `catch`. The handshake only logs that, L223-228. -/
def reject (w : Waiter) (s : State) : State :=
  match w with
  | .call n _ => s.endCall n .failed
  | .assign n shake =>
    let s := s.push (.assignEnded n none)
    if shake then s.push (.shakeEnded n false) else s
  | .hash n _ => s.push (.shakeEnded n false)

/-- `this.request(x.pack(sequence), sequence)` with `request`, L152-166. `pack` throws if the number has
no 32 bits: `cli/src/protocol/render/typescript/static/protocol.convertor.ts` L209-228,
`protocol.primitives.u32.ts` L19-28. -/
def request (cfg : Cfg) (env : Env) (w : Waiter) (seq : Nat) (o : Out) (s : State) : State :=
  if cfg.packs o = true ∧ seq < 4294967296 then
    if (s.pending.lookup seq).isSome then s.later (.failed w)
    else if env.sends s o then
      ({ s with pending := (seq, w) :: s.pending } : State).push (.sent w seq o)
    else s.later (.failed w)
  else reject w s

/-- `getSequence`, L188-190: the number, and the state afterwards. -/
def getSequence (s : State) : Nat × State := (s.sequence, { s with sequence := s.sequence + 1 })

/-- `assign`, L168-172; `shake`: called in `_onClientConnected`. -/
def assign (cfg : Cfg) (env : Env) (shake : Bool) (s : State) : State :=
  let n := s.next
  let s := ({ s with next := n + 1 } : State).push (.assigning n shake)
  let (q, s) := getSequence s
  request cfg env (.assign n shake) q .selfKey s

/-- `_hash`, L192-199. -/
def hash (cfg : Cfg) (env : Env) (n : Nat) (uuid : Js) (s : State) : State :=
  let (q, s) := getSequence s
  request cfg env (.hash n uuid) q .hash s

/-- The message of a request object. -/
def Kind.ref : Kind → Ref
  | .request r => r.request.getD []
  | .beacon ref => ref

/-- An object changes. -/
def State.setObj (s : State) (o : Nat) (x : Obj) : State :=
  { s with objs := s.objs.map (fun p => if p.1 = o then (o, x) else p) }

/-- `send`, `render_request.rs` L31-46, `render_beacon.rs` L38-58. -/
def send (cfg : Cfg) (env : Env) (o : Nat) (s : State) : State :=
  match s.objs.lookup o with
  | none => s
  | some x =>
    let n := s.next
    let s := ({ s with next := n + 1 } : State).push (.called n o)
    match x.state with
    | .pending => s.endCall n .busy
    | .destroyed => s.endCall n .gone
    | .ready =>
      let (q, s) := getSequence s
      request cfg env (.call n o) q (.msg x.kind.ref x.body) (s.setObj o { x with state := .pending })

/-- User code calls something. `destroy`: `render_request.rs` L24-29, `render_beacon.rs` L30-36. -/
def userOp (cfg : Cfg) (env : Env) (s : State) : Op → State
  | .create k b =>
    ({ s with objs := s.objs ++ [(s.next, ⟨k, b, .ready, []⟩)], next := s.next + 1 } : State).push
      (.created s.next k b)
  | .on o name =>
    match s.objs.lookup o with
    | some x => s.setObj o { x with handlers := name :: x.handlers }
    | none => s
  | .send o => send cfg env o s
  | .destroy o =>
    match s.objs.lookup o with
    | some x => (s.setObj o { x with state := .destroyed, handlers := [] }).push (.destroyed o)
    | none => s
  | .assign => assign cfg env false s

/-- User code is called. -/
def enter (cfg : Cfg) (env : Env) (a : Act) (s : State) : State :=
  (env.during (s.push a) a).foldl (userOp cfg env) (s.push a)

/-- User code is called; the first component says whether it throws. -/
def callUser (cfg : Cfg) (env : Env) (a : Act) (s : State) : Bool × State :=
  (env.throws (s.push a) a, enter cfg env a s)

/-! ### Answers -/

/-- White space for `trim` of JavaScript strings. -/
def jsSpace (c : Char) : Bool :=
  c.toNat ∈ [0x9, 0xa, 0xb, 0xc, 0xd, 0x20, 0xa0, 0x1680, 0x2028, 0x2029, 0x202f, 0x205f, 0x3000, 0xfeff] ||
    (0x2000 ≤ c.toNat && c.toNat ≤ 0x200a)

/-- The setter of `uuid`, L99-111. -/
def setUuid (v : Option Js) (s : State) : State :=
  match v with
  | none => { s with uuid := none }
  | some (.str u) =>
    if u.all jsSpace then s
    else if s.uuid.isSome then s
    else { s with uuid := some u }
  | some _ => s

/-- `"InternalServiceGroup.SelfKeyResponse"` and so on, L173-178, L200-205, `render_beacon.rs` L64-75. -/
def selfKeyResponse : Ref := "InternalServiceGroup.SelfKeyResponse".toList

def hashResponse : Ref := "InternalServiceGroup.HashResponse".toList

def beaconConfirmation : Ref := "InternalServiceGroup.BeaconConfirmation".toList

/-- The answer to a self key, L172-184. The getter of `uuid` (L90-97, in L180) throws if there is none.
A resolved promise goes on in the handshake, L219. -/
def onAssigned (n : Nat) (shake : Bool) (m : Msg) (s : State) : State :=
  match extract m selfKeyResponse with
  | none => reject (.assign n shake) s
  | some b =>
    let v := b.prop "uuid".toList
    let s := setUuid v s
    match s.uuid, v with
    | some _, some v =>
      let s := s.push (.assignEnded n (some v))
      if shake then s.later (.assigned n v) else s
    | _, _ => reject (.assign n shake) s

/-- The answer to a hash, L200-210, and the end of the handshake, L220-225. An exception of user code
ends in the `catch`. -/
def onHash (cfg : Cfg) (env : Env) (n : Nat) (uuid : Js) (m : Msg) (s : State) : State :=
  match extract m hashResponse with
  | none => s.push (.shakeEnded n false)
  | some b =>
    match b.prop "error".toList with
    | some _ => s.push (.shakeEnded n false)
    | none => enter cfg env (.emitted (.ready uuid)) (s.push (.shakeEnded n true))

/-- `this._handlers.name !== undefined && this._handlers.name(v)`, then `resolve` or `reject`; an
exception of the handler rejects. `render_request.rs` L289-290, L313-314, L340-341, `render_beacon.rs`
L83-91. -/
def settle (cfg : Cfg) (env : Env) (n o : Nat) (name : Name) (v : Option Js) (r : Result) (s : State) :
    State :=
  match s.objs.lookup o with
  | some x =>
    if name ∈ x.handlers then
      match callUser cfg env (.handled n name v) s with
      | (true, s) => s.endCall n .threw
      | (false, s) => s.endCall n r
    else s.endCall n r
  | none => s.endCall n r

/-- The name of the handler of an action: `get_conclusion()?.to_lowercase()`, `render_request.rs` L295;
names in workflows are ASCII. One action: `response`, L313. -/
def handlerName (r : Flow.Request) (a : Flow.Action) : Name :=
  if r.actions.length > 1 then (a.conclusion.getD []).map Char.toLower else "response".toList

/-- The first `if` that applies, `render_request.rs` L266-318: the handler, the reference, the value. -/
def pick (r : Flow.Request) (m : Msg) : Option (Name × Ref × Js) :=
  r.actions.findSome? (fun a =>
    a.response.bind (fun ref => (extract m ref).map (fun v => (handlerName r a, ref, v))))

/-- The response handler of a request, `render_request.rs` L258-350. -/
def conclude (cfg : Cfg) (env : Env) (n o : Nat) (r : Flow.Request) (m : Msg) (s : State) : State :=
  match pick r m with
  | some (name, ref, v) => settle cfg env n o name (some v) (.resolved ref v) s
  | none =>
    match r.error.bind (fun ref => (extract m ref).map (fun v => (ref, v))) with
    | some (ref, v) => settle cfg env n o "err".toList (some v) (.resolved ref v) s
    | none => s.endCall n .unexpected

/-- The response handler of a beacon, `render_beacon.rs` L63-91. -/
def confirm (cfg : Cfg) (env : Env) (n o : Nat) (m : Msg) (s : State) : State :=
  match extract m beaconConfirmation with
  | none => settle cfg env n o "err".toList none .unexpected s
  | some b =>
    match b.prop "error".toList with
    | some (.str _) => settle cfg env n o "err".toList none .refused s
    | _ => settle cfg env n o "response".toList none .confirmed s

/-- The `then` of `send`, `render_request.rs` L47-55, `render_beacon.rs` L60-104: a `switch` without a
case for `Ready`. -/
def onAnswer (cfg : Cfg) (env : Env) (n o : Nat) (m : Msg) (s : State) : State :=
  match s.objs.lookup o with
  | none => s
  | some x =>
    match x.state with
    | .ready => s
    | .destroyed => s.endCall n .gone
    | .pending =>
      let s := s.setObj o { x with state := .ready }
      match x.kind with
      | .request r => conclude cfg env n o r m s
      | .beacon _ => confirm cfg env n o m s

/-- A job runs. `failed` is the `catch`: L182-184, L211-213, `render_request.rs` L56-58. -/
def work (cfg : Cfg) (env : Env) (t : Task) (s : State) : State :=
  match t with
  | .answered (.assign n shake) m => onAssigned n shake m s
  | .answered (.hash n uuid) m => onHash cfg env n uuid m s
  | .answered (.call n o) m => onAnswer cfg env n o m s
  | .failed w => reject w s
  | .assigned n uuid => hash cfg env n uuid s

/-! ### Data -/

/-- A message that nobody waits for, L263-270 with L395-416 and L338-367: `switch` on the id of its type; types are
compared by name. Without broadcasts there is no `switch`. The first component says whether user code
throws. -/
def offer (cfg : Cfg) (env : Env) (seq : UInt32) (m : Msg) (s : State) : Bool × State :=
  match cfg.broadcasts.find? (fun ref => decide (Flow.splitDot ref = m.path)) with
  | some ref => callUser cfg env (.emitted (.broadcast ref m.body)) s
  | none => (false, s.push (.ignored seq m))

/-- The body of the loop, L250-258. -/
def onMessage (cfg : Cfg) (env : Env) (x : Rust.Income Msg) (s : State) : Bool × State :=
  let q := x.header.sequence
  let s := s.push (.got q x.msg)
  match s.pending.lookup q.toNat with
  | some w =>
    (false, (({ s with pending := s.pending.filter (fun p => p.1 ≠ q.toNat) } : State).later
      (.answered w x.msg)).push (.delivered w q x.msg))
  | none => offer cfg env q x.msg s

/-- The loop of `_onData`, L249-260. -/
def onMessages (cfg : Cfg) (env : Env) : List (Rust.Income Msg) → State → State
  | [], s => s
  | x :: xs, s =>
    match onMessage cfg env x { s with reader := ⟨s.reader.buffer, xs⟩ } with
    | (true, s) => s
    | (false, s) => onMessages cfg env xs s

/-- `_onData`, L243-261; `none` if it never returns. -/
def received (cfg : Cfg) (env : Env) (bytes : Bytes) (s : State) : Option State :=
  let s := s.push (.chunk bytes)
  match TsServer.readChunk cfg.decoder s.reader bytes with
  | none => none
  | some (.thrown, r) => some { s with reader := r }
  | some (.returned (_ :: _), r) => some { s with reader := r }
  | some (.returned [], r) => some (onMessages cfg env r.queue { s with reader := r })

/-! ### The client -/

/-- What comes from outside, and the jobs: `work i` runs the job at place `i`. -/
inductive Input where
  | connected
  | disconnected
  | error
  | received (bytes : Bytes)
  | user (op : Op)
  | work (i : Nat)

/-- One input: L217-241 and the above. `none` if it never ends. -/
def step (cfg : Cfg) (env : Env) (s : State) : Input → Option State
  | .connected =>
    some (enter cfg env (.emitted .connected) (assign cfg env true (s.push .opened)))
  | .disconnected => some (enter cfg env (.emitted .disconnected) (setUuid none (s.push .closed)))
  | .error => some (enter cfg env (.emitted .error) (s.push .trouble))
  | .received bytes => received cfg env bytes s
  | .user op => some (userOp cfg env s op)
  | .work i =>
    match s.tasks[i]? with
    | some t => some (work cfg env t { s with tasks := s.tasks.eraseIdx i })
    | none => some s

/-- A run; `true` if the client hangs. -/
def run (cfg : Cfg) (env : Env) : List Input → State → Bool × State
  | [], s => (false, s)
  | i :: is, s =>
    match step cfg env s i with
    | some s => run cfg env is s
    | none => (true, s)

end Verif.TsClient
