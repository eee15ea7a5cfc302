import Verif.Model.TsStream
import Verif.Model.RustServer
set_option autoImplicit false
/-!
A generated TypeScript server (producer). Files are cited relative to
`cli/src/workflow/render/producer/typescript/`; `render_mod.rs` is cited by line only.

The code runs on one thread. A call of a method from outside runs to its end; promises settle in
between. So a run is a list of inputs: calls by the transport, changes by user code that runs on its
own, and promises that settle, in any order. User code that is called runs at once up to its first
`await`: `Env` says what it does meanwhile, and whether it throws. As for the Rust server the state
keeps a list of what happened, newest first, which the code never reads.

Left out: own calls of `send` and `disconnect` by user code, exceptions thrown by the transport
inside `send` and `disconnect` (they return promises), logging, and `destroy`.
-/
namespace Verif.TsServer

open Verif

abbrev Uuid := Nat

abbrev Name := Prot.Name

abbrev Ref := Flow.Ref

/-- A JavaScript value as far as the code looks at it: strings, numbers (`number` or `bigint`; given by
the bit pattern of the declared type), booleans, objects with their properties (no name twice; those of
arrays are positions, none is the name of a field), and anything else, among it `null`. What an object
inherits is left out: it is nothing of type `object` except `__proto__`. -/
inductive Js where
  | str (s : List Char)
  | num (bits : Nat)
  | bool (b : Bool)
  | other
  | obj (props : List (Name × Js))

/-- `src[name]`, `undefined` is `none`. -/
def Js.prop : Js → Name → Option Js
  | .obj ps, n => ps.lookup n
  | _, _ => none

/-- The `forEach` of `_tryToGet`, L527-540. -/
def Js.walk : Js → List Name → Option Js
  | t, [] => some t
  | t, n :: ns =>
    match t.prop n with
    | some (.obj ps) => (Js.obj ps).walk ns
    | _ => none

/-- `_tryToGet`, L522-542. `split(".")` is `splitDot`. -/
def tryToGet (src : Js) (path : Ref) : Option Js :=
  match src with
  | .obj ps => (Js.obj ps).walk (Flow.splitDot path)
  | _ => none

/-- A decoded message: groups and name of its type, and the instance. -/
structure Msg where
  path : List Name
  body : Js

/-- `{ GroupB: { GroupC: { StructExampleB: instance } } }`, `get_available_entity` in
`cli/src/protocol/render/typescript/mod.rs` L1608-1621. -/
def nest : List Name → Js → Js
  | [], b => b
  | n :: ns, b => .obj [(n, nest ns b)]

/-- `_extract(message.msg, path)`, L543-559; `none` if `exist` is `false`. -/
def Msg.extract (m : Msg) (path : Ref) : Option Js := tryToGet (nest m.path m.body) path

/-- A message to a client, before packing: responses to the self key (L264-267) and to the hash
(L304-307; kept is whether there is an error), `BeaconConfirmation`
(`render_beacon_emitter.rs` L24-27), or a message of the protocol. -/
inductive Out where
  | selfKey (uuid : Uuid)
  | hash (error : Bool)
  | beacon
  | msg (ref : Ref) (body : Js)

/-- Which code sends something: the handshake, or task number `t`, as answer or as broadcast. -/
inductive Origin where
  | handshake
  | answer (t : Nat)
  | cast (t : Nat)
  deriving DecidableEq

/-- What can happen. Input from outside: `opened`, `closed`, `chunk`, `got` (a message is looked at).
Changes made by user code: `keyChange`, `assignment`, `discredited`. Calls of the transport: `send`,
`drop`. Calls of user code: `respond`, `beacon`, `event` (with the number of the task), `error`,
`ready`, `shutdown`, and `deferred`, which is `scope.call()`. -/
inductive Act where
  | opened (u : Uuid)
  | closed (u : Uuid)
  | chunk (u : Uuid)
  | got (u : Uuid) (m : Msg) (seq : UInt32)
  | keyChange (u : Uuid)
  | assignment (u : Uuid)
  | discredited (u : Uuid)
  | send (by_ : Origin) (u : Uuid) (seq : UInt32) (o : Out)
  | drop (u : Uuid)
  | respond (t : Nat) (u : Uuid) (ref : Ref) (body : Js) (seq : UInt32)
  | beacon (t : Nat) (u : Uuid) (ref : Ref) (body : Js) (seq : UInt32)
  | event (t : Nat) (ref : Ref)
  | error (u : Option Uuid)
  | ready
  | shutdown
  | deferred (t : Nat)

/-- `Consumer` (`static/implementation/consumer/index.ts` L8-13) with its `Identification`
(`render_identification.rs` L13-19). -/
structure Consumer where
  reader : Rust.Reader Msg
  key : Option Js
  assigned : Option Js
  discredited : Bool
  hash : Bool

/-- The two constructors, `index.ts` L15-24, `render_identification.rs` L21-29. -/
def Consumer.new : Consumer := ⟨.new, none, none, false, false⟩

/-- `object.name = value`. -/
def setProp (n : Name) (v : Js) : List (Name × Js) → List (Name × Js)
  | [] => [(n, v)]
  | p :: ps => if p.1 = n then (n, v) :: ps else p :: setProp n v ps

/-- The generated body of the `else` branches of `key` and `assign`: one `if` per field,
`render_identification.rs` L92-98 with L129-159. -/
def merge : List Name → Js → Js → Js
  | [], old, _ => old
  | f :: fs, old, k =>
    match k.prop f, old with
    | some v, .obj ps => merge fs (.obj (setProp f v ps)) k
    | _, _ => merge fs old k

/-- `key`, `render_identification.rs` L43-52. -/
def Consumer.setKey (fields : List Name) (c : Consumer) (k : Js) (overwrite : Bool) : Consumer :=
  match c.key with
  | none => { c with key := some k }
  | some old => { c with key := some (if overwrite then k else merge fields old k) }

/-- `assign`, `render_identification.rs` L54-62. -/
def Consumer.assign (fields : List Name) (c : Consumer) (k : Js) (overwrite : Bool) : Consumer :=
  match c.assigned with
  | none => { c with assigned := some k }
  | some old => { c with assigned := some (if overwrite then k else merge fields old k) }

/-- `this.assign`, `render_identification.rs` L65: the method of L54, present in every object. -/
def Consumer.assignMethod (_ : Consumer) : Option Unit := some ()

/-- `assigned`, `render_identification.rs` L64-78. -/
def Consumer.isAssigned (c : Consumer) (strategy : Server.Strategy) : Bool :=
  if c.assignMethod.isNone then
    match strategy with
    | .ignore => true
    | .log => true
    | _ => false
  else true

/-- Broadcasts collected by `Response` or `Output`: name, receivers, message. -/
abbrev Cast := Ref × List Uuid × Js

/-- What a handler does: for a request, a beacon, or an event. -/
inductive Job where
  | request (r : Flow.Request)
  | beacon
  | event (e : Flow.Event)

/-- What a handler waits for: user code, the `send` of the answer, or the broadcasts. -/
inductive Phase where
  | user
  | sending (casts : List Cast)
  | casting

/-- A handler that is not finished. -/
structure Task where
  u : Uuid
  seq : UInt32
  job : Job
  phase : Phase

/-- The fields of `Producer` that change, L40-41, the unfinished handlers, and the past. -/
structure State where
  consumers : List (Uuid × Consumer)
  tasks : List (Nat × Task)
  next : Nat
  past : List Act

def State.new : State := ⟨[], [], 0, []⟩

/-- `this._consumers.get(uuid)`. -/
def State.find (s : State) (u : Uuid) : Option Consumer := s.consumers.lookup u

/-- A change of the object in the map. -/
def State.set (s : State) (u : Uuid) (c : Consumer) : State :=
  { s with consumers := s.consumers.map (fun p => if p.1 = u then (u, c) else p) }

/-- Note what happens. -/
def State.push (s : State) (a : Act) : State := { s with past := a :: s.past }

/-- What is generated from protocol and workflow. `packs` says which messages can be packed without
exception. The last two are the fields of the types of the two keys. -/
structure Cfg where
  decoder : Rust.Decoder Msg
  workflow : Flow.Store
  selfKey : Ref
  protocolHash : List Char
  workflowHash : List Char
  packs : Out → Bool
  keyFields : List Name
  assignedFields : List Name

/-- Methods of `Identification` that user code can call, `render_identification.rs` L43-86. -/
inductive Change where
  | key (u : Uuid) (k : Js) (overwrite : Bool)
  | assign (u : Uuid) (k : Js) (overwrite : Bool)
  | discredit (u : Uuid)

/-- User code called in a state: what it changes before it returns its promise, and whether it throws
instead. Handlers of requests and beacons are called inside `new Promise(..)`, so there an exception
is a rejected promise. -/
structure Env where
  during : State → Act → List Change
  throws : State → Act → Bool

/-- A change of a client; objects of clients that are gone are not seen again. -/
def change (cfg : Cfg) (s : State) : Change → State
  | .key u k o =>
    match s.find u with
    | some c => (s.set u (c.setKey cfg.keyFields k o)).push (.keyChange u)
    | none => s
  | .assign u k o =>
    match s.find u with
    | some c => (s.set u (c.assign cfg.assignedFields k o)).push (.assignment u)
    | none => s
  | .discredit u =>
    match s.find u with
    | some c => (s.set u { c with discredited := true }).push (.discredited u)
    | none => s

/-- How a piece of code ends: normally, with `break` or `return`, with an exception, never. -/
inductive End where
  | next
  | leave
  | thrown
  | hung
  deriving DecidableEq

abbrev Proc := State → End × State

/-- `p; q`. -/
def Proc.andThen (p q : Proc) : Proc := fun s =>
  match p s with
  | (.next, s') => q s'
  | r => r

def Proc.skip : Proc := fun s => (.next, s)

/-- Note what happens. -/
def Proc.note (a : Act) : Proc := fun s => (.next, s.push a)

/-- User code is called up to its first `await`. -/
def enter (cfg : Cfg) (env : Env) (a : Act) (s : State) : State :=
  (env.during (s.push a) a).foldl (change cfg) (s.push a)

/-- A call of user code outside of `new Promise(..)`: handlers of events. `_checkErr` (L516-520) only
logs rejected promises. -/
def callUser (cfg : Cfg) (env : Env) (a : Act) : Proc := fun s =>
  (if env.throws (s.push a) a then .thrown else .next, enter cfg env a s)

/-- `this.send(uuid, message.pack(..))`, L264-272 and L297-308. -/
def post (cfg : Cfg) (from_ : Origin) (u : Uuid) (seq : UInt32) (o : Out) : Proc := fun s =>
  if cfg.packs o then (.next, s.push (.send from_ u seq o)) else (.thrown, s)

/-- `_receivingErr`, L448-504; `known` says whether there is a consumer. -/
def receivingErr (cfg : Cfg) (env : Env) (opts : Server.Options) (u : Uuid) (known : Bool) : Proc :=
  Proc.andThen
    (if (opts.onError = .disconnect ∨ opts.onError = .emitErrorAndDisconnect) ∧ known = true then
      .note (.drop u) else .skip)
    (if opts.onError = .emitError ∨ opts.onError = .emitErrorAndDisconnect then
      callUser cfg env (.error (if known then some u else none)) else .skip)

/-- `this.disconnect(..)` followed by an error event: L312-327, L334-352, L356-374. -/
def kick (cfg : Cfg) (env : Env) (u : Uuid) : Proc :=
  Proc.andThen (.note (.drop u)) (callUser cfg env (.error (some u)))

/-- The self key, L254-275. -/
def onSelfKey (cfg : Cfg) (u : Uuid) (c : Consumer) (k : Js) (seq : UInt32) : Proc := fun s =>
  post cfg .handshake u seq (.selfKey u) (s.set u (c.setKey cfg.keyFields k true))

/-- The two tests of the hash, L284-301. `!==` with a string. -/
def rightHash (cfg : Cfg) (body : Js) : Bool :=
  match body.prop "protocol".toList, body.prop "workflow".toList with
  | some (.str p), some (.str w) => decide (p = cfg.protocolHash ∧ w = cfg.workflowHash)
  | _, _ => false

/-- The hash, L280-332. -/
def onHash (cfg : Cfg) (env : Env) (u : Uuid) (c : Consumer) (body : Js) (seq : UInt32) : Proc :=
  let right := rightHash cfg body
  Proc.andThen (post cfg .handshake u seq (.hash !right))
    (if right then fun s => (.next, s.set u { c with hash := true }) else kick cfg env u)

/-- A handler is called; `a` notes the call. `render_request_handler.rs` L50-74, L137-160,
`render_beacon_emitter.rs` L12-42. -/
def start (cfg : Cfg) (env : Env) (task : Task) (a : Nat → Act) : Proc := fun s =>
  let t := s.next
  (.next, enter cfg env (a t) { s with tasks := s.tasks ++ [(t, task)], next := t + 1 })

/-- The generated tests for requests and beacons, L424 with L562-593, and the unknown message,
L425-444. -/
def dispatch (cfg : Cfg) (env : Env) (opts : Server.Options) (u : Uuid) (m : Msg) (seq : UInt32) :
    Proc :=
  match cfg.workflow.requests.findSome? (fun r =>
    r.request.bind (fun ref => (m.extract ref).map (fun b => (r, ref, b)))) with
  | some (r, ref, b) => start cfg env ⟨u, seq, .request r, .user⟩ (fun t => .respond t u ref b seq)
  | none =>
    match cfg.workflow.beacons.findSome? (fun x =>
      (m.extract x.reference).map (fun b => (x.reference, b))) with
    | some (ref, b) => start cfg env ⟨u, seq, .beacon, .user⟩ (fun t => .beacon t u ref b seq)
    | none =>
      Proc.andThen (receivingErr cfg env opts u true) (fun s => (.leave, s))

/-- The tests before, L333-424. -/
def onOther (cfg : Cfg) (env : Env) (opts : Server.Options) (u : Uuid) (c : Consumer) (m : Msg)
    (seq : UInt32) : Proc :=
  if !c.hash then kick cfg env u
  else if c.key.isNone then kick cfg env u
  else if !c.isAssigned opts.identification && opts.identification ≠ .ignore then
    Proc.andThen
      (if opts.identification = .disconnect ∨ opts.identification = .emitErrorAndDisconnect then
        .note (.drop u) else .skip)
      (if opts.identification = .emitError ∨ opts.identification = .emitErrorAndDisconnect then
        callUser cfg env (.error (some u)) else .skip)
  else dispatch cfg env opts u m seq

/-- `"InternalServiceGroup.HashRequest"`, L278. -/
def hashRequest : Ref := "InternalServiceGroup.HashRequest".toList

/-- The body of the loop, L250-444, for the consumer `c`. -/
def onMessage (cfg : Cfg) (env : Env) (opts : Server.Options) (u : Uuid) (c : Consumer) (m : Msg)
    (seq : UInt32) : Proc :=
  match m.extract cfg.selfKey, c.hash with
  | some k, false => onSelfKey cfg u c k seq
  | _, _ =>
    match m.extract hashRequest with
    | some b => onHash cfg env u c b seq
    | none => onOther cfg env opts u c m seq

/-- The loop, L245-445, with `consumer.message()` (`packing.ts` `next`). The client is in the map all
the time, as nothing here removes it. -/
def onMessages (cfg : Cfg) (env : Env) (opts : Server.Options) (u : Uuid) :
    List (Rust.Income Msg) → Proc
  | [] => .skip
  | m :: ms => fun s =>
    match s.find u with
    | none => (.leave, s)
    | some c =>
      let c := { c with reader := ⟨c.reader.buffer, ms⟩ }
      Proc.andThen
        (fun s => onMessage cfg env opts u c m.msg m.header.sequence
          ((s.set u c).push (.got u m.msg m.header.sequence)))
        (onMessages cfg env opts u ms) s

/-- `chunk` of the reader as function. A round that goes on takes at least the 26 bytes of a header
off the buffer, or leaves everything as it was and goes on for ever; so `none` after so many rounds
means that it never ends. `Proofs/TsServerBase.lean` proves this. -/
def readChunk {T : Type} (d : Rust.Decoder T) (r : Rust.Reader T) (c : Bytes) :
    Option (Ts.TsEnd × Rust.Reader T) :=
  Ts.loop d ((r.buffer ++ c).length + 1) ⟨r.buffer ++ c, r.queue⟩ []

/-- `_onClientReceived`, L218-446; `Consumer.chunk`, `index.ts` L30-36. -/
def received (cfg : Cfg) (env : Env) (opts : Server.Options) (u : Uuid) (bytes : Bytes) : Proc :=
  fun s =>
  let s := s.push (.chunk u)
  match s.find u with
  | none => receivingErr cfg env opts u false s
  | some c =>
    if c.discredited then receivingErr cfg env opts u true s
    else
      match readChunk cfg.decoder c.reader bytes with
      | none => (.hung, s)
      | some (.thrown, r) => (.thrown, s.set u { c with reader := r })
      | some (.returned (_ :: _), r) =>
        receivingErr cfg env opts u true (s.set u { c with reader := r })
      | some (.returned [], r) =>
        onMessages cfg env opts u r.queue (s.set u { c with reader := r })

/-! ### Handlers -/

/-- `name.replace(".", "")`, `render_request_handler.rs` L257, L271. -/
def plain (r : Ref) : Name := r.filter (· ≠ '.')

/-- The methods of the object returned by `broadcast`, `render_request_handler.rs` L78-100 with
L266-278 and `render_event_emitter.rs` L65-79: name, message, and the response it is allowed for
(events: none). -/
def requestMethods (r : Flow.Request) : List (Name × Ref × Option Ref) :=
  r.actions.flatMap (fun a => a.broadcast.map (fun b => (plain b.reference, b.reference, a.response)))

def eventMethods (e : Flow.Event) : List (Name × Ref × Option Ref) :=
  e.broadcasts.map (fun b => (plain b.reference, b.reference, none))

/-- A call `broadcast(uuids).name(msg)` by user code. -/
structure Call where
  uuids : List Uuid
  name : Name
  body : Js

/-- One call; `none` if it throws. Of two methods with one name the later one counts. `resp` is the
response, `getId()` of types are compared by name. -/
def addCast (methods : List (Name × Ref × Option Ref)) (resp : Ref) (casts : List Cast) (c : Call) :
    Option (List Cast) :=
  match methods.reverse.find? (fun m => m.1 = c.name) with
  | none => none
  | some (_, ref, only) =>
    if only ≠ none ∧ only ≠ some resp then none
    else if casts.any (fun x => x.1 = ref) then none
    else some (casts ++ [(ref, c.uuids, c.body)])

/-- All calls by user code; an exception rejects its promise. -/
def collect (methods : List (Name × Ref × Option Ref)) (resp : Ref) :
    List Call → List Cast → Option (List Cast)
  | [], casts => some casts
  | c :: cs, casts => (addCast methods resp casts c).bind (collect methods resp cs)

/-- All required broadcasts of `bs` are there, `render_request_handler.rs` L106-119. -/
def covers (bs : List Flow.Broadcast) (casts : List Cast) : Bool :=
  (bs.filter (fun b => !b.optional)).all (fun b => casts.any (fun x => x.1 = b.reference))

/-- `error() === undefined` of a response, `render_request_handler.rs` L36-39 with L101-120 and
L280-294. The lists `REQUIRED_*` (L212-235) have the upper case names of the conclusions; that these
differ is assumed. -/
def complete (r : Flow.Request) (resp : Ref) (casts : List Cast) : Bool :=
  r.actions.all (fun a => a.broadcast.isEmpty || a.response ≠ some resp || covers a.broadcast casts)

/-- The types a response may have: `get_expectetions`, `render_request_handler.rs` L237-249, and
L198-205. -/
def expectations (r : Flow.Request) : List Ref :=
  (if r.actions.length > 1 then r.actions.filterMap Flow.Action.response
    else (r.actions.head?.bind Flow.Action.response).toList) ++ r.error.toList

/-- A promise settles: user code is done (without value, with a response and the calls of
`broadcast`, or with the calls for an event), or failed; the `send` of the answer is done or failed;
all broadcasts are done. -/
inductive Settled where
  | done
  | answer (resp : Ref) (body : Js) (calls : List Call)
  | output (calls : List Call)
  | rejected
  | sent (ok : Bool)
  | cast

/-- The handler is removed. -/
def State.drop (s : State) (t : Nat) : State := { s with tasks := s.tasks.filter (fun p => p.1 ≠ t) }

/-- The handler waits for something else. -/
def State.wait (s : State) (t : Nat) (task : Task) (p : Phase) : State :=
  { s with tasks := s.tasks.map (fun q => if q.1 = t then (t, { task with phase := p }) else q) }

/-- The promise of the handler is rejected: `_checkErrAndResponse`, L506-514, or `_checkErr`,
L516-520. -/
def fail (cfg : Cfg) (env : Env) (opts : Server.Options) (t : Nat) (task : Task) : Proc := fun s =>
  match task.job with
  | .event _ => (.next, s.drop t)
  | _ => receivingErr cfg env opts task.u true (s.drop t)

/-- `scope.call(); resolve()`. Events have no scope. An exception in deferred code rejects the
promise of the handler. -/
def finish (cfg : Cfg) (env : Env) (opts : Server.Options) (t : Nat) (task : Task) : Proc := fun s =>
  match task.job with
  | .event _ => (.next, s.drop t)
  | _ =>
    let s1 := enter cfg env (.deferred t) s
    if env.throws (s.push (.deferred t)) (.deferred t) then fail cfg env opts t task s1
    else (.next, s1.drop t)

/-- `broadcasts.map(..)` of `broadcastAll`, `render_request_handlers_mod.rs` L17-45, with `broadcast`,
L117-132; `false` if a message cannot be packed, which rejects the promise. -/
def castAll (cfg : Cfg) (t : Nat) : List Cast → State → Bool × State
  | [], s => (true, s)
  | (ref, us, b) :: cs, s =>
    if cfg.packs (.msg ref b) then
      castAll cfg t cs (us.foldl (fun s u => s.push (.send (.cast t) u 0 (.msg ref b))) s)
    else (false, s)

/-- `broadcastAll(..).then(..)`. -/
def broadcastAll (cfg : Cfg) (env : Env) (opts : Server.Options) (t : Nat) (task : Task)
    (casts : List Cast) : Proc := fun s =>
  if casts.isEmpty then finish cfg env opts t task s
  else
    match castAll cfg t casts s with
    | (true, s) => (.next, s.wait t task .casting)
    | (false, s) => fail cfg env opts t task s

/-- `producer.send(consumer.uuid(), res.pack(..))`; an exception of `pack` inside of `then` rejects. -/
def sendAnswer (cfg : Cfg) (env : Env) (opts : Server.Options) (t : Nat) (task : Task) (o : Out)
    (casts : List Cast) : Proc := fun s =>
  if cfg.packs o then
    (.next, (s.push (.send (.answer t) task.u task.seq o)).wait t task (.sending casts))
  else fail cfg env opts t task s

/-- A handler goes on: `render_request_handler.rs` L58-76, L147-159, `render_beacon_emitter.rs`
L22-41, `render_event_emitter.rs` L80-123. Combinations that cannot occur do nothing. -/
def resume (cfg : Cfg) (env : Env) (opts : Server.Options) (t : Nat) (task : Task) (x : Settled) :
    Proc :=
  match task.phase, task.job, x with
  | .user, _, .rejected => fail cfg env opts t task
  | .user, .request r, .answer resp body calls =>
    if resp ∉ expectations r then .skip
    else if r.actions.length > 1 then
      match collect (requestMethods r) resp calls [] with
      | none => fail cfg env opts t task
      | some casts =>
        if complete r resp casts then sendAnswer cfg env opts t task (.msg resp body) casts
        else fail cfg env opts t task
    else sendAnswer cfg env opts t task (.msg resp body) []
  | .user, .beacon, .done => sendAnswer cfg env opts t task .beacon []
  | .user, .event e, .output calls =>
    match collect (eventMethods e) [] calls [] with
    | none => fail cfg env opts t task
    | some casts =>
      if covers e.broadcasts casts then broadcastAll cfg env opts t task casts
      else fail cfg env opts t task
  | .sending casts, _, .sent true => broadcastAll cfg env opts t task casts
  | .sending _, _, .sent false => fail cfg env opts t task
  | .casting, _, .cast => finish cfg env opts t task
  | _, _, _ => .skip

/-! ### The server -/

/-- What comes from outside. -/
inductive Input where
  | ready
  | shutdown
  | connected (u : Uuid)
  | disconnected (u : Uuid)
  | received (u : Uuid) (bytes : Bytes)
  | serverError
  | event (ref : Ref)
  | user (c : Change)
  | settled (t : Nat) (x : Settled)

/-- The handler of `connected` and `disconnected`: the declared one, or the static one without
broadcasts (`render_static.rs` L54-97). -/
def defaultEvent (cfg : Cfg) (name : Ref) : Flow.Event :=
  match cfg.workflow.events.find? (fun e => e.reference = some name) with
  | some e => e
  | none => ⟨some name, [], [], .nothing, true⟩

/-- A handler of an event is called; exceptions are not caught, L177-184, L208-215, L594-604. -/
def emitEvent (cfg : Cfg) (env : Env) (e : Flow.Event) : Proc := fun s =>
  let t := s.next
  let a := Act.event t (e.reference.getD [])
  let s := { s with next := t + 1 }
  if env.throws (s.push a) a then (.thrown, enter cfg env a s)
  else (.next, enter cfg env a { s with tasks := s.tasks ++ [(t, ⟨0, 0, .event e, .user⟩)] })

/-- One input: L138-216 and L594-604. -/
def step (cfg : Cfg) (env : Env) (opts : Server.Options) : Input → Proc
  | .ready => callUser cfg env .ready
  | .shutdown => callUser cfg env .shutdown
  | .serverError => callUser cfg env (.error none)
  | .connected u => fun s =>
    match s.find u with
    | some _ => callUser cfg env (.error none) s
    | none =>
      emitEvent cfg env (defaultEvent cfg "connected".toList)
        (({ s with consumers := s.consumers ++ [(u, Consumer.new)] } : State).push (.opened u))
  | .disconnected u => fun s =>
    match s.find u with
    | none => callUser cfg env (.error none) s
    | some _ =>
      emitEvent cfg env (defaultEvent cfg "disconnected".toList)
        (({ s with consumers := s.consumers.filter (fun p => p.1 ≠ u) } : State).push (.closed u))
  | .received u bytes => received cfg env opts u bytes
  | .event ref =>
    match cfg.workflow.events.find? (fun e => e.reference = some ref && !Flow.isDefaultEvent ref) with
    | some e => emitEvent cfg env e
    | none => .skip
  | .user c => fun s => (.next, change cfg s c)
  | .settled t x => fun s =>
    match s.tasks.lookup t with
    | some task => resume cfg env opts t task x s
    | none => (.next, s)

/-- A run. Exceptions end the processing of one input; what the transport makes of them is not known,
the run goes on. `true` if the server hangs. -/
def run (cfg : Cfg) (env : Env) (opts : Server.Options) : List Input → State → Bool × State
  | [], s => (false, s)
  | i :: is, s =>
    match step cfg env opts i s with
    | (.hung, s) => (true, s)
    | (_, s) => run cfg env opts is s

/-! ### Filters -/

/-- `all`, `static/implementation/consumer/filter.ts` L43-49. -/
def filterAll (s : State) : List Uuid := s.consumers.map Prod.fst

/-- `except`, `filter.ts` L33-41. -/
def filterExcept (s : State) (u : Uuid) : List Uuid := (s.consumers.map Prod.fst).filter (· ≠ u)

/-- `exclude`, `filter.ts` L23-31. -/
def filterExclude (s : State) (us : List Uuid) : List Uuid :=
  (s.consumers.map Prod.fst).filter (fun v => !us.any (fun t => t = v))

/-- `filter`, `filter.ts` L13-21. -/
def filterBy (s : State) (cb : Uuid → Consumer → Bool) : List Uuid :=
  (s.consumers.filter (fun p => cb p.1 p.2)).map Prod.fst

end Verif.TsServer
