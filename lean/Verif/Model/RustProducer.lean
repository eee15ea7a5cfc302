import Verif.Model.RustServer
set_option autoImplicit false
/-!
The event loop of a generated Rust server: `cli/src/workflow/render/producer/rust/render_mod.rs`
(cited by line only).
-/
namespace Verif.Server

open Verif

variable {P : Type}

/-- `emitters::error::emit(..).await.map_err(ProducerError::EventEmitterError)?`, for example
L394-402. Which error is reported is not kept. -/
def emitError (env : Env P) (u : Option Uuid) : Proc P := fun s =>
  let s := s.push (.error u)
  (env.error s u, s)

/-- `disconnect`, L318-329. The consumer is the one in the map at all call sites. -/
def disconnect (env : Env P) (u : Uuid) : Proc P := fun s =>
  match s.find u with
  | none => (.ok (), s)
  | some c =>
    if c.discredited then (.ok (), s)
    else
      let s := s.set u { c with discredited := true }
      let ok := env.drop s u
      (if ok then .ok () else .err, s.push (.drop u))

/-- `responsing_err`, L331-376. `None` is passed exactly where the client is not in the map
(L433, L954). -/
def responsingErr (env : Env P) (opts : Options) (u : Uuid) : Proc P :=
  Proc.andThen
    (if opts.onError = .disconnect ∨ opts.onError = .emitErrorAndDisconnect then disconnect env u
      else .skip)
    (if opts.onError = .emitError ∨ opts.onError = .emitErrorAndDisconnect then
      emitError env (some u) else .skip)

/-- `disconnect(..).await?` followed by an error event: L393-403, L557-566, L575-584, L590-599. -/
def kick (env : Env P) (u : Uuid) : Proc P :=
  Proc.andThen (disconnect env u) (emitError env (some u))

/-- Pack and send one of the handshake responses, L460-487 and L524-555. -/
def answer (cfg : Cfg P) (env : Env P) (opts : Options) (u : Uuid) (seq : UInt32) (o : Out P) :
    Proc P := fun s =>
  if !cfg.packs o then responsingErr env opts u s
  else
    match send env u seq o s with
    | (true, s) => (.ok (), s)
    | (false, s) => responsingErr env opts u s

/-- The arm for the self key, L448-488. -/
def onSelfKey (cfg : Cfg P) (env : Env P) (opts : Options) (u : Uuid) (c : Consumer P) (k : P)
    (seq : UInt32) : Proc P := fun s =>
  answer cfg env opts u seq (.selfKey u) (s.set u (c.setKey cfg.mergeKey k true))

/-- The arm for the hash request, L489-568. -/
def onHash (cfg : Cfg P) (env : Env P) (opts : Options) (u : Uuid) (c : Consumer P)
    (protocol workflow : List Char) (seq : UInt32) : Proc P := fun s =>
  if protocol ≠ cfg.protocolHash ∨ workflow ≠ cfg.workflowHash then
    Proc.andThen (answer cfg env opts u seq (.hash true)) (kick env u) s
  else answer cfg env opts u seq (.hash false) (s.set u { c with hashAccepted := true })

/-- The generated arms for requests and beacons, L641-645 with the templates L937-984: the first arm
whose pattern has the name of the message; requests come before beacons. -/
def dispatch (cfg : Cfg P) (env : Env P) (opts : Options) (u : Uuid) (ref : Ref) (p : P)
    (seq : UInt32) : Proc P := fun s =>
  match cfg.workflow.requests.find? (fun r => r.request = some ref) with
  | some r =>
    match process cfg env r u p seq s with
    | (.ok _, s) => (.ok (), s)
    | (.err, s) => responsingErr env opts u s
    | (.panic, s) => (.panic, s)
  | none =>
    match cfg.workflow.beacons.find? (fun b => b.reference = ref) with
    | some _ =>
      match emitBeacon cfg env ref u p seq s with
      | (.ok _, s) => (.ok (), s)
      | (.err, s) => emitError env (some u) s
      | (.panic, s) => (.panic, s)
    | none => (.ok (), s)

/-- The last arm, L569-647. `assigned` and `hasKey` were read before the loop (L420-424). -/
def onOther (cfg : Cfg P) (env : Env P) (opts : Options) (u : Uuid) (assigned hasKey : Bool)
    (c : Consumer P) (ref : Ref) (p : P) (seq : UInt32) : Proc P := fun s =>
  if !c.hashAccepted then kick env u s
  else if !hasKey then kick env u s
  else if !assigned && opts.identification ≠ .ignore then
    Proc.andThen
      (if opts.identification = .disconnect ∨ opts.identification = .emitErrorAndDisconnect then
        disconnect env u else .skip)
      (if opts.identification = .emitError ∨ opts.identification = .emitErrorAndDisconnect then
        emitError env (some u) else .skip) s
  else dispatch cfg env opts u ref p seq s

/-- One round of the loop L441-649. If the client is not in the map the loop returns; as nothing in
the loop adds clients, doing nothing in all remaining rounds is the same. -/
def onMessage (cfg : Cfg P) (env : Env P) (opts : Options) (u : Uuid) (assigned hasKey : Bool)
    (m : In P) (seq : UInt32) : Proc P := fun s =>
  match s.find u with
  | none => (.ok (), s)
  | some c =>
    let s := s.push (.got u m seq)
    match m with
    | .hash protocol workflow => onHash cfg env opts u c protocol workflow seq s
    | .msg ref p =>
      if ref = cfg.selfKey ∧ c.hashAccepted = false then onSelfKey cfg env opts u c p seq s
      else onOther cfg env opts u assigned hasKey c ref p seq s

/-- The loop L441-649. -/
def onMessages (cfg : Cfg P) (env : Env P) (opts : Options) (u : Uuid) (assigned hasKey : Bool) :
    List (Rust.Income (In P)) → Proc P
  | [] => .skip
  | m :: ms =>
    Proc.andThen (onMessage cfg env opts u assigned hasKey m.msg m.header.sequence)
      (onMessages cfg env opts u assigned hasKey ms)

/-- `process_received_data`, L378-651, with `Consumer::chunk` and `get_messages`
(`render_consumer.rs` L84-98: all messages in the queue of the reader). -/
def received (cfg : Cfg P) (env : Env P) (opts : Options) (u : Uuid) (bytes : Bytes) : Proc P :=
  fun s =>
  let s := s.push (.chunk u)
  match s.find u with
  | none => responsingErr env opts u s
  | some c =>
    if !c.confirmed then kick env u s
    else if c.discredited then (.ok (), s)
    else
      match Rust.chunk cfg.decoder c.reader bytes with
      | (.panic, r) => (.panic, s.set u { c with reader := r })
      | (.ok, r) =>
        onMessages cfg env opts u (c.isAssigned opts.identification) c.key.isSome r.queue
          (s.set u { c with reader := ⟨r.buffer, []⟩ })
      | (_, r) => responsingErr env opts u (s.set u { c with reader := r })

/-- A failure is only logged, a panic goes on: L260-272, L292-304, L986-998. -/
def warned (p : Proc P) : Proc P := fun s =>
  match p s with
  | (.ok _, s) => (.ok (), s)
  | (.err, s) => (.ok (), s)
  | (.panic, s) => (.panic, s)

/-- The end of `add_connection`: `consumers.insert` and `tx_confirm.send`, L273-276. The receiver
lives as long as the loop, so `send` cannot fail. -/
def insert (u : Uuid) : Proc P := fun s =>
  (.ok (), ({ s with
    consumers := s.consumers ++ [(u, Consumer.new)]
    confirms := s.confirms ++ [u] } : State P).push (.opened u))

/-- `add_connection`, L238-278. -/
def addConnection (cfg : Cfg P) (env : Env P) (u : Uuid) : Proc P := fun s =>
  if (s.find u).isSome then (.err, s)
  else
    Proc.andThen (warned (emitEvent cfg env (defaultEvent cfg "connected".toList) none)) (insert u) s

/-- `remove_connection`, L280-316. -/
def removeConnection (cfg : Cfg P) (env : Env P) (u : Uuid) : Proc P := fun s =>
  match s.find u with
  | none => (.ok (), s)
  | some _ =>
    warned (emitEvent cfg env (defaultEvent cfg "disconnected".toList) none)
      (({ s with consumers := s.consumers.filter (fun p => p.1 ≠ u) } : State P).push (.closed u))

/-- What the `select!` of L669-683 can yield. `serverEvent` with a client or without stands for
`Error`, `ConnectionError` and `ServerError` (L722-760). `confirm` is the next item of the queue.
`stop` is a cancelled token or a closed channel. Changes of identification come from user code
through a channel, at any time. -/
inductive Input (P : Type) where
  | ready
  | shutdown
  | connected (u : Uuid)
  | disconnected (u : Uuid)
  | received (u : Uuid) (bytes : Bytes)
  | serverEvent (u : Option Uuid)
  | event (ref : Ref) (p : P)
  | setKey (u : Uuid) (k : P) (overwrite : Bool)
  | setAssigned (u : Uuid) (k : P) (overwrite : Bool)
  | confirm
  | stop

/-- `MergedChannel::Confirmation`, L806-831. -/
def confirmation (cfg : Cfg P) (env : Env P) (u : Uuid) : Proc P := fun s =>
  match s.find u with
  | none => emitError env (some u) s
  | some c =>
    let s := (s.set u { c with confirmed := true }).push (.confirmed u)
    if !cfg.packs .confirmation then (.err, s)
    else
      match send env u 0 .confirmation s with
      | (true, s) => (.ok (), s)
      | (false, s) => (.err, s)

/-- The body of the loop, L684-832, without `Shutdown`. -/
def step (cfg : Cfg P) (env : Env P) (opts : Options) : Input P → Proc P
  | .ready => fun s => (env.ready (s.push .ready), s.push .ready)
  | .connected u => addConnection cfg env u
  | .disconnected u => removeConnection cfg env u
  | .received u bytes => received cfg env opts u bytes
  | .serverEvent u => emitError env u
  | .event ref p =>
    match cfg.workflow.events.find? (fun e => e.reference = some ref && !Flow.isDefaultEvent ref) with
    | some e => warned (emitEvent cfg env e (some p))
    | none => .skip
  | .setKey u k overwrite => fun s =>
    match s.find u with
    | some c => (.ok (), (s.set u (c.setKey cfg.mergeKey k overwrite)).push (.keyChange u))
    | none => emitError env (some u) s
  | .setAssigned u k overwrite => fun s =>
    match s.find u with
    | some c => (.ok (), (s.set u (c.assign cfg.mergeAssigned k overwrite)).push (.assignment u))
    | none => emitError env (some u) s
  | .confirm => fun s =>
    match s.confirms with
    | [] => (.ok (), s)
    | u :: us => confirmation cfg env u { s with confirms := us }
  | .shutdown => .skip
  | .stop => .skip

/-- How the loop ended, if it did. -/
inductive Exit where
  | running
  | stopped
  | failed
  | panicked
  deriving DecidableEq

/-- `listener`, L653-838, on the events it gets. -/
def listen (cfg : Cfg P) (env : Env P) (opts : Options) : List (Input P) → State P → Exit × State P
  | [], s => (.running, s)
  | .shutdown :: _, s => (.stopped, s)
  | .stop :: _, s => (.stopped, s)
  | i :: is, s =>
    match step cfg env opts i s with
    | (.ok _, s) => listen cfg env opts is s
    | (.err, s) => (.failed, s)
    | (.panic, s) => (.panicked, s)

end Verif.Server
