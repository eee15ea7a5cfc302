import Verif.Spec.NetworkTsTs
import Verif.Spec.NetworkTsLive
set_option autoImplicit false
/-!
Vocabulary for statements about what TypeScript clients and a TypeScript server can still reach together.
-/
namespace Verif.Network

open Verif Verif.Spec

variable {cfg : TsServer.Cfg} {env : TsServer.Env} {opts : Server.Options}
  {takes : List TsServer.Act → Uuid → UInt32 → TsServer.Out → Bool}
  {down : UInt64 → UInt32 → TsServer.Out → Bytes} {ccfg : TsClient.Cfg} {cenv : TsClient.Env}
  {up : UInt64 → UInt32 → TsClient.Out → Bytes}

/-- Nothing is refused on both sides: see `Gentle`; and the transport of the server takes every message, every
message can be packed, and user code of the server throws nothing and discredits nobody when it is called. -/
structure TsSmooth (cfg : TsServer.Cfg) (env : TsServer.Env)
    (takes : List TsServer.Act → Uuid → UInt32 → TsServer.Out → Bool) (ccfg : TsClient.Cfg) (cenv : TsClient.Env) : Prop extends
    Gentle ccfg cenv where
  taken : ∀ h u q o, takes h u q o = true
  answer : ∀ o, cfg.packs o = true
  quiet : ∀ s a, env.throws s a = false
  kept : ∀ s a v, .discredit v ∉ env.during s a

/-- The server gets what the client sent, an object. -/
def TsHeardRight (t : TsTerms) (cfg : TsServer.Cfg) (up : UInt64 → UInt32 → TsClient.Out → Bytes) (o : TsClient.Out) : Prop :=
  ∃ m ps, System.Travels up cfg.decoder o m ∧ TsSameUp t cfg o m ∧ m.body = .obj ps

/-- A client gets what the server sent. -/
def TsReadRight (t : TsTerms) (ccfg : TsClient.Cfg) (down : UInt64 → UInt32 → TsServer.Out → Bytes) (o : TsServer.Out) : Prop :=
  ∃ m, System.Travels down ccfg.decoder o m ∧ TsSameDown t o m

/-- The id was never used: no client had it, and nothing was sent to it. -/
structure TsFresh (n : Net (tsServer cfg env opts takes down) (tsClient ccfg cenv up)) (u : Uuid) : Prop where
  conns : n.find u = none
  unsent : ∀ f q o, .send f u q o ∉ n.server.2.past

/-- Client and server have made their handshake, and nothing is under way between them. -/
structure TsEstablished (n : Net (tsServer cfg env opts takes down) (tsClient ccfg cenv up)) (u : Uuid) : Prop where
  running : n.server.1 = false
  conn : ∃ c, n.find u = some c ∧ c.client.1 = false ∧ Idle c.client.2 ∧ c.up = [] ∧ c.down = []
  server : ∃ c, n.server.2.find u = some c ∧ c.reader = ⟨[], []⟩ ∧ c.discredited = false ∧ c.hash = true ∧ c.key.isSome = true

/-- Nothing but regular progress of the connection of `u`: it is made, both sides are told, bytes arrive, jobs
run. -/
inductive TsRegular (u : Uuid) : Event (tsServer cfg env opts takes down) (tsClient ccfg cenv up) → Prop where
  | opened : TsRegular u (.opened u)
  | connected : TsRegular u (.client u .connected)
  | toServer (k : Nat) : TsRegular u (.toServer u k)
  | toClient (k : Nat) : TsRegular u (.toClient u k)
  | work (i : Nat) : TsRegular u (.client u (.work i))

/-- What the server takes for its request or beacon: an object of the type, which is in no other one the server
waits for and in which there is none. -/
structure TsOwnType (w : Flow.Store) (ref : Flow.Ref) : Prop where
  foreign : Foreign ref
  requests : ∀ r ∈ w.requests, ∀ ref', r.request = some ref' → Apart ref ref'
  beacons : ∀ b ∈ w.beacons, Apart ref b.reference

/-- The request or beacon of an object is one the server knows, and the server gets it as it is. -/
inductive TsServable (t : TsTerms) (cfg : TsServer.Cfg) (up : UInt64 → UInt32 → TsClient.Out → Bytes) :
    TsClient.Kind → TsServer.Js → Prop where
  | request {req : Flow.Request} {ref : Flow.Ref} {body : TsServer.Js} : req ∈ cfg.workflow.requests → req.request = some ref →
      (∀ r ∈ cfg.workflow.requests, r.request = some ref → r = req) → TsOwnType cfg.workflow ref →
      (∀ a b, AnswerOf req a → AnswerOf req b → Apart a b) → TsHeardRight t cfg up (.msg ref body) →
      TsServable t cfg up (.request req) body
  | beacon {b : Flow.Broadcast} {body : TsServer.Js} : b ∈ cfg.workflow.beacons →
      (∀ r ∈ cfg.workflow.requests, r.request ≠ some b.reference) → TsOwnType cfg.workflow b.reference →
      TsHeardRight t cfg up (.msg b.reference body) → TsServable t cfg up (.beacon b.reference) body

/-- The calls with which user code gives broadcasts. -/
def giving (casts : List TsServer.Cast) : List TsServer.Call := casts.map (fun x => ⟨x.2.1, x.1.filter (· ≠ '.'), x.2.2⟩)

/-- What user code of the server may decide on. For a request of one action it is one of the answers. For a request
of several ones it comes with broadcasts which the answer allows, none twice, and all it requires; calls have the
names of the broadcasts without dots, which differ. A beacon is taken. Then: what is sent, what user code of
the client is told, and the broadcasts. -/
inductive TsDecides : TsClient.Kind → TsServer.Settled → TsServer.Out → TsClient.Result → List TsServer.Cast → Prop where
  | plain {r : Flow.Request} {ref : Flow.Ref} {v : TsServer.Js} {calls : List TsServer.Call} : r.actions.length ≤ 1 → AnswerOf r ref →
      TsDecides (.request r) (.answer ref v calls) (.msg ref v) (.resolved ref v) []
  | action {r : Flow.Request} {ref : Flow.Ref} {v : TsServer.Js} {casts : List TsServer.Cast} : 1 < r.actions.length → AnswerOf r ref →
      ((r.actions.flatMap Flow.Action.broadcast).map (fun b => b.reference.filter (· ≠ '.'))).Nodup →
      (casts.map Prod.fst).Nodup → (∀ x ∈ casts, TsServer.Allows r ref x.1) →
      (∀ b, TsServer.Requires r ref b → ∃ x ∈ casts, x.1 = b) →
      TsDecides (.request r) (.answer ref v (giving casts)) (.msg ref v) (.resolved ref v) casts
  | beacon {ref : Flow.Ref} : TsDecides (.beacon ref) .done .beacon .confirmed []

/-- The broadcasts user code of the server may give with an event: those of the event, none twice, and all it
requires; the methods have the names of the broadcasts without dots, which differ. -/
structure TsGives (e : Flow.Event) (casts : List TsServer.Cast) : Prop where
  names : (e.broadcasts.map (fun b => b.reference.filter (· ≠ '.'))).Nodup
  once : (casts.map Prod.fst).Nodup
  allowed : ∀ x ∈ casts, ∃ b ∈ e.broadcasts, b.reference = x.1
  required : ∀ b ∈ e.broadcasts, b.optional = false → ∃ x ∈ casts, x.1 = b.reference

/-- Broadcasts one by one, each with its receiver. -/
def eachCast (casts : List TsServer.Cast) : List (Uuid × Flow.Ref × TsServer.Js) :=
  casts.flatMap (fun x => x.2.1.map (fun u => (u, x.1, x.2.2)))

/-- The broadcasts among these that are for `u` and in the workflow `w` of the client, in order. -/
inductive TsHeardOf (w : Flow.Store) (u : Uuid) : List (Uuid × Flow.Ref × TsServer.Js) → List (Flow.Ref × TsServer.Js) → Prop where
  | nil : TsHeardOf w u [] []
  | known {ref : Flow.Ref} {v : TsServer.Js} {l : List (Uuid × Flow.Ref × TsServer.Js)} {h : List (Flow.Ref × TsServer.Js)} :
      TsClient.Broadcasts w ref → TsHeardOf w u l h → TsHeardOf w u ((u, ref, v) :: l) ((ref, v) :: h)
  | unknown {ref : Flow.Ref} {v : TsServer.Js} {l : List (Uuid × Flow.Ref × TsServer.Js)} {h : List (Flow.Ref × TsServer.Js)} :
      ¬ TsClient.Broadcasts w ref → TsHeardOf w u l h → TsHeardOf w u ((u, ref, v) :: l) h
  | other {v : Uuid} {x : Flow.Ref × TsServer.Js} {l : List (Uuid × Flow.Ref × TsServer.Js)} {h : List (Flow.Ref × TsServer.Js)} :
      v ≠ u → TsHeardOf w u l h → TsHeardOf w u ((v, x) :: l) h

/-- From `n` to `n'`: user code of the client of `u` made a request object and sent it, the promise settled
with the result, and meanwhile user code got these broadcasts and no others. -/
def TsReturned (n n' : Net (tsServer cfg env opts takes down) (tsClient ccfg cenv up)) (u : Uuid) (kind : TsClient.Kind)
    (body : TsServer.Js) (result : TsClient.Result) (heard : List (Flow.Ref × TsServer.Js)) : Prop :=
  ∃ c c' newer o k, n.find u = some c ∧ n'.find u = some c' ∧ c'.client.2.past = newer ++ c.client.2.past ∧
    .created o kind body ∈ newer ∧ .called k o ∈ newer ∧ .ended k result ∈ newer ∧ tsCasts newer = heard

/-- A call: user code of the client makes the object number `obj` and sends it, `count` bytes arrive at the
server, user code of the server decides on `x` for handler number `task`, the transport has sent the answer,
`count'` bytes arrive at the client, and what waits there goes on. -/
abbrev callEvents (u : Uuid) (kind : TsClient.Kind) (body : TsServer.Js) (obj count task : Nat) (x : TsServer.Settled) (count' : Nat) :
    List (UInt64 × Event (tsServer cfg env opts takes down) (tsClient ccfg cenv up)) :=
  [(0, .client u (.user (.create kind body))), (0, .client u (.user (.send obj))), (0, .toServer u count),
    (0, .server (.settled task x)), (0, .server (.settled task (.sent true))), (0, .toClient u count'), (0, .client u (.work 0))]

/-- A handler of the server was called for this message of `u`, number `task`. -/
def TsAsked (u : Uuid) (kind : TsClient.Kind) (body : TsServer.Js) (task : Nat) (past : List TsServer.Act) : Prop :=
  ∃ q, match kind with
    | .request _ => .respond task u kind.ref body q ∈ past
    | .beacon _ => .beacon task u kind.ref body q ∈ past

/-- The calls with what user code of the server decides on returned one after another, each with the broadcasts
given with it that are for `u`. -/
inductive TsAllReturned (u : Uuid) : List (TsClient.Kind × TsServer.Js × TsServer.Settled) →
    Net (tsServer cfg env opts takes down) (tsClient ccfg cenv up) → Net (tsServer cfg env opts takes down) (tsClient ccfg cenv up) → Prop where
  | nil {n : Net (tsServer cfg env opts takes down) (tsClient ccfg cenv up)} : TsAllReturned u [] n n
  | cons {n n1 n' : Net (tsServer cfg env opts takes down) (tsClient ccfg cenv up)} {kind : TsClient.Kind} {body : TsServer.Js}
      {x : TsServer.Settled} {o : TsServer.Out} {res : TsClient.Result} {casts : List TsServer.Cast} {heard : List (Flow.Ref × TsServer.Js)}
      {calls : List (TsClient.Kind × TsServer.Js × TsServer.Settled)} : TsReturned n n1 u kind body res heard → TsDecides kind x o res casts →
      TsHeardOf ccfg.workflow u (eachCast casts) heard → TsAllReturned u calls n1 n' → TsAllReturned u ((kind, body, x) :: calls) n n'

end Verif.Network
