import Verif.Spec.NetworkTsRust
import Verif.Spec.SystemLive
set_option autoImplicit false
/-!
Vocabulary for statements about what TypeScript clients and a Rust server can still reach together.
-/
namespace Verif.Network

open Verif Verif.Spec

variable {P : Type} {cfg : Server.Cfg P} {env : Server.Env P} {opts : Server.Options}
  {down : UInt64 → UInt32 → Server.Out P → Bytes} {ccfg : TsClient.Cfg} {cenv : TsClient.Env}
  {up : UInt64 → UInt32 → TsClient.Out → Bytes}

/-- Nothing is refused on the side of the client: the transport takes every message, every message can be packed,
and user code that is called returns and calls nothing. -/
structure Gentle (ccfg : TsClient.Cfg) (cenv : TsClient.Env) : Prop where
  call : ∀ o, ccfg.packs o = true
  sends : ∀ s o, cenv.sends s o = true
  throws : ∀ s a, cenv.throws s a = false
  during : ∀ s a, cenv.during s a = []

/-- Nothing is refused on both sides; and user code of the server takes reports of errors. -/
structure Smooth (cfg : Server.Cfg P) (env : Server.Env P) (ccfg : TsClient.Cfg) (cenv : TsClient.Env) : Prop extends
    Gentle ccfg cenv where
  send : ∀ s u q o, env.send s u q o = true
  answer : ∀ o, cfg.packs o = true
  error : ∀ s u, env.error s u = .ok ()

/-- The server gets what the client sent. -/
def HeardRight (t : Terms P) (cfg : Server.Cfg P) (up : UInt64 → UInt32 → TsClient.Out → Bytes) (o : TsClient.Out) : Prop :=
  ∃ m, System.Travels up cfg.decoder o m ∧ SameUp t cfg o m

/-- A client gets what the server sent. -/
def ReadRight (t : Terms P) (ccfg : TsClient.Cfg) (down : UInt64 → UInt32 → Server.Out P → Bytes) (o : Server.Out P) : Prop :=
  ∃ m, System.Travels down ccfg.decoder o m ∧ SameDown t o m

/-- The id was never used: no client had it, and nothing was sent to it. -/
structure Fresh (n : Net (rustServer cfg env opts down) (tsClient ccfg cenv up)) (u : Uuid) : Prop where
  conns : n.find u = none
  unsent : ∀ q o, .send u q o true ∉ n.server.2.past

/-- The client waits for nothing, and no job is left. -/
structure Idle (s : TsClient.State) : Prop where
  reader : s.reader = ⟨[], []⟩
  pending : s.pending = []
  tasks : s.tasks = []

/-- Client and server have made their handshake, and nothing is under way between them. -/
structure Established (n : Net (rustServer cfg env opts down) (tsClient ccfg cenv up)) (u : Uuid) : Prop where
  running : n.server.1 = .running
  conn : ∃ c, n.find u = some c ∧ c.client.1 = false ∧ Idle c.client.2 ∧ c.up = [] ∧ c.down = []
  server : ∃ c, n.server.2.find u = some c ∧ c.reader = ⟨[], []⟩ ∧ c.confirmed = true ∧ c.discredited = false ∧
    c.hashAccepted = true ∧ c.key.isSome = true

/-- User code of the server assigned the client, or the server does not insist on it. -/
def Admitted (n : Net (rustServer cfg env opts down) (tsClient ccfg cenv up)) (u : Uuid) : Prop :=
  Server.Strict opts.identification → ∃ c, n.server.2.find u = some c ∧ c.assigned.isSome = true

/-- Nothing but regular progress of the connection of `u`: it is made, both sides are told, bytes arrive,
jobs run, user code makes request objects and sends them, the server confirms connections. -/
inductive Regular (u : Uuid) : Event (rustServer cfg env opts down) (tsClient ccfg cenv up) → Prop where
  | opened : Regular u (.opened u)
  | connected : Regular u (.client u .connected)
  | toServer (k : Nat) : Regular u (.toServer u k)
  | toClient (k : Nat) : Regular u (.toClient u k)
  | confirm : Regular u (.server .confirm)
  | create (k : TsClient.Kind) (b : TsServer.Js) : Regular u (.client u (.user (.create k b)))
  | send (o : Nat) : Regular u (.client u (.user (.send o)))
  | work (i : Nat) : Regular u (.client u (.work i))

/-- Jobs run, bytes arrive, the server confirms connections: no new connection and nothing user code of the
client does. -/
inductive Waits (u : Uuid) : Event (rustServer cfg env opts down) (tsClient ccfg cenv up) → Prop where
  | toServer (k : Nat) : Waits u (.toServer u k)
  | toClient (k : Nat) : Waits u (.toClient u k)
  | confirm : Waits u (.server .confirm)
  | work (i : Nat) : Waits u (.client u (.work i))

/-- The request or beacon of an object is one the server knows; the server gets it as it is, user code decides
on it, and the client gets the answer and broadcasts as they are. -/
inductive Servable (t : Terms P) (cfg : Server.Cfg P) (env : Server.Env P) (ccfg : TsClient.Cfg)
    (down : UInt64 → UInt32 → Server.Out P → Bytes) (up : UInt64 → UInt32 → TsClient.Out → Bytes) (u : Uuid) :
    TsClient.Kind → TsServer.Js → Prop where
  | request {req : Flow.Request} {ref : Flow.Ref} {body : TsServer.Js} : req ∈ cfg.workflow.requests → req.request = some ref →
      (∀ r ∈ cfg.workflow.requests, r.request = some ref → r = req) → Complete req →
      (∀ a b, AnswerOf req a → AnswerOf req b → Apart a b) → HeardRight t cfg up (.msg ref body) →
      (∀ s p, t.same p body → ∃ o l, Server.Decides env req s u p o l) →
      (∀ s p o l, t.same p body → Server.Decides env req s u p o l →
        ReadRight t ccfg down o ∧ ∀ x ∈ l, x.1 = u → ReadRight t ccfg down x.2) →
      Servable t cfg env ccfg down up u (.request req) body
  | beacon {b : Flow.Broadcast} {body : TsServer.Js} : b ∈ cfg.workflow.beacons →
      (∀ r ∈ cfg.workflow.requests, r.request ≠ some b.reference) → HeardRight t cfg up (.msg b.reference body) →
      (∀ s p, t.same p body → env.beacon s b.reference u p = .ok ()) → ReadRight t ccfg down .beacon →
      Servable t cfg env ccfg down up u (.beacon b.reference) body

/-- What user code of the server decided on when it looked at the message after the history `past`, and what user
code of the client is told. `l` are the broadcasts. -/
inductive Told (t : Terms P) (env : Server.Env P) (u : Uuid) (past : List (Server.Act P)) :
    TsClient.Kind → TsServer.Js → TsClient.Result → List (Uuid × Server.Out P) → Prop where
  | answer {req : Flow.Request} {ref rref : Flow.Ref} {body v : TsServer.Js} {p x : P} {s : Server.State P} {q : UInt32}
      {l : List (Uuid × Server.Out P)} : req.request = some ref → t.same p body →
      s.past = .respond u ref q :: .got u (.msg ref p) q :: .chunk u :: past →
      Server.Decides env req s u p (.msg rref x) l → t.same x v → AnswerOf req rref →
      Told t env u past (.request req) body (.resolved rref v) l
  | beacon {ref : Flow.Ref} {body : TsServer.Js} : Told t env u past (.beacon ref) body .confirmed []

/-- The broadcasts among these messages that are for `u` and in the workflow `w` of the client, in order, as
values of the client. -/
inductive Heard (t : Terms P) (w : Flow.Store) (u : Uuid) : List (Uuid × Server.Out P) → List (Flow.Ref × TsServer.Js) → Prop where
  | nil : Heard t w u [] []
  | known {ref : Flow.Ref} {x : P} {v : TsServer.Js} {l : List (Uuid × Server.Out P)} {h : List (Flow.Ref × TsServer.Js)} :
      TsClient.Broadcasts w ref → t.same x v → Heard t w u l h → Heard t w u ((u, .msg ref x) :: l) ((ref, v) :: h)
  | unknown {ref : Flow.Ref} {x : P} {l : List (Uuid × Server.Out P)} {h : List (Flow.Ref × TsServer.Js)} :
      ¬ TsClient.Broadcasts w ref → Heard t w u l h → Heard t w u ((u, .msg ref x) :: l) h
  | other {v : Uuid} {o : Server.Out P} {l : List (Uuid × Server.Out P)} {h : List (Flow.Ref × TsServer.Js)} :
      v ≠ u → Heard t w u l h → Heard t w u ((v, o) :: l) h

/-- From `n` to `n'`: user code of the client of `u` made a request object and sent it, the promise settled
with the result, and meanwhile user code got these broadcasts and no others. -/
def Returned (n n' : Net (rustServer cfg env opts down) (tsClient ccfg cenv up)) (u : Uuid) (kind : TsClient.Kind) (body : TsServer.Js)
    (result : TsClient.Result) (heard : List (Flow.Ref × TsServer.Js)) : Prop :=
  ∃ c c' newer o k, n.find u = some c ∧ n'.find u = some c' ∧ c'.client.2.past = newer ++ c.client.2.past ∧
    .created o kind body ∈ newer ∧ .called k o ∈ newer ∧ .ended k result ∈ newer ∧ tsCasts newer = heard

/-- These calls one after another: each returned what user code of the server decided on, and user code got the
broadcasts of each. -/
inductive AllReturned (t : Terms P) (u : Uuid) : List (TsClient.Kind × TsServer.Js) →
    Net (rustServer cfg env opts down) (tsClient ccfg cenv up) → Net (rustServer cfg env opts down) (tsClient ccfg cenv up) → Prop where
  | nil {n : Net (rustServer cfg env opts down) (tsClient ccfg cenv up)} : AllReturned t u [] n n
  | cons {n n1 n' : Net (rustServer cfg env opts down) (tsClient ccfg cenv up)} {kind : TsClient.Kind} {body : TsServer.Js}
      {res : TsClient.Result} {l : List (Uuid × Server.Out P)} {heard : List (Flow.Ref × TsServer.Js)}
      {calls : List (TsClient.Kind × TsServer.Js)} : Returned n n1 u kind body res heard → Told t env u n.server.2.past kind body res l →
      Heard t ccfg.workflow u l heard → AllReturned t u calls n1 n' → AllReturned t u ((kind, body) :: calls) n n'

/-- Something that is not about the connection of `u`: other clients connect, go on, get bytes or are lost; the
server goes on by itself. -/
def Elsewhere {S : ServerProg} {C : ClientProg} (u : Uuid) : Event S C → Prop
  | .opened v => v ≠ u
  | .lost v => v ≠ u
  | .toServer v _ => v ≠ u
  | .toClient v _ => v ≠ u
  | .client v _ => v ≠ u
  | .server _ => True

end Verif.Network
