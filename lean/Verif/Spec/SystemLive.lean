import Verif.Spec.System
import Verif.Spec.SystemTexts
set_option autoImplicit false
/-!
Vocabulary for statements about what clients and a server can still reach together.
-/
namespace Verif.System

open Verif Verif.Spec

variable {P : Type}

/-- Nothing is refused: the transport takes every message, every message can be packed, and user code
takes reports of errors. -/
structure Smooth (w : Setup P) : Prop where
  send : ∀ s u q o, w.env.send s u q o = true
  call : ∀ o, w.client.packs o = true
  answer : ∀ o, w.server.packs o = true
  error : ∀ s u, w.env.error s u = .ok ()

/-- Packed at any time and with any number, the message is one frame with this number, and it is decoded
to `m`. -/
def Travels {O T : Type} (pack : UInt64 → UInt32 → O → Bytes) (d : Rust.Decoder T) (o : O) (m : T) : Prop :=
  ∀ ts q, ∃ f : Frame, f.Ok ∧ f.hdr.sequence = q ∧ pack ts q o = f.bytes ∧ Spec.delivered d f = some ⟨f.hdr, m⟩

/-- The server gets what the client sent. -/
def HeardRight (w : Setup P) (hashes : List Char × List Char) (o : Client.Out P) : Prop :=
  ∃ m, Travels w.up w.server.decoder o m ∧ SameCall w hashes o m

/-- A client gets what the server sent. -/
def ReadRight (w : Setup P) (name : Uuid → List Char) (o : Server.Out P) : Prop :=
  ∃ m, Travels w.down w.client.decoder o m ∧ SameAnswer name o m

/-- The id was never used: no client had it, and nothing was sent to it. -/
structure Fresh (n : Net P) (u : Uuid) : Prop where
  conns : n.find u = none
  unsent : ∀ q o, .send u q o true ∉ n.server.past

/-- No task of the client has anything to do, and no call is open. -/
structure Resting (s : Client.State P) : Prop where
  api : ∃ q, s.api = some ⟨[], q⟩
  queue : s.queue = []
  msgs : ∃ id, s.msgs = some ⟨⟨[], []⟩, .idle, id⟩
  auths : s.auths = []
  authQueue : s.authQueue = []
  calls : s.calls = []

/-- Client and server have made their handshake, and nothing is under way between them. -/
structure Established (n : Net P) (u : Uuid) : Prop where
  running : n.exit = .running
  conn : ∃ c, n.find u = some ⟨c, [], []⟩ ∧ Resting c
  server : ∃ c, n.server.find u = some c ∧ c.reader = ⟨[], []⟩ ∧ c.confirmed = true ∧ c.discredited = false ∧
    c.hashAccepted = true ∧ c.key.isSome = true

/-- User code of the server assigned the client, or the server does not insist on it. -/
def Admitted (w : Setup P) (n : Net P) (u : Uuid) : Prop :=
  Server.Strict w.opts.identification → ∃ c, n.server.find u = some c ∧ c.assigned.isSome = true

/-- The messages of the protocol in a list that are for `u`. -/
def messagesFor (u : Uuid) : List (Uuid × Server.Out P) → List (Flow.Ref × P)
  | [] => []
  | (v, .msg ref x) :: l => if v = u then (ref, x) :: messagesFor u l else messagesFor u l
  | _ :: l => messagesFor u l

/-- Nothing but regular progress of the connection of `u`: bytes arrive, tasks go on, messages are taken
by the transport, the server confirms connections. No faults, no timeouts, nobody gives up. -/
inductive Regular (u : Uuid) : Event P → Prop where
  | opened : Regular u (.opened u)
  | toServer (k : Nat) : Regular u (.toServer u k)
  | toClient (k : Nat) : Regular u (.toClient u k)
  | confirm : Regular u (.server .confirm)
  | call (job : Client.Job) (body : P) : Regular u (.client u (.call job body))
  | proceed (k : Nat) : Regular u (.client u (.proceed k))
  | api : Regular u (.client u (.api true))
  | work : Regular u (.client u .work)
  | authMessage : Regular u (.client u .authMessage)
  | auth (k : Nat) : Regular u (.client u (.auth k))

/-- The calls of user code of client `u` in a run. -/
def callsOf (u : Uuid) : List (UInt64 × Event P) → List (Client.Job × P)
  | [] => []
  | (_, .client v (.call job body)) :: es => if v = u then (job, body) :: callsOf u es else callsOf u es
  | _ :: es => callsOf u es

/-- A part of a run in which the connection of `u` makes regular progress, and user code of the client
makes exactly these calls. -/
structure Progress (u : Uuid) (calls : List (Client.Job × P)) (es : List (UInt64 × Event P)) : Prop where
  regular : ∀ e ∈ es, Regular u e.2
  calls : callsOf u es = calls

/-- From `n` to `n'`, user code of client `u` made this call, and it returned this. -/
def Returned (n n' : Net P) (u : Uuid) (job : Client.Job) (body : P) (res : Client.Result P) : Prop :=
  ∃ c c' newer k, n.find u = some c ∧ n'.find u = some c' ∧ c'.client.past = newer ++ c.client.past ∧
    .called k job body ∈ newer ∧ .ended k res ∈ newer

/-- From `n` to `n'`, exactly these broadcasts were handed to user code of client `u`, in this order. -/
def Received (n n' : Net P) (u : Uuid) (l : List (Flow.Ref × P)) : Prop :=
  ∃ c c' newer, n.find u = some c ∧ n'.find u = some c' ∧ c'.client.past = newer ++ c.client.past ∧ casts newer = l

/-- A call that the server knows: its request or beacon is declared, and no other one has its name. The server
gets the message as it is, user code decides on it, and the client gets the answer and broadcasts as they
are. -/
inductive Servable (w : Setup P) (name : Uuid → List Char) (hashes : List Char × List Char) (u : Uuid) : Client.Job → P → Prop where
  | request {req : Flow.Request} {ref : Flow.Ref} {body : P} : req ∈ w.server.workflow.requests → req.request = some ref →
      (∀ r ∈ w.server.workflow.requests, r.request = some ref → r = req) → (∀ id, HeardRight w hashes (.msg id ref body)) →
      (∀ s, ∃ o l, Server.Decides w.env req s u body o l) →
      (∀ s o l, Server.Decides w.env req s u body o l → ReadRight w name o ∧ ∀ x ∈ l, x.1 = u → ReadRight w name x.2) →
      Servable w name hashes u (.request req) body
  | beacon {b : Flow.Broadcast} {body : P} : b ∈ w.server.workflow.beacons →
      (∀ r ∈ w.server.workflow.requests, r.request ≠ some b.reference) → (∀ id, HeardRight w hashes (.msg id b.reference body)) →
      (∀ s, w.env.beacon s b.reference u body = .ok ()) → ReadRight w name .beacon →
      Servable w name hashes u (.beacon b.reference) body

/-- The result of a call is what user code of the server decided on: after the server's history `past` it looked at
this message, and its answer is reported to user code of the client. A beacon is confirmed. -/
inductive Right (w : Setup P) (u : Uuid) (past : List (Server.Act P)) : Client.Job → P → Client.Result P →
    List (Uuid × Server.Out P) → Prop where
  | request {req : Flow.Request} {ref rref : Flow.Ref} {body x : P} {s : Server.State P} {q : UInt32}
      {l : List (Uuid × Server.Out P)} {res : Client.Result P} : req.request = some ref →
      s.past = .respond u ref q :: .got u (.msg ref body) q :: .chunk u :: past →
      Server.Decides w.env req s u body (.msg rref x) l → Client.Reports (.request req) (.msg rref x) res →
      Right w u past (.request req) body res l
  | beacon {ref : Flow.Ref} {body : P} : Right w u past (.beacon ref) body .confirmed []

/-- From `n` to `n'`, these calls of client `u` returned one after another, each with a result that is right in
the moment it was made. -/
inductive AllReturned (u : Uuid) (right : Net P → Client.Job → P → Client.Result P → Prop) :
    List (Client.Job × P) → Net P → Net P → Prop where
  | nil {n : Net P} : AllReturned u right [] n n
  | cons {job : Client.Job} {body : P} {calls : List (Client.Job × P)} {n n1 n' : Net P} {res : Client.Result P} :
      Returned n n1 u job body res → right n job body res → AllReturned u right calls n1 n' →
      AllReturned u right ((job, body) :: calls) n n'

/-- The result of a request tells what user code of the server decided on when it looked at the message, after
the server's history `past`. A beacon is confirmed. -/
inductive Told (env : Server.Env P) (u : Uuid) (past : List (Server.Act P)) : Client.Job → P → Client.Result P → Prop where
  | concluded {req : Flow.Request} {ref rref : Flow.Ref} {e : Option Flow.Ref} {body x : P} {s : Server.State P} {q : UInt32} :
      req.request = some ref → s.past = .respond u ref q :: .got u (.msg ref body) q :: .chunk u :: past →
      Concludes env req s u body e x → (∃ a ∈ req.actions, a.conclusion = e ∧ a.response = some rref) →
      Told env u past (.request req) body (.conclusion e rref x)
  | erred {req : Flow.Request} {ref rref : Flow.Ref} {body x : P} {s : Server.State P} {q : UInt32} :
      req.request = some ref → s.past = .respond u ref q :: .got u (.msg ref body) q :: .chunk u :: past →
      Errs env req s u body x → req.error = some rref → Told env u past (.request req) body (.error rref x)
  | confirmed {ref : Flow.Ref} {body : P} : Told env u past (.beacon ref) body .confirmed

end Verif.System
