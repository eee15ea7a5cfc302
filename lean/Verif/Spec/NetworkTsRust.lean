import Verif.Spec.Network
set_option autoImplicit false
/-!
Vocabulary for statements about TypeScript clients of a Rust server.
-/
namespace Verif.Network

open Verif Verif.Spec

variable {P : Type}

/-- What both sides have to agree on: which values of the server and of the client are the same, and how
an id is written. `hashes` are those of protocol and workflow of the client. -/
structure Terms (P : Type) where
  same : P → TsServer.Js → Prop
  name : Uuid → List Char
  hashes : List Char × List Char

/-- The message has the type of the service group. -/
def IsService (m : TsServer.Msg) (name : String) : Prop :=
  m.path = ["InternalServiceGroup".toList, name.toList]

/-- The message `m` the server looks at is what the client sent. -/
def SameUp (t : Terms P) (cfg : Server.Cfg P) (o : TsClient.Out) (m : Server.In P) : Prop :=
  match o with
  | .selfKey => ∃ k, m = .msg cfg.selfKey k
  | .hash => m = .hash t.hashes.1 t.hashes.2
  | .msg ref body => ∃ p, m = .msg ref p ∧ t.same p body

/-- The message `m` the client looks at is what the server sent. Absent fields are `undefined`. -/
def SameDown (t : Terms P) (o : Server.Out P) (m : TsServer.Msg) : Prop :=
  match o with
  | .confirmation => IsService m "ConnectConfirmationBeacon" ∧ ∃ ps, m.body = .obj ps
  | .selfKey v => IsService m "SelfKeyResponse" ∧ ∃ ps, m.body = .obj ps ∧ ps.lookup "uuid".toList = some (.str (t.name v))
  | .hash e => IsService m "HashResponse" ∧ ∃ ps, m.body = .obj ps ∧ (e = true ↔ ∃ s, ps.lookup "error".toList = some (.str s)) ∧
      (e = false ↔ ps.lookup "error".toList = none)
  | .beacon => IsService m "BeaconConfirmation" ∧ ∃ ps, m.body = .obj ps ∧ ps.lookup "error".toList = none
  | .msg ref p => TsServer.Spells m.path ref ∧ t.same p m.body

/-- Messages sent so far are decoded to nothing but what they are. -/
structure Faithful (t : Terms P) {cfg : Server.Cfg P} {env : Server.Env P} {opts : Server.Options}
    {down : UInt64 → UInt32 → Server.Out P → Bytes} {ccfg : TsClient.Cfg} {cenv : TsClient.Env}
    {up : UInt64 → UInt32 → TsClient.Out → Bytes}
    (n : Net (rustServer cfg env opts down) (tsClient ccfg cenv up)) : Prop where
  up : ∀ u c, n.find u = some c → ∀ w q o, .sent w q o ∈ c.client.2.past →
    ∀ ts m, System.Decodes cfg.decoder (up ts q.toUInt32 o) m → SameUp t cfg o m
  down : ∀ u q o, .send u q o true ∈ n.server.2.past → ∀ ts m, System.Decodes ccfg.decoder (down ts q o) m →
    SameDown t o m

/-- Messages sent so far are decoded to something. -/
structure Readable {cfg : Server.Cfg P} {env : Server.Env P} {opts : Server.Options}
    {down : UInt64 → UInt32 → Server.Out P → Bytes} {ccfg : TsClient.Cfg} {cenv : TsClient.Env}
    {up : UInt64 → UInt32 → TsClient.Out → Bytes}
    (n : Net (rustServer cfg env opts down) (tsClient ccfg cenv up)) : Prop where
  up : ∀ u c, n.find u = some c → ∀ w q o, .sent w q o ∈ c.client.2.past →
    ∀ ts, ∃ m, System.Decodes cfg.decoder (up ts q.toUInt32 o) m
  down : ∀ u q o, .send u q o true ∈ n.server.2.past → ∀ ts, ∃ m, System.Decodes ccfg.decoder (down ts q o) m

/-- Answers of a request: the responses of its actions, and its error. -/
def AnswerOf (r : Flow.Request) (ref : Flow.Ref) : Prop :=
  (∃ a ∈ r.actions, a.response = some ref) ∨ r.error = some ref

/-- Every answer of the request has a reference. -/
def Complete (r : Flow.Request) : Prop :=
  r.error ≠ none ∧ r.actions ≠ [] ∧ ∀ a ∈ r.actions, a.response ≠ none

/-- The references are names in different groups, or different names: none is inside of the other. -/
def Apart (a b : Flow.Ref) : Prop :=
  ∀ ns ms, TsServer.Spells ns a → TsServer.Spells ms b → ns <+: ms ∨ ms <+: ns → a = b

/-- The reference is not in the service group. -/
def Foreign (ref : Flow.Ref) : Prop := ∀ ns, TsServer.Spells ns ref → ns.head? ≠ some "InternalServiceGroup".toList

/-- No answer of a request of the workflow is in the service group. -/
def Outside (w : Flow.Store) : Prop := ∀ r ∈ w.requests, Complete r ∧ ∀ a, AnswerOf r a → Foreign a

/-- What is needed of the answers of request `r` of the client: they are not in the service group, and
none of them is inside of another answer the server may give. -/
def Distinct (w : Flow.Store) (r : Flow.Request) : Prop :=
  ∀ a, AnswerOf r a → Foreign a ∧ ∀ served ∈ w.requests, Complete served ∧ ∀ a', AnswerOf served a' → Apart a a'

/-- A request of the client was sent; the server looked at it, ran the code of the request, and user code
decided on the answer `v`, which was sent to this client. -/
def Served (t : Terms P) (cfg : Server.Cfg P) (env : Server.Env P) (u : Uuid) (hs : List (Server.Act P)) (hc : List TsClient.Act)
    (k o : Nat) (r : Flow.Request) (b : TsServer.Js) (ref : Flow.Ref) (v : TsServer.Js) : Prop :=
  ∃ q asked p x newer older served s l, r.request.getD [] = asked ∧
    .sent (.call k o) (UInt32.toNat q) (.msg asked b) ∈ hc ∧
    hs = newer ++ .send u q (.msg ref x) true :: .respond u asked q :: .got u (.msg asked p) q :: older ∧
    t.same p b ∧ t.same x v ∧ served ∈ cfg.workflow.requests ∧ served.request = some asked ∧
    s.past = .respond u asked q :: .got u (.msg asked p) q :: older ∧
    Server.Decides env served s u p (.msg ref x) l

/-- The messages a TypeScript client passed to the transport, with their numbers, oldest first. -/
def tsSents : List TsClient.Act → List (Nat × TsClient.Out)
  | [] => []
  | .sent _ q o :: h => tsSents h ++ [(q, o)]
  | _ :: h => tsSents h

/-- The broadcasts a TypeScript client handed to user code, oldest first. -/
def tsCasts : List TsClient.Act → List (Flow.Ref × TsServer.Js)
  | [] => []
  | .emitted (.broadcast ref body) :: h => tsCasts h ++ [(ref, body)]
  | _ :: h => tsCasts h

end Verif.Network
