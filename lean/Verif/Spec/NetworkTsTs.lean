import Verif.Spec.NetworkTsRust
import Verif.Spec.TsServer
set_option autoImplicit false
/-!
Vocabulary for statements about TypeScript clients of a TypeScript server.
-/
namespace Verif.Network

open Verif Verif.Spec

/-- How an id is written, and the hashes of protocol and workflow of the client. -/
structure TsTerms where
  name : Uuid → List Char
  hashes : List Char × List Char

/-- The message `m` the server looks at is what the client sent. -/
def TsSameUp (t : TsTerms) (cfg : TsServer.Cfg) (o : TsClient.Out) (m : TsServer.Msg) : Prop :=
  match o with
  | .selfKey => TsServer.Spells m.path cfg.selfKey
  | .hash => IsService m "HashRequest" ∧ ∃ ps, m.body = .obj ps ∧
      ps.lookup "protocol".toList = some (.str t.hashes.1) ∧ ps.lookup "workflow".toList = some (.str t.hashes.2)
  | .msg ref body => TsServer.Spells m.path ref ∧ m.body = body

/-- The message `m` the client looks at is what the server sent. Absent fields are `undefined`. -/
def TsSameDown (t : TsTerms) (o : TsServer.Out) (m : TsServer.Msg) : Prop :=
  match o with
  | .selfKey v => IsService m "SelfKeyResponse" ∧ ∃ ps, m.body = .obj ps ∧ ps.lookup "uuid".toList = some (.str (t.name v))
  | .hash e => IsService m "HashResponse" ∧ ∃ ps, m.body = .obj ps ∧ (e = true ↔ ∃ s, ps.lookup "error".toList = some (.str s)) ∧
      (e = false ↔ ps.lookup "error".toList = none)
  | .beacon => IsService m "BeaconConfirmation" ∧ ∃ ps, m.body = .obj ps ∧ ps.lookup "error".toList = none
  | .msg ref body => TsServer.Spells m.path ref ∧ m.body = body

section
variable {cfg : TsServer.Cfg} {env : TsServer.Env} {opts : Server.Options}
  {takes : List TsServer.Act → Uuid → UInt32 → TsServer.Out → Bool}
  {down : UInt64 → UInt32 → TsServer.Out → Bytes} {ccfg : TsClient.Cfg} {cenv : TsClient.Env}
  {up : UInt64 → UInt32 → TsClient.Out → Bytes}

/-- Messages sent so far are decoded to nothing but what they are. -/
structure TsFaithful (t : TsTerms) (n : Net (tsServer cfg env opts takes down) (tsClient ccfg cenv up)) : Prop where
  up : ∀ u c, n.find u = some c → ∀ w q o, .sent w q o ∈ c.client.2.past →
    ∀ ts m, System.Decodes cfg.decoder (up ts q.toUInt32 o) m → TsSameUp t cfg o m
  down : ∀ f u q o, .send f u q o ∈ n.server.2.past → ∀ ts m, System.Decodes ccfg.decoder (down ts q o) m →
    TsSameDown t o m

/-- Messages sent so far are decoded to something. -/
structure TsReadable (n : Net (tsServer cfg env opts takes down) (tsClient ccfg cenv up)) : Prop where
  up : ∀ u c, n.find u = some c → ∀ w q o, .sent w q o ∈ c.client.2.past →
    ∀ ts, ∃ m, System.Decodes cfg.decoder (up ts q.toUInt32 o) m
  down : ∀ f u q o, .send f u q o ∈ n.server.2.past → ∀ ts, ∃ m, System.Decodes ccfg.decoder (down ts q o) m

end

/-- The messages of `u` the server looked at, with their numbers, oldest first. -/
def tsHeard (u : Uuid) : List TsServer.Act → List (UInt32 × TsServer.Msg)
  | [] => []
  | .got v m q :: h => tsHeard u h ++ (if v = u then [(q, m)] else [])
  | _ :: h => tsHeard u h

/-- The messages for `u` the transport took, with their numbers, oldest first. -/
def tsPosted (takes : List TsServer.Act → Uuid → UInt32 → TsServer.Out → Bool) (u : Uuid) :
    List TsServer.Act → List (UInt32 × TsServer.Out)
  | [] => []
  | .send _ v q o :: h => tsPosted takes u h ++ (if v = u ∧ takes h v q o = true then [(q, o)] else [])
  | _ :: h => tsPosted takes u h

/-- What is needed of request `r` of the client: its answers are not in the service group, and none of
them is inside of another answer the server may give; and no other request of the server is inside of it,
or it inside of another one. -/
structure Clear (w : Flow.Store) (r : Flow.Request) : Prop where
  answers : ∀ a, AnswerOf r a → Foreign a ∧ ∀ served ∈ w.requests, ∀ a', AnswerOf served a' → Apart a a'
  requests : ∀ served ∈ w.requests, ∀ ref, served.request = some ref → Apart (r.request.getD []) ref

/-- A request of the client was sent; the server looked at it and ran the code of the request for this
client, handler number `task`; later user code decided on the answer `v`, which was sent to this client.
`es` is what happened. -/
def TsServed {cfg : TsServer.Cfg} {env : TsServer.Env} {opts : Server.Options}
    {takes : List TsServer.Act → Uuid → UInt32 → TsServer.Out → Bool}
    {down : UInt64 → UInt32 → TsServer.Out → Bytes} {C : ClientProg}
    (es : List (UInt64 × Event (tsServer cfg env opts takes down) C)) (u : Uuid) (hs : List TsServer.Act) (hc : List TsClient.Act)
    (k o : Nat) (r : Flow.Request) (b : TsServer.Js) (ref : Flow.Ref) (v : TsServer.Js) : Prop :=
  ∃ q x task newer mid older served ts calls, .sent (.call k o) (UInt32.toNat q) (.msg (r.request.getD []) b) ∈ hc ∧
    hs = newer ++ .send (.answer task) u q (.msg ref v) :: (mid ++
      .respond task u (r.request.getD []) b q :: .got u x q :: older) ∧
    TsServer.IsA x (r.request.getD []) ∧ x.body = b ∧
    served ∈ cfg.workflow.requests ∧ served.request = some (r.request.getD []) ∧ AnswerOf served ref ∧
    (ts, .server (.settled task (.answer ref v calls))) ∈ es

/-- No answer of a request of the workflow is in the service group. -/
def TsOutside (w : Flow.Store) : Prop := ∀ r ∈ w.requests, ∀ a, AnswerOf r a → Foreign a

end Verif.Network
