import Verif.Spec.NetworkTsTs
set_option autoImplicit false
/-!
Vocabulary for statements about moments in which nothing is under way between a TypeScript client and a
TypeScript server.
-/
namespace Verif.Network

open Verif Verif.Spec

section
variable {cfg : TsServer.Cfg} {env : TsServer.Env} {opts : Server.Options}
  {takes : List TsServer.Act → Uuid → UInt32 → TsServer.Out → Bool}
  {down : UInt64 → UInt32 → TsServer.Out → Bytes} {ccfg : TsClient.Cfg} {cenv : TsClient.Env}
  {up : UInt64 → UInt32 → TsClient.Out → Bytes}

/-- Nothing is under way between the client of `u` and the server: all bytes arrived, both sides looked at
all messages they have got out of them, and no job of the client waits. The server still has the client, and
takes messages of it. -/
structure TsQuiet (n : Net (tsServer cfg env opts takes down) (tsClient ccfg cenv up)) (u : Uuid) (c : Conn (tsClient ccfg cenv up)) :
    Prop where
  conn : n.find u = some c
  up : c.up = []
  down : c.down = []
  running : n.server.1 = false
  kept : ∃ d, n.server.2.find u = some d ∧ d.discredited = false ∧ d.reader.queue = []
  awake : c.client.1 = false
  read : c.client.2.reader.queue = []
  done : c.client.2.tasks = []

end

/-- The broadcasts among the messages for a client, in order: those with number 0 in its workflow. -/
inductive CastsOf (w : Flow.Store) : List (UInt32 × TsServer.Out) → List (Flow.Ref × TsServer.Js) → Prop where
  | nil : CastsOf w [] []
  | cast {ref : Flow.Ref} {v : TsServer.Js} {l : List (UInt32 × TsServer.Out)} {h : List (Flow.Ref × TsServer.Js)} :
      TsClient.Broadcasts w ref → CastsOf w l h → CastsOf w ((0, .msg ref v) :: l) ((ref, v) :: h)
  | other {q : UInt32} {o : TsServer.Out} {l : List (UInt32 × TsServer.Out)} {h : List (Flow.Ref × TsServer.Js)} :
      (q = 0 → ∀ ref v, o = .msg ref v → ¬ TsClient.Broadcasts w ref) → CastsOf w l h → CastsOf w ((q, o) :: l) h

/-- The server expects messages of this type: it is the one of a request or a beacon of its workflow, neither
the self key nor in the service group, and the self key is no part of it. -/
structure TsExpected (cfg : TsServer.Cfg) (ref : Flow.Ref) : Prop where
  declared : (∃ r ∈ cfg.workflow.requests, r.request = some ref) ∨ ∃ b ∈ cfg.workflow.beacons, b.reference = ref
  own : Apart ref cfg.selfKey ∧ ref ≠ cfg.selfKey
  foreign : Foreign ref

/-- The server called a handler for the message of `u` with number `q`: `a` is this call. -/
def TsHandler (cfg : TsServer.Cfg) (u : Uuid) (q : UInt32) (m : TsServer.Msg) (a : TsServer.Act) : Prop :=
  ∃ task ref b, TsServer.Found m ref b ∧
    ((a = .respond task u ref b q ∧ ∃ r ∈ cfg.workflow.requests, r.request = some ref) ∨
      (a = .beacon task u ref b q ∧ ∃ x ∈ cfg.workflow.beacons, x.reference = ref))

end Verif.Network
