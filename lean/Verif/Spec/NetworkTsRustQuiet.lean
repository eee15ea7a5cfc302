import Verif.Spec.NetworkTsRust
import Verif.Spec.ServerQuiet
set_option autoImplicit false
/-!
Vocabulary for statements about moments in which nothing is under way between a TypeScript client and a
Rust server.
-/
namespace Verif.Network

open Verif Verif.Spec

variable {P : Type} {cfg : Server.Cfg P} {env : Server.Env P} {opts : Server.Options}
  {down : UInt64 → UInt32 → Server.Out P → Bytes} {ccfg : TsClient.Cfg} {cenv : TsClient.Env}
  {up : UInt64 → UInt32 → TsClient.Out → Bytes}

/-- Nothing is under way between the client of `u` and the server: all bytes arrived, the client looked at all
messages it has got out of them, and no job of the client waits. The server has the client, and has never
asked the transport to drop it. -/
structure RustQuiet (n : Net (rustServer cfg env opts down) (tsClient ccfg cenv up)) (u : Uuid) (c : Conn (tsClient ccfg cenv up)) :
    Prop where
  conn : n.find u = some c
  up : c.up = []
  down : c.down = []
  running : n.server.1 = .running
  kept : ∃ d, n.server.2.find u = some d
  never : .drop u ∉ n.server.2.past
  awake : c.client.1 = false
  read : c.client.2.reader.queue = []
  done : c.client.2.tasks = []

/-- The broadcasts among the messages for a client, in order, as values of the client: those with number 0 in
its workflow. -/
inductive RustCastsOf (t : Terms P) (w : Flow.Store) : List (UInt32 × Server.Out P) → List (Flow.Ref × TsServer.Js) → Prop where
  | nil : RustCastsOf t w [] []
  | cast {ref : Flow.Ref} {p : P} {v : TsServer.Js} {l : List (UInt32 × Server.Out P)} {h : List (Flow.Ref × TsServer.Js)} :
      TsClient.Broadcasts w ref → t.same p v → RustCastsOf t w l h → RustCastsOf t w ((0, .msg ref p) :: l) ((ref, v) :: h)
  | other {q : UInt32} {o : Server.Out P} {l : List (UInt32 × Server.Out P)} {h : List (Flow.Ref × TsServer.Js)} :
      (q = 0 → ∀ ref p, o = .msg ref p → ¬ TsClient.Broadcasts w ref) → RustCastsOf t w l h → RustCastsOf t w ((q, o) :: l) h

end Verif.Network
