import Verif.Spec.System
import Verif.Spec.ServerQuiet
set_option autoImplicit false
/-!
Vocabulary for statements about moments in which nothing is under way between a Rust client and a Rust server.
-/
namespace Verif.System

open Verif Verif.Spec

variable {P : Type}

/-- The call waits for somebody else. -/
inductive Waits : Client.Phase P → Prop where
  | sequence : Waits (.sequence .waiting)
  | uuid {q : UInt32} : Waits (.uuid q .waiting)
  | response {q : UInt32} : Waits (.response q .waiting)

/-- The handshake waits for the server. -/
inductive AuthWaits : Client.AuthPhase P → Prop where
  | key : AuthWaits (.key .waiting)
  | hash {u : List Char} : AuthWaits (.hash u .waiting)

/-- Nothing is under way between the client of `u` and the server: all bytes arrived, both tasks of the client
have nothing to do and read the last piece of data without error, and every open call and handshake waits.
The server has the client, and has never asked the transport to drop it. -/
structure Settled (n : Net P) (u : Uuid) (c : Conn P) : Prop where
  conn : n.find u = some c
  up : c.up = []
  down : c.down = []
  running : n.exit = .running
  kept : ∃ d, n.server.find u = some d
  never : .drop u ∉ n.server.past
  api : c.client.api.isSome = true
  queue : c.client.queue = []
  authQueue : c.client.authQueue = []
  msgs : ∃ t, c.client.msgs = some t ∧ t.place = .idle
  read : ¬ Client.Held c.client.past
  waits : ∀ k x, c.client.calls.lookup k = some x → Waits x.phase
  shaken : ∀ k p, c.client.auths.lookup k = some p → AuthWaits p

/-- The broadcasts among the messages for a client, in order: those with number 0 and one of these types. -/
inductive CastsOf (types : List Flow.Ref) : List (UInt32 × Server.Out P) → List (Flow.Ref × P) → Prop where
  | nil : CastsOf types [] []
  | cast {ref : Flow.Ref} {p : P} {l : List (UInt32 × Server.Out P)} {h : List (Flow.Ref × P)} :
      ref ∈ types → CastsOf types l h → CastsOf types ((0, .msg ref p) :: l) ((ref, p) :: h)
  | other {q : UInt32} {o : Server.Out P} {l : List (UInt32 × Server.Out P)} {h : List (Flow.Ref × P)} :
      (q = 0 → ∀ ref p, o = .msg ref p → ref ∉ types) → CastsOf types l h → CastsOf types ((q, o) :: l) h

end Verif.System
