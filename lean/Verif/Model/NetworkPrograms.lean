import Verif.Model.Network
import Verif.Model.System
import Verif.Model.TsClient
set_option autoImplicit false
/-!
The generated programs as servers and clients of `Model.Network`. They are those of
`Model.RustProducer`, `Model.RustClient`, `Model.TsServer` and `Model.TsClient`; what is sent is read
off their histories.
-/
namespace Verif.Network

open Verif

/-! ### The Rust server -/

section
variable {P : Type}

/-- The events of the loop, `cli/src/workflow/render/producer/rust/render_mod.rs` L684-832. Events of
connections come from the transport only. -/
def rustInput : ServerEvent (Server.Input P) → Option (Server.Input P)
  | .opened u => some (.connected u)
  | .closed u => some (.disconnected u)
  | .data u b => some (.received u b)
  | .own i => if System.ownServer i then some i else none

/-- The messages the transport took (`control.send` returned no error, L210-235), oldest first. -/
def rustSent : List (Server.Act P) → List (Uuid × UInt32 × Server.Out P)
  | [] => []
  | .send u q o true :: h => rustSent h ++ [(u, q, o)]
  | _ :: h => rustSent h

/-- The Rust server: how its loop ended if it did, and its state. -/
abbrev rustServer (cfg : Server.Cfg P) (env : Server.Env P) (opts : Server.Options)
    (pack : UInt64 → UInt32 → Server.Out P → Bytes) : ServerProg where
  State := Server.Exit × Server.State P
  Own := Server.Input P
  Out := Server.Out P
  new := (.running, .new)
  step e s :=
    match rustInput e, s.1 with
    | some i, .running => Server.listen cfg env opts [i] s.2
    | _, _ => s
  sent s := rustSent s.2.past
  pack := pack

end

/-! ### The TypeScript client -/

/-- The messages passed to the transport, `cli/src/workflow/render/consumer/typescript/render_consumer.rs`
L152-166, oldest first. Numbers have 32 bits, see `TsClient.request`. -/
def tsSent : List TsClient.Act → List (UInt32 × TsClient.Out)
  | [] => []
  | .sent _ q o :: h => tsSent h ++ [(q.toUInt32, o)]
  | _ :: h => tsSent h

/-- Inputs that are no data. -/
def tsOwn : TsClient.Input → Bool
  | .received _ => false
  | _ => true

/-- The TypeScript client: whether it hangs, and its state. That the connection is there is an input of
its own, L217-230. -/
abbrev tsClient (cfg : TsClient.Cfg) (env : TsClient.Env) (pack : UInt64 → UInt32 → TsClient.Out → Bytes) : ClientProg where
  State := Bool × TsClient.State
  Own := TsClient.Input
  Out := TsClient.Out
  new := (false, .new)
  waits s := !s.1
  step e s :=
    match e, s.1 with
    | .data b, false => TsClient.run cfg env [.received b] s.2
    | .own i, false => if tsOwn i then TsClient.run cfg env [i] s.2 else s
    | _, true => s
  sent s := tsSent s.2.past
  pack := pack

/-! ### The TypeScript server -/

/-- The events of the transport, `cli/src/workflow/render/producer/typescript/render_mod.rs` L138-216. -/
def tsInput : ServerEvent TsServer.Input → Option TsServer.Input
  | .opened u => some (.connected u)
  | .closed u => some (.disconnected u)
  | .data u b => some (.received u b)
  | .own (.connected _) => none
  | .own (.disconnected _) => none
  | .own (.received _ _) => none
  | .own i => some i

/-- The messages passed to the transport (L113-131) that it took, oldest first. -/
def tsServerSent (takes : List TsServer.Act → Uuid → UInt32 → TsServer.Out → Bool) :
    List TsServer.Act → List (Uuid × UInt32 × TsServer.Out)
  | [] => []
  | .send _ u q o :: h => tsServerSent takes h ++ (if takes h u q o then [(u, q, o)] else [])
  | _ :: h => tsServerSent takes h

/-- The TypeScript server: whether it hangs, and its state. `takes` says which messages the transport
takes. -/
abbrev tsServer (cfg : TsServer.Cfg) (env : TsServer.Env) (opts : Server.Options)
    (takes : List TsServer.Act → Uuid → UInt32 → TsServer.Out → Bool)
    (pack : UInt64 → UInt32 → TsServer.Out → Bytes) : ServerProg where
  State := Bool × TsServer.State
  Own := TsServer.Input
  Out := TsServer.Out
  new := (false, .new)
  step e s :=
    match tsInput e, s.1 with
    | some i, false => TsServer.run cfg env opts [i] s.2
    | _, _ => s
  sent s := tsServerSent takes s.2.past
  pack := pack

/-! ### The Rust client -/

section
variable {P : Type}

/-- The messages passed to the transport, `cli/src/workflow/render/consumer/rust/render_consumer.rs`
L440-443, oldest first. -/
def rustClientSent : List (Client.Act P) → List (UInt32 × Client.Out P)
  | [] => []
  | .sent _ q o :: h => rustClientSent h ++ [(q, o)]
  | _ :: h => rustClientSent h

/-- The Rust client. -/
abbrev rustClient (cfg : Client.Cfg P) (pack : UInt64 → UInt32 → Client.Out P → Bytes) : ClientProg where
  State := Client.State P
  Own := Client.Input P
  Out := Client.Out P
  new := .new
  waits := System.waits
  step e s :=
    match e with
    | .data b => Client.step cfg s (.received b)
    | .own i => if System.ownClient i then Client.step cfg s i else s
  sent s := rustClientSent s.past
  pack := pack

end

end Verif.Network
