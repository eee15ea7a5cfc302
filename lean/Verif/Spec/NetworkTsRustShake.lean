import Verif.Spec.NetworkTsRustQuiet
set_option autoImplicit false
/-!
Vocabulary for statements about handshakes of a TypeScript client with a Rust server.
-/
namespace Verif.Network

open Verif Verif.Spec

variable {P : Type}

/-- What both sides of the connection of `u` have to be able to do for the handshake: pack the messages of it
and pass them to their transports. The id of the connection is not blank. -/
structure RustShakes (cfg : Server.Cfg P) (env : Server.Env P) (ccfg : TsClient.Cfg) (cenv : TsClient.Env) (t : Terms P) (u : Uuid) :
    Prop where
  name : ∃ x ∈ t.name u, TsClient.jsSpace x = false
  packs : cfg.packs (.selfKey u) = true ∧ ∀ e, cfg.packs (.hash e) = true
  takes : ∀ s q, env.send s u q (.selfKey u) = true ∧ ∀ e, env.send s u q (.hash e) = true
  asks : ccfg.packs .selfKey = true ∧ ccfg.packs .hash = true
  sends : ∀ s out, cenv.sends s out = true

/-- The client was connected once, and its numbers are not used up. -/
structure JoinedOnce (s : TsClient.State) : Prop where
  once : TsClient.times TsClient.Act.isOpened s.past = 1
  numbers : s.sequence ≤ 4294967296

end Verif.Network
