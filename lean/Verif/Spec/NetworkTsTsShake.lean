import Verif.Spec.NetworkTsTsQuiet
set_option autoImplicit false
/-!
Vocabulary for statements about handshakes of a TypeScript client with a TypeScript server.
-/
namespace Verif.Network

open Verif Verif.Spec

/-- What both sides of the connection of `u` have to be able to do for the handshake: pack the messages of it
and pass them to their transports. The self key is not in the service group, and the id of the connection is
not blank. -/
structure TsShakes (cfg : TsServer.Cfg) (takes : List TsServer.Act → Uuid → UInt32 → TsServer.Out → Bool) (ccfg : TsClient.Cfg)
    (cenv : TsClient.Env) (t : TsTerms) (u : Uuid) : Prop where
  own : Foreign cfg.selfKey
  name : ∃ x ∈ t.name u, TsClient.jsSpace x = false
  packs : cfg.packs (.selfKey u) = true ∧ ∀ e, cfg.packs (.hash e) = true
  takes : ∀ h q, takes h u q (.selfKey u) = true ∧ ∀ e, takes h u q (.hash e) = true
  asks : ccfg.packs .selfKey = true ∧ ccfg.packs .hash = true
  sends : ∀ s out, cenv.sends s out = true

/-- The client was connected once, and its numbers are not used up. What its user code sent is not in the
service group. -/
structure TsOnce (s : TsClient.State) : Prop where
  once : TsClient.times TsClient.Act.isOpened s.past = 1
  numbers : s.sequence ≤ 4294967296
  messages : ∀ w q ref b, .sent w q (.msg ref b) ∈ s.past → Foreign ref

/-- The self keys of `u` the server looked at are objects. -/
def TsKeys (cfg : TsServer.Cfg) (u : Uuid) (h : List TsServer.Act) : Prop :=
  ∀ x q, .got u x q ∈ h → TsServer.IsA x cfg.selfKey → ∃ ps, x.body = .obj ps

end Verif.Network
