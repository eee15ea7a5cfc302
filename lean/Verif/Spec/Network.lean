import Verif.Model.NetworkPrograms
import Verif.Spec.System
import Verif.Spec.TsClient
set_option autoImplicit false
/-!
Vocabulary for statements about clients and a server of any kind that talk to each other.
-/
namespace Verif.Network

open Verif Verif.Spec

/-- All messages sent so far were packed into frames with their number. (Messages of 2^64 bytes and more
are not.) -/
structure Framed {S : ServerProg} {C : ClientProg} (n : Net S C) : Prop where
  down : ∀ u q o, (u, q, o) ∈ S.sent n.server → ∀ ts, System.IsFrame q (S.pack ts q o)
  up : ∀ u c, n.find u = some c → ∀ q o, (q, o) ∈ C.sent c.client → ∀ ts, System.IsFrame q (C.pack ts q o)

/-- On no connection 2^64 bytes arrived. -/
def Small {S : ServerProg} {C : ClientProg} (n : Net S C) : Prop :=
  ∀ u c, n.find u = some c → c.gotUp.length < 2 ^ 64 ∧ c.gotDown.length < 2 ^ 64

end Verif.Network
