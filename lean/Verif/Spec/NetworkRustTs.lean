import Verif.Spec.NetworkTsTs
import Verif.Spec.Client
set_option autoImplicit false
/-!
Vocabulary for statements about Rust clients of a TypeScript server.
-/
namespace Verif.Network

open Verif Verif.Spec

variable {P : Type}

/-- The message the Rust client looks at is of the kind the TypeScript server sent. -/
inductive SameKind : TsServer.Out → Client.In P → Prop where
  | selfKey {u : Uuid} {v : List Char} : SameKind (.selfKey u) (.selfKey v)
  | hash {e : Bool} : SameKind (.hash e) (.hash e)
  | beacon : SameKind .beacon (.beacon false)
  | msg {ref : Flow.Ref} {x : TsServer.Js} {body : P} : SameKind (.msg ref x) (.msg ref body)

variable {cfg : TsServer.Cfg} {env : TsServer.Env} {opts : Server.Options}
  {takes : List TsServer.Act → Uuid → UInt32 → TsServer.Out → Bool}
  {down : UInt64 → UInt32 → TsServer.Out → Bytes} {ccfg : Client.Cfg P} {up : UInt64 → UInt32 → Client.Out P → Bytes}

/-- Messages sent so far are decoded to nothing but what they are; and messages of calls are not
the hash request of the service group. -/
structure RustTsFaithful (n : Net (tsServer cfg env opts takes down) (rustClient ccfg up)) : Prop where
  up : ∀ u c, n.find u = some c → ∀ who q v ref body, .sent who q (.msg v ref body) ∈ c.client.past →
    ∀ ts m, System.Decodes cfg.decoder (up ts q (.msg v ref body)) m →
      TsServer.Spells m.path ref ∧ ∀ b, ¬ TsServer.Found m "InternalServiceGroup.HashRequest".toList b
  down : ∀ f u q o, .send f u q o ∈ n.server.2.past → ∀ ts m, System.Decodes ccfg.decoder (down ts q o) m →
    SameKind o m

end Verif.Network
