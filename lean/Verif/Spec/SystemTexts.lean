import Verif.Model.SystemCodec
import Verif.Model.RustRender
import Verif.Spec.WorkflowSyntax
import Verif.Spec.Server
set_option autoImplicit false
/-!
Vocabulary for the way from the texts of a protocol and a workflow to programs that talk to each other.
-/
namespace Verif.System

open Verif

/-- `t` is the struct `n` of the group `InternalServiceGroup` of the root. -/
def Service (pr : Prot.Store) (n : List Char) (t : Prot.Struct) : Prop :=
  t ∈ pr.structs ∧ t.path = ["InternalServiceGroup".toList] ∧ t.name = n

/-- The id of the field `f` of `t`. -/
def FieldId (t : Prot.Struct) (f : List Char) (id : UInt16) : Prop :=
  ∃ x ∈ t.fields, x.name = f ∧ id = UInt16.ofNat x.id

/-- `cd` is what generated code makes of the protocol: the messages of the declarations, and the ids of
the structs and fields that the code of client and server names. -/
structure CodecOf (pr : Prot.Store) (signature : UInt16) (cd : Codec) : Prop where
  protocol : pr.rustProtocol signature = some cd.protocol
  names : cd.names = pr.structs.map (fun t => (UInt32.ofNat t.id, Flow.Syntax.dotted (t.path ++ [t.name]))) ++
    pr.enums.map (fun t => (UInt32.ofNat t.id, Flow.Syntax.dotted (t.path ++ [t.name])))
  confirmation : ∃ t, Service pr "ConnectConfirmationBeacon".toList t ∧ cd.confirmation = UInt32.ofNat t.id
  selfKeyResponse : ∃ t, Service pr "SelfKeyResponse".toList t ∧ cd.selfKeyResponse.1 = UInt32.ofNat t.id ∧
    FieldId t "uuid".toList cd.selfKeyResponse.2
  hashRequest : ∃ t, Service pr "HashRequest".toList t ∧ cd.hashRequest.1 = UInt32.ofNat t.id ∧
    FieldId t "protocol".toList cd.hashRequest.2.1 ∧ FieldId t "workflow".toList cd.hashRequest.2.2
  hashResponse : ∃ t, Service pr "HashResponse".toList t ∧ cd.hashResponse.1 = UInt32.ofNat t.id ∧
    FieldId t "error".toList cd.hashResponse.2
  beaconConfirmation : ∃ t, Service pr "BeaconConfirmation".toList t ∧ cd.beaconConfirmation.1 = UInt32.ofNat t.id ∧
    FieldId t "error".toList cd.beaconConfirmation.2

/-- The texts of service messages are shorter than 2^60 bytes. -/
structure Short (cd : Codec) : Prop where
  protocol : (utf8 cd.hashes.1).length < 2 ^ 60
  workflow : (utf8 cd.hashes.2).length < 2 ^ 60
  uuid : ∀ u, (utf8 (cd.uuid u)).length < 2 ^ 60
  key : ∀ b, cd.protocol.pack cd.key 0 0 = .ok b → b.length < 2 ^ 64

/-- Nothing of the protocol lies in a group `InternalServiceGroup` of the root. -/
def NoServices (pr : Prot.Store) : Prop :=
  (∀ t ∈ pr.structs, t.path ≠ ["InternalServiceGroup".toList]) ∧
  (∀ t ∈ pr.enums, t.path ≠ ["InternalServiceGroup".toList])

/-- User code of the server answers `body` with the conclusion `e` and the response `x`. -/
inductive Concludes {P : Type} (env : Server.Env P) (r : Flow.Request) (s : Server.State P) (u : Uuid) (body : P) :
    Option Flow.Ref → P → Prop where
  | one {a : Flow.Action} {x : P} : r.actions = [a] → env.reply s r u body = some (.response x) →
      Concludes env r s u body a.conclusion x
  | many {i : Fin r.actions.length} {x : P} {casts : Server.Casts P (r.actions.get i).broadcast} :
      2 ≤ r.actions.length → env.conclude s r u body = some (.action i x casts) →
      Concludes env r s u body (r.actions.get i).conclusion x

/-- User code of the server answers `body` with the error `x`. -/
inductive Errs {P : Type} (env : Server.Env P) (r : Flow.Request) (s : Server.State P) (u : Uuid) (body : P) : P → Prop where
  | few {x : P} : r.actions.length ≤ 1 → env.reply s r u body = some (.error x) → Errs env r s u body x
  | many {x : P} : 2 ≤ r.actions.length → env.conclude s r u body = some (.error x) → Errs env r s u body x

/-- The response tells the action: actions with the same response have the same conclusion, and the error
of the request is no response of it. -/
def Unambiguous (r : Flow.Request) : Prop :=
  (∀ a ∈ r.actions, ∀ b ∈ r.actions, a.response = b.response → a.conclusion = b.conclusion) ∧
  ∀ a ∈ r.actions, a.response ≠ r.error

end Verif.System
