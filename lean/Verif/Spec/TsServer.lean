import Verif.Model.TsServer
set_option autoImplicit false
/-!
Vocabulary for statements about what a TypeScript server did. A history is a list of acts, newest
first. Only the types of the model are used.
-/
namespace Verif.TsServer

open Verif

/-- What happened since client `u` was connected the last time. -/
def since (u : Uuid) : List Act → List Act
  | [] => []
  | .opened v :: h => if v = u then [] else .opened v :: since u h
  | a :: h => a :: since u h

/-- `u` is connected: it was connected and not disconnected since then. -/
def Online (u : Uuid) (h : List Act) : Prop := .opened u ∈ h ∧ .closed u ∉ since u h

/-- The server asked the transport to drop the present connection of `u`. -/
def Kicked (u : Uuid) (h : List Act) : Prop := .drop u ∈ since u h

/-- Following the names leads from one object to another, only through objects. -/
inductive Leads : Js → List Name → Js → Prop where
  | here {ps : List (Name × Js)} : Leads (.obj ps) [] (.obj ps)
  | step {ps : List (Name × Js)} {n : Name} {ns : List Name} {v t : Js} :
      ps.lookup n = some v → Leads v ns t → Leads (.obj ps) (n :: ns) t

/-- An object with one object inside per group, and the body inside. -/
inductive Wraps : List Name → Js → Js → Prop where
  | body {b : Js} : Wraps [] b b
  | inside {n : Name} {ns : List Name} {b w : Js} : Wraps ns b w → Wraps (n :: ns) b (.obj [(n, w)])

/-- The names of a reference, between the dots. -/
def Spells : List Name → Ref → Prop
  | [], _ => False
  | [n], r => '.' ∉ n ∧ r = n
  | n :: ns, r => '.' ∉ n ∧ ∃ r', Spells ns r' ∧ r = n ++ '.' :: r'

/-- The server finds `b` in the message under the reference. -/
def Found (m : Msg) (ref : Ref) (b : Js) : Prop :=
  ∃ ns w, Spells ns ref ∧ Wraps m.path m.body w ∧ Leads w ns b

/-- The message has exactly the type of the reference. -/
def IsA (m : Msg) (ref : Ref) : Prop := Spells m.path ref

/-- `u` sent the right hashes on its present connection. -/
def HashShown (cfg : Cfg) (u : Uuid) (h : List Act) : Prop :=
  ∃ m seq ps, .got u m seq ∈ since u h ∧ Found m "InternalServiceGroup.HashRequest".toList (.obj ps) ∧
    ps.lookup "protocol".toList = some (.str cfg.protocolHash) ∧
    ps.lookup "workflow".toList = some (.str cfg.workflowHash)

/-- `u` sent a self key on its present connection, or user code set it. -/
def KeyGiven (cfg : Cfg) (u : Uuid) (h : List Act) : Prop :=
  (∃ m seq k, .got u m seq ∈ since u h ∧ Found m cfg.selfKey k) ∨ .keyChange u ∈ since u h

/-- The handshake of the present connection of `u`, without assignment of a key. -/
structure Handshake (cfg : Cfg) (u : Uuid) (h : List Act) : Prop where
  online : Online u h
  hash : HashShown cfg u h
  key : KeyGiven cfg u h

/-- User code had not declared `u` discredited when the piece of data arrived that is processed now. -/
def Trusted (u : Uuid) (h : List Act) : Prop :=
  ∃ newer older, h = newer ++ .chunk u :: older ∧ .chunk u ∉ newer ∧ .opened u ∉ newer ∧
    .discredited u ∉ since u older

/-- The number of the handler an act belongs to. -/
def taskOf : Act → Option Nat
  | .respond t .. => some t
  | .beacon t .. => some t
  | .event t _ => some t
  | .send (.answer t) .. => some t
  | .send (.cast t) .. => some t
  | .deferred t => some t
  | _ => none

/-- The message looked at last. -/
def lastGot : List Act → Option (Uuid × Msg × UInt32)
  | [] => none
  | .got u m seq :: _ => some (u, m, seq)
  | _ :: h => lastGot h

/-- Handler `t` was started for a message of `u` with sequence `seq`; if it answers with `o`, this is
a message declared for that: a response or the error of the request, or the confirmation of a
beacon. -/
def Started (cfg : Cfg) (t : Nat) (u : Uuid) (seq : UInt32) (o : Out) (h : List Act) : Prop :=
  (∃ r ref b resp x, r ∈ cfg.workflow.requests ∧ r.request = some ref ∧ .respond t u ref b seq ∈ h ∧
    o = .msg resp x ∧ (r.error = some resp ∨ ∃ a ∈ r.actions, a.response = some resp)) ∨
  (∃ ref b, .beacon t u ref b seq ∈ h ∧ o = .beacon)

/-- `o` is what user code decided on when its promise settled with `x`: the response it gave, or the
confirmation of a beacon it took. -/
def Decided (x : Settled) (o : Out) : Prop :=
  (∃ resp body calls, x = .answer resp body calls ∧ o = .msg resp body) ∨ (x = .done ∧ o = .beacon)

/-- User code changed the identification of `v`. -/
def Changes (v : Uuid) (a : Act) : Prop := a = .keyChange v ∨ a = .assignment v ∨ a = .discredited v

/-- Acts that concern client `u` alone; errors can be raised without a client. -/
def Concerns (u : Uuid) : Act → Prop
  | .chunk v => v = u
  | .got v .. => v = u
  | .send .handshake v .. => v = u
  | .drop v => v = u
  | .respond _ v .. => v = u
  | .beacon _ v .. => v = u
  | .error (some v) => v = u
  | .error none => True
  | _ => False

/-- The messages of `u` that were looked at, newest first. -/
def gots (u : Uuid) : List Act → List (Msg × UInt32)
  | [] => []
  | .got v m seq :: h => if v = u then (m, seq) :: gots u h else gots u h
  | _ :: h => gots u h

/-- The message is part of the handshake or of the workflow. -/
def Expected (cfg : Cfg) (m : Msg) : Prop :=
  ∃ ref b, Found m ref b ∧ (ref = cfg.selfKey ∨ ref = "InternalServiceGroup.HashRequest".toList ∨
    (∃ r ∈ cfg.workflow.requests, r.request = some ref) ∨ ∃ x ∈ cfg.workflow.beacons, x.reference = ref)

/-- The response allows the broadcast. -/
def Allows (r : Flow.Request) (resp ref : Ref) : Prop :=
  ∃ a ∈ r.actions, a.response = some resp ∧ ∃ b ∈ a.broadcast, b.reference = ref

/-- The response requires the broadcast. -/
def Requires (r : Flow.Request) (resp ref : Ref) : Prop :=
  ∃ a ∈ r.actions, a.response = some resp ∧ ⟨ref, false⟩ ∈ a.broadcast

/-- The deliveries of broadcasts by handler `t`, oldest first. -/
def deliveries (t : Nat) (casts : List Cast) : List Act :=
  casts.flatMap (fun x => x.2.1.map (fun u => .send (.cast t) u 0 (.msg x.1 x.2.2)))

/-- The reaction to an error of `u` under a strategy; after an error event come changes by user code. -/
def Reacts (strategy : Server.ErrorStrategy) (u : Uuid) (before after : List Act) : Prop :=
  ∃ l, (∀ a ∈ l, ∃ v, Changes v a) ∧
    (strategy = .log → after = before) ∧
    (strategy = .disconnect → after = .drop u :: before) ∧
    (strategy = .emitError → after = l ++ .error (some u) :: before) ∧
    (strategy = .emitErrorAndDisconnect → after = l ++ .error (some u) :: .drop u :: before)

/-- The strategies under which clients need an assigned key. -/
def Strict (s : Server.Strategy) : Prop :=
  s = .emitError ∨ s = .disconnect ∨ s = .emitErrorAndDisconnect

end Verif.TsServer
