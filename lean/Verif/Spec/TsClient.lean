import Verif.Model.TsClient
import Verif.Spec.TsServer
import Verif.Spec.TsStream
set_option autoImplicit false
/-!
Vocabulary for statements about what a TypeScript client did. A history is a list of acts, newest
first. Of the model only the types are used.
-/
namespace Verif.TsClient

open Verif

/-- Following the names leads from one value to another. -/
inductive Reaches : Js → List Name → Js → Prop where
  | here {v : Js} : Reaches v [] v
  | step {ps : List (Name × Js)} {n : Name} {ns : List Name} {v t : Js} :
      ps.lookup n = some v → Reaches v ns t → Reaches (.obj ps) (n :: ns) t

/-- The message has the value under the reference. -/
def Holds (m : Msg) (ref : Ref) (v : Js) : Prop :=
  ∃ ns w, TsServer.Spells ns ref ∧ TsServer.Wraps m.path m.body w ∧ Reaches w ns v

/-- The message has exactly the type of the reference. -/
def IsA (m : Msg) (ref : Ref) : Prop := TsServer.Spells m.path ref

/-- The workflow has a broadcast with the reference, in an action of a request or in an event. -/
def Broadcasts (w : Flow.Store) (ref : Ref) : Prop :=
  (∃ r ∈ w.requests, ∃ a ∈ r.actions, ∃ b ∈ a.broadcast, b.reference = ref) ∨
  ∃ e ∈ w.events, ∃ b ∈ e.broadcasts, b.reference = ref

/-- The message answers a self key, with this id. -/
def GivesKey (m : Msg) (v : Js) : Prop :=
  ∃ ps, Holds m "InternalServiceGroup.SelfKeyResponse".toList (.obj ps) ∧ ps.lookup "uuid".toList = some v

/-- The message accepts the hashes. -/
def AcceptsHash (m : Msg) : Prop :=
  ∃ b, Holds m "InternalServiceGroup.HashResponse".toList b ∧
    ∀ ps, b = .obj ps → ps.lookup "error".toList = none

/-- The message confirms a beacon: with an error or without. -/
def Confirms (m : Msg) (error : Bool) : Prop :=
  ∃ b, Holds m "InternalServiceGroup.BeaconConfirmation".toList b ∧
    (error = true ↔ ∃ ps e, b = .obj ps ∧ ps.lookup "error".toList = some (.str e))

/-- The action is the first one whose response is in the message. -/
def Picks (r : Flow.Request) (m : Msg) (a : Flow.Action) (ref : Ref) (v : Js) : Prop :=
  ∃ before after, r.actions = before ++ a :: after ∧ a.response = some ref ∧ Holds m ref v ∧
    ∀ b ∈ before, ∀ ref' v', b.response = some ref' → ¬ Holds m ref' v'

/-- No action has a response that is in the message. -/
def NoAction (r : Flow.Request) (m : Msg) : Prop :=
  ∀ b ∈ r.actions, ∀ ref v, b.response = some ref → ¬ Holds m ref v

/-- What a request object makes of an answer. -/
inductive Reports : Kind → Msg → Result → Prop where
  | action {r : Flow.Request} {m : Msg} {a : Flow.Action} {ref : Ref} {v : Js} :
      Picks r m a ref v → Reports (.request r) m (.resolved ref v)
  | error {r : Flow.Request} {m : Msg} {ref : Ref} {v : Js} : NoAction r m → r.error = some ref →
      Holds m ref v → Reports (.request r) m (.resolved ref v)
  | wrong {r : Flow.Request} {m : Msg} : NoAction r m →
      (∀ ref v, r.error = some ref → ¬ Holds m ref v) → Reports (.request r) m .unexpected
  | confirmed {ref : Ref} {m : Msg} : Confirms m false → Reports (.beacon ref) m .confirmed
  | refused {ref : Ref} {m : Msg} : Confirms m true → Reports (.beacon ref) m .refused
  | noConfirmation {ref : Ref} {m : Msg} : (∀ e, ¬ Confirms m e) → Reports (.beacon ref) m .unexpected

/-- The handler of an action: its conclusion in lower case; `response` if there is one action. -/
def HandlerOf (r : Flow.Request) (a : Flow.Action) (name : Name) : Prop :=
  (r.actions.length ≤ 1 ∧ name = "response".toList) ∨
  (1 < r.actions.length ∧ name = (a.conclusion.getD []).map Char.toLower)

/-- The handler for an answer, and what it gets. -/
inductive Handles : Kind → Msg → Name → Option Js → Prop where
  | action {r : Flow.Request} {m : Msg} {a : Flow.Action} {ref : Ref} {v : Js} {name : Name} :
      Picks r m a ref v → HandlerOf r a name → Handles (.request r) m name (some v)
  | error {r : Flow.Request} {m : Msg} {ref : Ref} {v : Js} : NoAction r m → r.error = some ref →
      Holds m ref v → Handles (.request r) m "err".toList (some v)
  | confirmed {ref : Ref} {m : Msg} : Confirms m false → Handles (.beacon ref) m "response".toList none
  | notConfirmed {ref : Ref} {m : Msg} : ¬ Confirms m false → Handles (.beacon ref) m "err".toList none

/-- The message a request object sends. -/
def Kind.Asks : Kind → Ref → Prop
  | .request r, ref => r.request.getD [] = ref
  | .beacon b, ref => b = ref

/-- The answer to the self key of handshake `n` had the id `v`. -/
def KeyGiven (n : Nat) (v : Js) (h : List Act) : Prop :=
  ∃ q m, .delivered (.assign n true) q m ∈ h ∧ GivesKey m v

/-- Why a message to the server is sent. -/
def Cause (w : Waiter) (out : Out) (h : List Act) : Prop :=
  match w with
  | .call n o => .called n o ∈ h ∧ (∀ r, .ended n r ∉ h) ∧ ∃ k b ref, .created o k b ∈ h ∧ k.Asks ref ∧ out = .msg ref b
  | .assign n shake => .assigning n shake ∈ h ∧ out = .selfKey
  | .hash n v => .assigning n true ∈ h ∧ KeyGiven n v h ∧ out = .hash

/-- Nobody waits for an answer with this number. -/
def Unmatched (q : UInt32) (h : List Act) : Prop :=
  ∀ w out, .sent w q.toNat out ∈ h → ∃ m, .delivered w q m ∈ h

/-- Another call of the object has not ended, or its message was not sent. -/
def InUse (n o : Nat) (h : List Act) : Prop :=
  ∃ k, k ≠ n ∧ .called k o ∈ h ∧ ((∀ r, .ended k r ∉ h) ∨ .ended k .failed ∈ h)

/-- Why call `n` of object `o` ends with this result. -/
def Reason (n o : Nat) (k : Kind) (h : List Act) : Result → Prop
  | .busy => InUse n o h ∧ ∀ q out, .sent (.call n o) q out ∉ h
  | .gone => .destroyed o ∈ h ∧ ((∃ q m, .delivered (.call n o) q m ∈ h) ∨ ∀ q out, .sent (.call n o) q out ∉ h)
  | .failed => ∀ q out, .sent (.call n o) q out ∉ h
  | .threw => ∃ name v, .handled n name v ∈ h
  | r => ∃ q m, .delivered (.call n o) q m ∈ h ∧ Reports k m r

/-- Why an act may happen, given what happened before. -/
def Allowed (cfg : Cfg) (h : List Act) : Act → Prop
  | .created o _ _ => ∀ k b, .created o k b ∉ h
  | .called n o => (∃ k b, .created o k b ∈ h) ∧ (∀ o, .called n o ∉ h) ∧ ∀ b, .assigning n b ∉ h
  | .assigning n shake => (∀ o, .called n o ∉ h) ∧ (∀ b, .assigning n b ∉ h) ∧
      (shake = true → ∃ h', h = .opened :: h')
  | .sent w q out => 1 ≤ q ∧ q < 4294967296 ∧ (∀ w q' out, .sent w q' out ∈ h → q' < q) ∧
      (∀ q out, .sent w q out ∉ h) ∧ Cause w out h
  | .delivered w q m => (∃ out, .sent w q.toNat out ∈ h) ∧ (∀ w m, .delivered w q m ∉ h) ∧
      ∃ h', h = .got q m :: h'
  | .ended n r => (∀ r, .ended n r ∉ h) ∧ ∃ o k b, .called n o ∈ h ∧ .created o k b ∈ h ∧ Reason n o k h r
  | .handled n name v => (∀ r, .ended n r ∉ h) ∧ (∀ name v, .handled n name v ∉ h) ∧
      ∃ o k b q m, .called n o ∈ h ∧ .created o k b ∈ h ∧ .delivered (.call n o) q m ∈ h ∧ Handles k m name v
  | .assignEnded n r => (∀ r, .assignEnded n r ∉ h) ∧
      ∃ shake, .assigning n shake ∈ h ∧
        ∀ v, r = some v → ∃ q m, .delivered (.assign n shake) q m ∈ h ∧ GivesKey m v
  | .shakeEnded n ok => (∀ ok, .shakeEnded n ok ∉ h) ∧ .assigning n true ∈ h ∧
      (ok = true → ∃ v q m, .delivered (.hash n v) q m ∈ h ∧ AcceptsHash m)
  | .emitted (.ready v) => ∃ n h' q m, h = .shakeEnded n true :: h' ∧ .delivered (.hash n v) q m ∈ h ∧ AcceptsHash m
  | .emitted (.broadcast ref b) => ∃ q m h', h = .got q m :: h' ∧ IsA m ref ∧ b = m.body ∧
      Broadcasts cfg.workflow ref ∧ Unmatched q h'
  | .ignored q m => ∃ h', h = .got q m :: h' ∧ (∀ ref, Broadcasts cfg.workflow ref → ¬ IsA m ref) ∧ Unmatched q h'
  | _ => True

/-- Every act of a history was allowed when it happened. -/
def Lawful (cfg : Cfg) : List Act → Prop
  | [] => True
  | a :: h => Allowed cfg h a ∧ Lawful cfg h

/-- The bytes that arrived, in order. -/
def arrived : List Act → Bytes
  | [] => []
  | .chunk b :: h => arrived h ++ b
  | _ :: h => arrived h

/-- The messages that were looked at, in order. -/
def looked : List Act → List (UInt32 × Msg)
  | [] => []
  | .got q m :: h => looked h ++ [(q, m)]
  | _ :: h => looked h

/-- How often something happened. -/
def times (p : Act → Bool) (h : List Act) : Nat := h.countP p

def Act.isOpened : Act → Bool
  | .opened => true
  | _ => false

def Act.isConnected : Act → Bool
  | .emitted .connected => true
  | _ => false

def Act.isClosed : Act → Bool
  | .closed => true
  | _ => false

def Act.isDisconnected : Act → Bool
  | .emitted .disconnected => true
  | _ => false

def Act.isTrouble : Act → Bool
  | .trouble => true
  | _ => false

def Act.isError : Act → Bool
  | .emitted .error => true
  | _ => false

def Act.isReady : Act → Bool
  | .emitted (.ready _) => true
  | _ => false

/-- Nothing is sent for a destroyed object, and none of its handlers is called. -/
def Mute : List Act → Prop
  | [] => True
  | .sent (.call _ o) _ _ :: h => .destroyed o ∉ h ∧ Mute h
  | .handled n _ _ :: h => (∀ o, .called n o ∈ h → .destroyed o ∉ h) ∧ Mute h
  | _ :: h => Mute h

/-- What happened since the last connection was lost. -/
def since : List Act → List Act
  | [] => []
  | .closed :: _ => []
  | a :: h => a :: since h

/-- The messages in a list of frames, with their numbers. -/
def messages (d : Rust.Decoder Msg) (fs : List Spec.Frame) : List (UInt32 × Msg) :=
  (fs.filterMap (Spec.delivered d)).map (fun x => (x.header.sequence, x.msg))

/-- Jobs run before the next connection is lost, as JavaScript does it: jobs run before the next event. -/
def Prompt (cfg : Cfg) (env : Env) (is : List Input) : Prop :=
  ∀ before after, is = before ++ .disconnected :: after → (run cfg env before .new).2.tasks = []

end Verif.TsClient
