import Verif.Model.RustClient
set_option autoImplicit false
/-!
Vocabulary for statements about what a Rust client did. A history is a list of acts, newest first.
Only the types of the model are used, and the broadcasts of a configuration.
-/
namespace Verif.Client

open Verif

variable {P : Type}

/-- How far the message looked at last is: nothing is open, nobody took it so far, or asking who
waits for it failed. -/
inductive Status (P : Type) where
  | free
  | open_ (seq : UInt32) (m : In P)
  | refused (seq : UInt32) (m : In P)

/-- The acts that belong to the handling of one message. -/
def Act.handles : Act P → Prop
  | .got .. => True
  | .delivered .. => True
  | .authStarted _ => True
  | .emitted (.broadcast ..) => True
  | .emitted (.unknown _) => True
  | .emitted .acceptError => True
  | _ => False

/-- Messages are handled one after the other. A message is handed to the one who waits for it, or
starts a handshake, or is raised as event: as broadcast if it is declared, as error otherwise. -/
inductive Handled (broadcasts : List Ref) : List (Act P) → Status P → Prop where
  | nil : Handled broadcasts [] .free
  | other {a : Act P} {h : List (Act P)} {st : Status P} :
      Handled broadcasts h st → ¬ a.handles → Handled broadcasts (a :: h) st
  | got {h : List (Act P)} (q : UInt32) (m : In P) :
      Handled broadcasts h .free → Handled broadcasts (.got q m :: h) (.open_ q m)
  | delivered {h : List (Act P)} {q : UInt32} {m : In P} (who : Who) :
      Handled broadcasts h (.open_ q m) → m ≠ .confirmation →
      Handled broadcasts (.delivered who q m :: h) .free
  | started {h : List (Act P)} {q : UInt32} (n : Nat) :
      Handled broadcasts h (.open_ q .confirmation) → Handled broadcasts (.authStarted n :: h) .free
  | failed {h : List (Act P)} {q : UInt32} {m : In P} :
      Handled broadcasts h (.open_ q m) → Handled broadcasts (.emitted .acceptError :: h) (.refused q m)
  | broadcast {h : List (Act P)} {st : Status P} {q : UInt32} {ref : Ref} {body : P} :
      Handled broadcasts h st → st = .open_ q (.msg ref body) ∨ st = .refused q (.msg ref body) →
      ref ∈ broadcasts → Handled broadcasts (.emitted (.broadcast ref body) :: h) .free
  | unknown {h : List (Act P)} {st : Status P} {q : UInt32} {m : In P} :
      Handled broadcasts h st → st = .open_ q m ∨ st = .refused q m →
      m ≠ .confirmation → (∀ ref body, m = .msg ref body → ref ∉ broadcasts) →
      Handled broadcasts (.emitted (.unknown q) :: h) .free

/-- The id in a message to the server is the one assigned in a completed handshake. -/
def Assigned (cfg : Cfg P) (u : List Char) (h : List (Act P)) : Prop :=
  ∃ n w, .authEnded n (some w) ∈ h ∧ cfg.parseUuid w = some u

/-- The name of the message a call sends. -/
def Job.Asks : Job → Ref → Prop
  | .request r, ref => r.request.getD [] = ref
  | .beacon b, ref => b = ref

/-- Why a message to the server is sent: for a call, with its number and what user code passed, or for
a handshake: the self key with number 0, and the hash with number 1 after the answer to the self key. -/
def Cause (cfg : Cfg P) (who : Who) (q : UInt32) (o : Out P) (h : List (Act P)) : Prop :=
  match who with
  | .call n => ∃ job body u ref, .called n job body ∈ h ∧ .numbered n q ∈ h ∧
      job.Asks ref ∧ o = .msg u ref body ∧ ∀ v, u = some v → Assigned cfg v h
  | .auth n => .authStarted n ∈ h ∧
      (q = 0 ∧ o = .selfKey ∨ q = 1 ∧ o = .hash ∧ ∃ u, .delivered who 0 (.selfKey u) ∈ h)

/-- What a call makes of a response. A request reports the first action declared with this response,
else the error if it has its type. -/
inductive Reports : Job → In P → Result P → Prop where
  | action {r : Flow.Request} {ref : Ref} {body : P} {before after : List Flow.Action} {a : Flow.Action} :
      r.actions = before ++ a :: after → a.response = some ref → (∀ b ∈ before, b.response ≠ some ref) →
      Reports (.request r) (.msg ref body) (.conclusion a.conclusion ref body)
  | error {r : Flow.Request} {ref : Ref} {body : P} :
      (∀ b ∈ r.actions, b.response ≠ some ref) → r.error = some ref →
      Reports (.request r) (.msg ref body) (.error ref body)
  | wrong {r : Flow.Request} {ref : Ref} {body : P} :
      (∀ b ∈ r.actions, b.response ≠ some ref) → r.error ≠ some ref →
      Reports (.request r) (.msg ref body) .unexpected
  | internal {r : Flow.Request} {m : In P} : (∀ ref body, m ≠ .msg ref body) →
      Reports (.request r) m .unexpected
  | confirmed {ref : Ref} : Reports (.beacon ref) (.beacon false) .confirmed
  | refused {ref : Ref} : Reports (.beacon ref) (.beacon true) .refused
  | noConfirmation {ref : Ref} {m : In P} : (∀ e, m ≠ .beacon e) → Reports (.beacon ref) m .unexpected

/-- The handshake `n` was answered: first the self key with the id, then the hash without error. -/
def Shaken (n : Nat) (u : List Char) (h : List (Act P)) : Prop :=
  ∃ newer older, h = newer ++ .delivered (.auth n) 1 (.hash false) :: older ∧
    .delivered (.auth n) 0 (.selfKey u) ∈ older

/-- Why an act may happen, given what happened before. -/
def Allowed (cfg : Cfg P) (h : List (Act P)) : Act P → Prop
  | .called n _ _ => ∀ job body, .called n job body ∉ h
  | .numbered n _ => (∃ job body, .called n job body ∈ h) ∧ ∀ q, .numbered n q ∉ h
  | .sent who q o => Cause cfg who q o h ∧ (∀ o, .sent who q o ∉ h) ∧
      ∀ w o, .sent w q o ∈ h → ∃ m, .delivered w q m ∈ h
  | .delivered who q _ => (∃ o, .sent who q o ∈ h) ∧ (∀ m, .delivered who q m ∉ h) ∧
      ∀ w o, w ≠ who → .sent w q o ∈ h → ∃ m, .delivered w q m ∈ h
  | .ended n r => (∀ r, .ended n r ∉ h) ∧ ∃ job body, .called n job body ∈ h ∧
      (r = .failed ∨ r = .timeout ∧ (∃ q, .numbered n q ∈ h) ∧ (∃ x, job = .request x) ∨
        ∃ q m, .delivered (.call n) q m ∈ h ∧ Reports job m r)
  | .authStarted n => .authStarted n ∉ h
  | .authEnded n r => (∀ r, .authEnded n r ∉ h) ∧ .authStarted n ∈ h ∧ ∀ u, r = some u → Shaken n u h
  | .emitted .connected => ∃ u, Assigned cfg u h
  | _ => True

/-- Every act of a history was allowed when it happened. -/
def Lawful (cfg : Cfg P) : List (Act P) → Prop
  | [] => True
  | a :: h => Allowed cfg h a ∧ Lawful cfg h

/-! ### What a history says about numbers and messages -/

/-- The numbers calls got, oldest first. -/
def numbers : List (Act P) → List UInt32
  | [] => []
  | .numbered _ q :: h => numbers h ++ [q]
  | _ :: h => numbers h

/-- The bytes that arrived, oldest first. -/
def arrived : List (Act P) → Bytes
  | [] => []
  | .chunk bytes :: h => arrived h ++ bytes
  | _ :: h => arrived h

/-- The messages that were looked at, oldest first. -/
def looked : List (Act P) → List (UInt32 × In P)
  | [] => []
  | .got q m :: h => looked h ++ [(q, m)]
  | _ :: h => looked h

/-- Nobody waits for the message looked at last, unless the client failed to find out: whoever sent a
request with its number before it came has got an answer. -/
def Unmatched (h : List (Act P)) : Prop :=
  ∀ a q m b, h = a ++ .got q m :: b →
    (∀ x ∈ a, (∀ q m, x ≠ .got q m) ∧ x ≠ .emitted .acceptError) →
    ∀ who o, .sent who q o ∈ b → ∃ m, .delivered who q m ∈ h

/-- The acts that raise a message as event. -/
def Act.raises : Act P → Prop
  | .emitted (.broadcast ..) => True
  | .emitted (.unknown _) => True
  | _ => False

/-- What may become of a message: it is handed over, starts a handshake, or is raised. -/
def Done (q : UInt32) (m : In P) (x : Act P) : Prop :=
  (∃ who, x = .delivered who q m) ∨ (m = .confirmation ∧ ∃ n, x = .authStarted n) ∨ x.raises

/-- The last piece of data was not read without error. -/
def Held (h : List (Act P)) : Prop :=
  ∃ a b, h = a ++ .emitted .readError :: b ∧ ∀ x ∈ a, ∀ bytes, x ≠ .chunk bytes

/-- User code drops no call, and the transport takes messages. -/
def Input.Patient : Input P → Prop
  | .abandon _ => False
  | .api sends => sends = true
  | _ => True

/-- Nobody stops the client: neither user code, nor the transport. -/
def Input.Steady : Input P → Prop
  | .cancel => False
  | .shutdown => False
  | .closed _ => False
  | .eventsEnd => False
  | _ => True

/-- Not more calls than there are numbers, and one handshake. -/
def Few (h : List (Act P)) : Prop :=
  (numbers h).length ≤ 4294967284 ∧ ∀ n m, .authStarted n ∈ h → .authStarted m ∈ h → n = m

/-- A message came with the number of a request that took too long. -/
def Late (h : List (Act P)) : Prop :=
  ∃ n q m, .numbered n q ∈ h ∧ .ended n .timeout ∈ h ∧ .got q m ∈ h

/-- Why a handshake may fail: a message cannot be packed, the task that sends has ended, or an answer
is not the one expected. -/
def Broken (cfg : Cfg P) (n : Nat) (h : List (Act P)) : Prop :=
  cfg.packs .selfKey = false ∨ cfg.packs .hash = false ∨ (∃ ok, .apiEnded ok ∈ h) ∨
    (∃ m, .delivered (.auth n) 0 m ∈ h ∧ ∀ u, m ≠ .selfKey u) ∨
    ∃ m, .delivered (.auth n) 1 m ∈ h ∧ m ≠ .hash false

/-- A task of the client has ended. -/
def Stopped (h : List (Act P)) : Prop := (∃ ok, .apiEnded ok ∈ h) ∨ ∃ ok, .messagesEnded ok ∈ h

/-- Why a call may fail: no answer was handed to it, and a task of the client has ended or its message
cannot be packed. -/
def Hopeless (cfg : Cfg P) (n : Nat) (h : List (Act P)) : Prop :=
  (∀ q m, .delivered (.call n) q m ∉ h) ∧
    (Stopped h ∨ ∃ job body u ref, .called n job body ∈ h ∧ job.Asks ref ∧ cfg.packs (.msg u ref body) = false)

end Verif.Client
