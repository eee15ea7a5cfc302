import Verif.Model.RustProducer
import Verif.Model.RustIdentification
set_option autoImplicit false
/-!
Vocabulary for statements about what a server did. A history is a list of acts, newest first. Only
the types of the model are used.
-/
namespace Verif.Server

open Verif

variable {P : Type}

/-- What happened since client `u` was connected the last time. -/
def since (u : Uuid) : List (Act P) → List (Act P)
  | [] => []
  | .opened v :: h => if v = u then [] else .opened v :: since u h
  | a :: h => a :: since u h

/-- `u` is connected: it was connected and not disconnected since then. -/
def Online (u : Uuid) (h : List (Act P)) : Prop := .opened u ∈ h ∧ .closed u ∉ since u h

/-- The server asked the transport to drop the present connection of `u`. -/
def Kicked (u : Uuid) (h : List (Act P)) : Prop := .drop u ∈ since u h

/-- `u` sent a hash request with these two hashes on its present connection. -/
def HashShown (u : Uuid) (protocol workflow : List Char) (h : List (Act P)) : Prop :=
  ∃ seq, .got u (.hash protocol workflow) seq ∈ since u h

/-- `u` sent a self key on its present connection, or the server set it. -/
def KeyGiven (u : Uuid) (selfKey : Ref) (h : List (Act P)) : Prop :=
  (∃ k seq, .got u (.msg selfKey k) seq ∈ since u h) ∨ .keyChange u ∈ since u h

/-- The strategies under which clients need an assigned key. -/
def Strict (s : Strategy) : Prop := s = .emitError ∨ s = .disconnect ∨ s = .emitErrorAndDisconnect

/-- The complete handshake of the present connection of `u`. -/
structure Handshake (cfg : Cfg P) (opts : Options) (u : Uuid) (h : List (Act P)) : Prop where
  online : Online u h
  confirmed : .confirmed u ∈ since u h
  hash : HashShown u cfg.protocolHash cfg.workflowHash h
  key : KeyGiven u cfg.selfKey h
  assigned : Strict opts.identification → .assignment u ∈ since u h

/-- `u` was not kicked before the piece of data arrived that is processed now. -/
def FreshData (u : Uuid) (h : List (Act P)) : Prop :=
  ∃ newer older, h = newer ++ .chunk u :: older ∧ .chunk u ∉ newer ∧ .opened u ∉ newer ∧
    ¬ Kicked u older

/-- Server code for a message of `u` runs: for a request or a beacon. -/
def Served (u : Uuid) (a : Act P) : Prop :=
  (∃ ref seq, a = .respond u ref seq) ∨ (∃ ref seq, a = .beacon u ref seq)

/-- The transport never fails to drop a client or to deliver the confirmation of a connection, and
code written by the user returns normally where the server passes on its errors, and never panics.
Handlers may return errors, sends may fail. -/
structure Benign (env : Env P) : Prop where
  drop : ∀ s u, env.drop s u = true
  confirm : ∀ s u, env.send s u 0 .confirmation = true
  error : ∀ s u, env.error s u = .ok ()
  ready : ∀ s, env.ready s = .ok ()
  conclude : ∀ s r u p, env.conclude s r u p ≠ none
  reply : ∀ s r u p, env.reply s r u p ≠ none
  beacon : ∀ s r u p, env.beacon s r u p ≠ .panic
  emit : ∀ s e p, env.emit s e p ≠ .panic

/-- The transport reports a connection only for clients that are not connected; `on` are those that
are connected now. -/
def Regular (on : List Uuid) : List (Input P) → Prop
  | [] => True
  | .connected u :: is => u ∉ on ∧ Regular (u :: on) is
  | .disconnected u :: is => Regular (on.filter (· ≠ u)) is
  | _ :: is => Regular on is

/-- Reading `bytes` of client `u` panics in state `s`: the client is confirmed and not kicked, and the
reader of the protocol panics. -/
def ReadPanics (cfg : Cfg P) (s : State P) (u : Uuid) (bytes : Bytes) : Prop :=
  ∃ c, s.find u = some c ∧ c.confirmed = true ∧ c.discredited = false ∧
    (Rust.chunk cfg.decoder c.reader bytes).1 = .panic

/-- The messages that the broadcasts chosen by user code stand for: in the order of declaration, and
each to its receivers in order. Required broadcasts are always there, optional ones if chosen. -/
inductive Gives : (bs : List Flow.Broadcast) → Casts P bs → List (Uuid × Out P) → Prop where
  | nil : Gives [] () []
  | required {ref : Ref} {us : List Uuid} {p : P} {bs : List Flow.Broadcast} {cs : Casts P bs}
      {l : List (Uuid × Out P)} : Gives bs cs l →
      Gives (⟨ref, false⟩ :: bs) ((us, p), cs) (us.map (fun u => (u, .msg ref p)) ++ l)
  | chosen {ref : Ref} {us : List Uuid} {p : P} {bs : List Flow.Broadcast} {cs : Casts P bs}
      {l : List (Uuid × Out P)} : Gives bs cs l →
      Gives (⟨ref, true⟩ :: bs) (some (us, p), cs) (us.map (fun u => (u, .msg ref p)) ++ l)
  | omitted {ref : Ref} {bs : List Flow.Broadcast} {cs : Casts P bs}
      {l : List (Uuid × Out P)} : Gives bs cs l → Gives (⟨ref, true⟩ :: bs) (none, cs) l

/-- User code gave receivers `us` and content `p` for the declared broadcast `b`. -/
inductive CastFor (b : Flow.Broadcast) (us : List Uuid) (p : P) :
    (bs : List Flow.Broadcast) → Casts P bs → Prop where
  | required {bs : List Flow.Broadcast} {cs : Casts P bs} {ref : Ref} :
      b = ⟨ref, false⟩ → CastFor b us p (⟨ref, false⟩ :: bs) ((us, p), cs)
  | chosen {bs : List Flow.Broadcast} {cs : Casts P bs} {ref : Ref} :
      b = ⟨ref, true⟩ → CastFor b us p (⟨ref, true⟩ :: bs) (some (us, p), cs)
  | later {a : Flow.Broadcast} {v : CastVal P a.optional} {bs : List Flow.Broadcast} {cs : Casts P bs} :
      CastFor b us p bs cs → CastFor b us p (a :: bs) (v, cs)

/-- One attempt to send per message, in this order, with sequence 0; each may succeed or fail. -/
inductive Attempts : List (Uuid × Out P) → List (Act P) → Prop where
  | nil : Attempts [] []
  | cons {u : Uuid} {o : Out P} {ok : Bool} {l : List (Uuid × Out P)} {acts : List (Act P)} :
      Attempts l acts → Attempts ((u, o) :: l) (.send u 0 o ok :: acts)

/-- The server answers `u` with `o`, and broadcasts `l` if that succeeds: what happens (oldest first)
for a result. The answer may not be sent at all if something cannot be packed. -/
inductive Answers (u : Uuid) (seq : UInt32) (o : Out P) (l : List (Uuid × Out P)) :
    Res Unit → List (Act P) → Prop where
  | sent {acts : List (Act P)} : Attempts l acts →
      Answers u seq o l (.ok ()) (.send u seq o true :: acts ++ [.deferred])
  | failed : Answers u seq o l .err [.send u seq o false]
  | unpacked : Answers u seq o l .err []

/-- In state `s`, user code decides on the answer `o` to the request `p` of `u`, and the messages `l`.
Requests with two or more actions choose one of them with its broadcasts; others just give a
response. -/
inductive Decides (env : Env P) (r : Flow.Request) (s : State P) (u : Uuid) (p : P) :
    Out P → List (Uuid × Out P) → Prop where
  | error {e : P} : 2 ≤ r.actions.length → env.conclude s r u p = some (.error e) →
      Decides env r s u p (.msg (r.error.getD []) e) []
  | action {i : Fin r.actions.length} {x : P} {casts : Casts P (r.actions.get i).broadcast}
      {l : List (Uuid × Out P)} : 2 ≤ r.actions.length →
      env.conclude s r u p = some (.action i x casts) → Gives (r.actions.get i).broadcast casts l →
      Decides env r s u p (.msg ((r.actions.get i).response.getD []) x) l
  | plainError {e : P} : r.actions.length ≤ 1 → env.reply s r u p = some (.error e) →
      Decides env r s u p (.msg (r.error.getD []) e) []
  | plain {x : P} : r.actions.length ≤ 1 → env.reply s r u p = some (.response x) →
      Decides env r s u p (.msg ((r.actions.head?.bind Flow.Action.response).getD []) x) []

/-- The content of a field fits to its declaration. -/
def FieldFits {V : Type} (f : Prot.Field) : FieldVal V → Prop
  | .plain _ => f.optional = false
  | .opt _ => f.optional = true

/-- A value of the struct with these fields. -/
def Fits {V : Type} (fields : List Prot.Field) (r : Record V) : Prop :=
  r.map Prod.fst = fields.map Prot.Field.name ∧
    ∀ f ∈ fields, ∀ v, r.lookup f.name = some v → FieldFits f v

/-- What a field should be after an update: sent values count, values left out do not. -/
def updated {V : Type} (old new : Option (FieldVal V)) : Option (FieldVal V) :=
  match new with
  | some (.opt none) => old
  | some v => some v
  | none => old

/-- Acts that may happen because of data of `u`: looking at it; user code for `u`; answers, broadcasts
and error events; dropping `u`. -/
def Because (u : Uuid) : Act P → Prop
  | .chunk v => v = u
  | .got v _ _ => v = u
  | .send _ _ _ _ => True
  | .error _ => True
  | .deferred => True
  | .drop v => v = u
  | .respond v _ _ => v = u
  | .beacon v _ _ => v = u
  | _ => False

end Verif.Server
