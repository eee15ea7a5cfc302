import Verif.Model.System
import Verif.Spec.Server
import Verif.Spec.Client
import Verif.Spec.Stream
set_option autoImplicit false
/-!
Vocabulary for statements about clients and a server that talk to each other. Histories are newest
first; only the types of the models are used.
-/
namespace Verif.System

open Verif Verif.Spec

variable {P : Type}

/-- The messages a client passed to the transport, oldest first. -/
def sents : List (Client.Act P) → List (UInt32 × Client.Who × Client.Out P)
  | [] => []
  | .sent who q o :: h => sents h ++ [(q, who, o)]
  | _ :: h => sents h

/-- The messages the transport took from the server for `u`, oldest first. -/
def sends (u : Uuid) : List (Server.Act P) → List (UInt32 × Server.Out P)
  | [] => []
  | .send v q o true :: h => if v = u then sends u h ++ [(q, o)] else sends u h
  | _ :: h => sends u h

/-- The messages of `u` the server looked at, oldest first. -/
def heard (u : Uuid) : List (Server.Act P) → List (UInt32 × Server.In P)
  | [] => []
  | .got v m q :: h => if v = u then heard u h ++ [(q, m)] else heard u h
  | _ :: h => heard u h

/-- Item by item. -/
inductive Pairs {α β : Type} (R : α → β → Prop) : List α → List β → Prop where
  | nil : Pairs R [] []
  | cons {a : α} {b : β} {as : List α} {bs : List β} : R a b → Pairs R as bs → Pairs R (a :: as) (b :: bs)

/-- The second list comes item by item from some items of the first one, in order. -/
inductive Sub {α β : Type} (R : α → β → Prop) : List α → List β → Prop where
  | nil : Sub R [] []
  | skip {a : α} {as : List α} {bs : List β} : Sub R as bs → Sub R (a :: as) bs
  | keep {a : α} {b : β} {as : List α} {bs : List β} : R a b → Sub R as bs → Sub R (a :: as) (b :: bs)

/-- The bytes are one frame, and a receiver decodes it to `m`. -/
def Decodes {T : Type} (d : Rust.Decoder T) (bytes : Bytes) (m : T) : Prop :=
  ∃ (f : Frame) (x : Rust.Income T), f.Ok ∧ bytes = f.bytes ∧ Spec.delivered d f = some x ∧ x.msg = m

/-- The bytes are one frame with this sequence. -/
def IsFrame (q : UInt32) (bytes : Bytes) : Prop :=
  ∃ f : Frame, f.Ok ∧ f.hdr.sequence = q ∧ bytes = f.bytes

/-- A message, packed at some time, is the frame. -/
def Packed {O : Type} (pack : UInt64 → UInt32 → O → Bytes) (q : UInt32) (o : O) (f : Frame) : Prop :=
  f.Ok ∧ f.hdr.sequence = q ∧ ∃ ts, f.bytes = pack ts q o

/-- The message packed at some time is decoded to `m`. -/
def Arrives {O T : Type} (pack : UInt64 → UInt32 → O → Bytes) (d : Rust.Decoder T) (q : UInt32) (o : O) (m : T) : Prop :=
  ∃ ts, Decodes d (pack ts q o) m

/-- The broadcasts a client handed to user code, oldest first. -/
def casts : List (Client.Act P) → List (Client.Ref × P)
  | [] => []
  | .emitted (.broadcast ref body) :: h => casts h ++ [(ref, body)]
  | _ :: h => casts h

/-- All messages sent so far were packed into frames with their sequence. (Messages of 2^64 bytes and
more are not.) -/
structure Framed (w : Setup P) (n : Net P) : Prop where
  down : ∀ u q o, .send u q o true ∈ n.server.past → ∀ ts, IsFrame q (w.down ts q o)
  up : ∀ u c, n.find u = some c → ∀ who q o, .sent who q o ∈ c.client.past → ∀ ts, IsFrame q (w.up ts q o)

/-- The message `m` of the server's side is what the client sent; `hashes` are those of protocol and
workflow of the client. -/
def SameCall (w : Setup P) (hashes : List Char × List Char) (o : Client.Out P) (m : Server.In P) : Prop :=
  match o with
  | .selfKey => ∃ k, m = .msg w.server.selfKey k
  | .hash => m = .hash hashes.1 hashes.2
  | .msg _ ref body => m = .msg ref body

/-- The message `m` of the client's side is what the server sent; `name` is how an id is written. -/
def SameAnswer (name : Uuid → List Char) (o : Server.Out P) (m : Client.In P) : Prop :=
  match o with
  | .confirmation => m = .confirmation
  | .selfKey v => m = .selfKey (name v)
  | .hash e => m = .hash e
  | .beacon => m = .beacon false
  | .msg ref body => m = .msg ref body

/-- Messages sent so far are decoded to nothing but what they are. -/
structure Faithful (w : Setup P) (name : Uuid → List Char) (hashes : List Char × List Char) (n : Net P) : Prop where
  call : ∀ u c, n.find u = some c → ∀ who q o, .sent who q o ∈ c.client.past →
    ∀ ts m, Decodes w.server.decoder (w.up ts q o) m → SameCall w hashes o m
  answer : ∀ u q o, .send u q o true ∈ n.server.past → ∀ ts m, Decodes w.client.decoder (w.down ts q o) m →
    SameAnswer name o m

/-- Messages sent so far are decoded to something. -/
structure Readable (w : Setup P) (n : Net P) : Prop where
  call : ∀ u c, n.find u = some c → ∀ who q o, .sent who q o ∈ c.client.past →
    ∀ ts, ∃ m, Decodes w.server.decoder (w.up ts q o) m
  answer : ∀ u q o, .send u q o true ∈ n.server.past → ∀ ts, ∃ m, Decodes w.client.decoder (w.down ts q o) m

/-- Why the server sends `o` to `u` with number `q` after a history: it answers `m`, which it has just
looked at. A request is answered with what user code decides, a beacon after user code has taken it. -/
inductive Answer (cfg : Server.Cfg P) (env : Server.Env P) (u : Uuid) (q : UInt32) :
    List (Server.Act P) → Server.In P → Server.Out P → Prop where
  | selfKey {k : P} {h : List (Server.Act P)} :
      Answer cfg env u q (.got u (.msg cfg.selfKey k) q :: h) (.msg cfg.selfKey k) (.selfKey u)
  | hash {h : List (Server.Act P)} :
      Answer cfg env u q (.got u (.hash cfg.protocolHash cfg.workflowHash) q :: h)
        (.hash cfg.protocolHash cfg.workflowHash) (.hash false)
  | wrongHash {a b : List Char} {h : List (Server.Act P)} : a ≠ cfg.protocolHash ∨ b ≠ cfg.workflowHash →
      Answer cfg env u q (.got u (.hash a b) q :: h) (.hash a b) (.hash true)
  | request {r : Flow.Request} {ref : Flow.Ref} {p : P} {s : Server.State P} {h : List (Server.Act P)}
      {o : Server.Out P} {l : List (Uuid × Server.Out P)} : r ∈ cfg.workflow.requests → r.request = some ref →
      s.past = .respond u ref q :: .got u (.msg ref p) q :: h → Server.Decides env r s u p o l →
      Answer cfg env u q (.respond u ref q :: .got u (.msg ref p) q :: h) (.msg ref p) o
  | beacon {b : Flow.Broadcast} {p : P} {s : Server.State P} {h : List (Server.Act P)} :
      b ∈ cfg.workflow.beacons →
      s.past = .beacon u b.reference q :: .got u (.msg b.reference p) q :: h →
      env.beacon s b.reference u p = .ok () →
      Answer cfg env u q (.beacon u b.reference q :: .got u (.msg b.reference p) q :: h) (.msg b.reference p) .beacon

/-- Every message of the server answers one, or has number 0 and is the confirmation of a connection
or a broadcast. -/
def Justified (cfg : Server.Cfg P) (env : Server.Env P) : List (Server.Act P) → Prop
  | [] => True
  | .send u q o _ :: h => ((q = 0 ∧ (o = .confirmation ∨ ∃ ref p, o = .msg ref p)) ∨
      ∃ m, Answer cfg env u q h m o) ∧ Justified cfg env h
  | _ :: h => Justified cfg env h

end Verif.System
