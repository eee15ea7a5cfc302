import Verif.Model.Bytes
set_option autoImplicit false
/-!
Clients and a server of any of the generated kinds that talk to each other. The programs are arguments;
`Model.NetworkPrograms` says what they are for the generated Rust and TypeScript code. Here is what
connects them: the transport. Its code is not in the repository; it is called at
`cli/src/workflow/render/consumer/rust/render_consumer.rs` L440-443,
`cli/src/workflow/render/producer/rust/render_mod.rs` L210-235,
`cli/src/workflow/render/consumer/typescript/render_consumer.rs` L152-166 and
`cli/src/workflow/render/producer/typescript/render_mod.rs` L113-131.

What is taken for granted about the transport is the same as in `Model.System`: on one connection bytes
arrive in the order in which they were sent, unchanged; they may arrive late, in pieces of any size
that have nothing to do with messages, or never. A connection gets an id that was not used before. A
client here has one connection.
-/
namespace Verif.Network

open Verif

abbrev Uuid := Nat

/-- What the transport tells a server: a connection is there, a connection is gone, data arrives. `own`
is everything else that makes the server go on. -/
inductive ServerEvent (Own : Type) where
  | opened (u : Uuid)
  | closed (u : Uuid)
  | data (u : Uuid) (bytes : Bytes)
  | own (i : Own)

/-- A server: what it does on an event, the messages the transport took from it so far (oldest first),
and how it packs a message with a number at a time. -/
structure ServerProg where
  State : Type
  Own : Type
  Out : Type
  new : State
  step : ServerEvent Own → State → State
  sent : State → List (Uuid × UInt32 × Out)
  pack : UInt64 → UInt32 → Out → Bytes

/-- What the transport tells a client: data arrives. `own` is everything else that makes the client go on. -/
inductive ClientEvent (Own : Type) where
  | data (bytes : Bytes)
  | own (i : Own)

/-- A client. `waits` says whether it takes data now. -/
structure ClientProg where
  State : Type
  Own : Type
  Out : Type
  new : State
  waits : State → Bool
  step : ClientEvent Own → State → State
  sent : State → List (UInt32 × Out)
  pack : UInt64 → UInt32 → Out → Bytes

variable (S : ServerProg) (C : ClientProg)

/-- A connection: the client, the bytes under way to the server and to the client, and those that arrived
there (`gotUp`, `gotDown`, which nothing reads). -/
structure Conn where
  client : C.State
  up : Bytes
  down : Bytes
  gotUp : Bytes
  gotDown : Bytes

/-- The server, and all connections there ever were. -/
structure Net where
  server : S.State
  conns : List (Uuid × Conn C)

variable {S C}

/-- The server was started. -/
def Net.new : Net S C := ⟨S.new, []⟩

/-- The connection of `u`. -/
def Net.find (n : Net S C) (u : Uuid) : Option (Conn C) := n.conns.lookup u

/-- The connection of `u` changes. -/
def Net.set (n : Net S C) (u : Uuid) (c : Conn C) : Net S C :=
  { n with conns := n.conns.map (fun p => if p.1 = u then (u, c) else p) }

/-- The messages of the server that are for `u`. -/
def sendsTo {Out : Type} (u : Uuid) : List (Uuid × UInt32 × Out) → List (UInt32 × Out)
  | [] => []
  | (v, x) :: l => if v = u then x :: sendsTo u l else sendsTo u l

/-- The bytes of messages. -/
def packAll {Out : Type} (pack : UInt64 → UInt32 → Out → Bytes) (ts : UInt64) (l : List (UInt32 × Out)) : Bytes :=
  l.flatMap (fun x => pack ts x.1 x.2)

/-- The server gets an event; what it sends is under way. -/
def Net.serve (ts : UInt64) (e : ServerEvent S.Own) (n : Net S C) : Net S C :=
  let s := S.step e n.server
  { server := s
    conns := n.conns.map (fun p => (p.1, { p.2 with
      down := p.2.down ++ packAll S.pack ts (sendsTo p.1 ((S.sent s).drop (S.sent n.server).length)) })) }

/-- A client gets an event; what it sends is under way. -/
def Conn.goOn (ts : UInt64) (e : ClientEvent C.Own) (c : Conn C) : Conn C :=
  let s := C.step e c.client
  { c with client := s, up := c.up ++ packAll C.pack ts ((C.sent s).drop (C.sent c.client).length) }

/-- What can happen: a client connects; the server notices the end of a connection; some bytes arrive at
the server or at a client; the server or a client goes on by itself. -/
inductive Event (S : ServerProg) (C : ClientProg) where
  | opened (u : Uuid)
  | lost (u : Uuid)
  | toServer (u : Uuid) (count : Nat)
  | toClient (u : Uuid) (count : Nat)
  | server (i : S.Own)
  | client (u : Uuid) (i : C.Own)

/-- One event at a time `ts`; one that cannot happen does nothing. -/
def step (n : Net S C) : UInt64 × Event S C → Net S C
  | (ts, .opened u) =>
    if (n.find u).isNone && (sendsTo u (S.sent n.server)).isEmpty then
      Net.serve ts (.opened u) { n with conns := n.conns ++ [(u, ⟨C.new, [], [], [], []⟩)] }
    else n
  | (ts, .lost u) => n.serve ts (.closed u)
  | (ts, .toServer u count) =>
    match n.find u with
    | some c =>
      (n.set u { c with up := c.up.drop count, gotUp := c.gotUp ++ c.up.take count }).serve ts
        (.data u (c.up.take count))
    | none => n
  | (ts, .toClient u count) =>
    match n.find u with
    | some c =>
      if C.waits c.client then
        n.set u (Conn.goOn ts (.data (c.down.take count))
          { c with down := c.down.drop count, gotDown := c.gotDown ++ c.down.take count })
      else n
    | none => n
  | (ts, .server i) => n.serve ts (.own i)
  | (ts, .client u i) =>
    match n.find u with
    | some c => n.set u (c.goOn ts (.own i))
    | none => n

/-- A run. -/
def run (es : List (UInt64 × Event S C)) (n : Net S C) : Net S C := es.foldl step n

end Verif.Network
