import Verif.Model.RustClient
import Verif.Model.RustProducer
set_option autoImplicit false
/-!
Generated Rust clients and a generated Rust server that talk to each other. The two programs are those
of `Model.RustClient` and `Model.RustProducer`; here is what connects them: the transport. Its code is
not in the repository; it is called at `cli/src/workflow/render/consumer/rust/render_consumer.rs`
L440-443 (`client.send`) and `cli/src/workflow/render/producer/rust/render_mod.rs` L210-235
(`control.send`).

What is taken for granted about the transport: on one connection bytes arrive in the order in which
they were sent, unchanged; they may arrive late, in pieces of any size that have nothing to do with
messages, or never. Everything else is left open: which tasks go on, when connections are made and
lost, whether a message is taken at all. A connection gets an id that was not used before
(`Uuid::new_v4()`). A client here is one call of `listen`; after a reconnection it is a new one.
-/
namespace Verif.System

open Verif

variable {P : Type}

abbrev Uuid := Server.Uuid

/-- The two programs, their user code and how they pack messages. `up` and `down` are the generated
`pack` of a message with a sequence (`cli/src/protocol/render/rust/` `pack`), at a time. -/
structure Setup (P : Type) where
  server : Server.Cfg P
  env : Server.Env P
  opts : Server.Options
  client : Client.Cfg P
  up : UInt64 → UInt32 → Client.Out P → Bytes
  down : UInt64 → UInt32 → Server.Out P → Bytes

/-- A connection: the client, and the bytes under way to the server and to the client. -/
structure Conn (P : Type) where
  client : Client.State P
  up : Bytes
  down : Bytes

/-- The server, how its loop ended if it did, and all connections there ever were. -/
structure Net (P : Type) where
  exit : Server.Exit
  server : Server.State P
  conns : List (Uuid × Conn P)

/-- The server was started. -/
def Net.new : Net P := ⟨.running, .new, []⟩

/-- The connection of `u`. -/
def Net.find (n : Net P) (u : Uuid) : Option (Conn P) := n.conns.lookup u

/-- The connection of `u` changes. -/
def Net.set (n : Net P) (u : Uuid) (c : Conn P) : Net P :=
  { n with conns := n.conns.map (fun p => if p.1 = u then (u, c) else p) }

/-- What was added to a history. -/
def added {α : Type} (before after : List α) : List α := after.take (after.length - before.length)

/-- What a client passes to the transport; the history is newest first. -/
def sentUp (w : Setup P) (ts : UInt64) : List (Client.Act P) → Bytes
  | [] => []
  | .sent _ q o :: h => sentUp w ts h ++ w.up ts q o
  | _ :: h => sentUp w ts h

/-- What the transport takes from the server for `u`. -/
def sentDown (w : Setup P) (ts : UInt64) (u : Uuid) : List (Server.Act P) → Bytes
  | [] => []
  | .send v q o true :: h => sentDown w ts u h ++ (if v = u then w.down ts q o else [])
  | _ :: h => sentDown w ts u h

/-- `Server.listen` with one more event. -/
def serverStep (w : Setup P) (exit : Server.Exit) (i : Server.Input P) (s : Server.State P) :
    Server.Exit × Server.State P :=
  match exit with
  | .running => Server.listen w.server w.env w.opts [i] s
  | e => (e, s)

/-- The server gets an event; what it sends is under way. -/
def Net.serve (w : Setup P) (ts : UInt64) (i : Server.Input P) (n : Net P) : Net P :=
  let r := serverStep w n.exit i n.server
  { exit := r.1
    server := r.2
    conns := n.conns.map (fun p => (p.1,
      { p.2 with down := p.2.down ++ sentDown w ts p.1 (added n.server.past r.2.past) })) }

/-- A task of the client goes on; what it sends is under way. -/
def Conn.goOn (w : Setup P) (ts : UInt64) (i : Client.Input P) (c : Conn P) : Conn P :=
  let s := Client.step w.client c.client i
  { c with client := s, up := c.up ++ sentUp w ts (added c.client.past s.past) }

/-- Whether the client takes data now. -/
def waits (s : Client.State P) : Bool :=
  match s.msgs with
  | some ⟨_, .idle, _⟩ => true
  | _ => false

/-- Whether the transport ever took a message for `u`. -/
def usedFor (u : Uuid) : List (Server.Act P) → Bool
  | [] => false
  | .send v _ _ true :: h => v = u || usedFor u h
  | _ :: h => usedFor u h

/-- What can happen: a client connects; the server notices the end of a connection; some bytes arrive
at the server or at a client; the server or a client goes on by itself. -/
inductive Event (P : Type) where
  | opened (u : Uuid)
  | lost (u : Uuid)
  | toServer (u : Uuid) (count : Nat)
  | toClient (u : Uuid) (count : Nat)
  | server (i : Server.Input P)
  | client (u : Uuid) (i : Client.Input P)

/-- The events of the server that do not come from a connection. -/
def ownServer : Server.Input P → Bool
  | .connected _ => false
  | .disconnected _ => false
  | .received _ _ => false
  | _ => true

/-- The steps of a client that are not the arrival of data. -/
def ownClient : Client.Input P → Bool
  | .received _ => false
  | _ => true

/-- One event at a time `ts`; one that cannot happen does nothing. -/
def step (w : Setup P) (n : Net P) : UInt64 × Event P → Net P
  | (ts, .opened u) =>
    if (n.find u).isNone && !usedFor u n.server.past then
      Net.serve w ts (.connected u) { n with conns := n.conns ++ [(u, ⟨.new, [], []⟩)] }
    else n
  | (ts, .lost u) => n.serve w ts (.disconnected u)
  | (ts, .toServer u count) =>
    match n.find u with
    | some c => (n.set u { c with up := c.up.drop count }).serve w ts (.received u (c.up.take count))
    | none => n
  | (ts, .toClient u count) =>
    match n.find u with
    | some c =>
      if waits c.client then
        n.set u ({ c with down := c.down.drop count }.goOn w ts (.received (c.down.take count)))
      else n
    | none => n
  | (ts, .server i) => if ownServer i then n.serve w ts i else n
  | (ts, .client u i) =>
    match n.find u with
    | some c => if ownClient i then n.set u (c.goOn w ts i) else n
    | none => n

/-- A run. -/
def run (w : Setup P) (es : List (UInt64 × Event P)) (n : Net P) : Net P := es.foldl (step w) n

end Verif.System
