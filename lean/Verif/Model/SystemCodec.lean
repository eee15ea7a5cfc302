import Verif.Model.System
import Verif.Model.RustDispatch
set_option autoImplicit false
/-!
The generated Rust codec between clients and server: how the messages of `Model.System` are packed,
and what the two programs see of a decoded message.
-/
namespace Verif.System

open Verif

/-- The id of a message: `get_id`, `cli/src/protocol/render/rust/mod.rs` L163-168, L373-378. -/
def msgId : Rust.Msg → UInt32
  | .enum id _ _ => id
  | .struct id _ _ => id

/-- The text fields of a struct. Used for structs that have nothing else: those of the group
`InternalServiceGroup`, `cli/src/workflow/config.rs` L138-229. -/
def texts : (fs : Fields) → fs.Val → List (Option (List Char))
  | .nil, _ => []
  | .cons _ .str false false rest, (x, v) => some x :: texts rest v
  | .cons _ .str false true rest, (x, v) => x :: texts rest v
  | .cons _ _ _ _ rest, (_, v) => texts rest v

def msgTexts : Rust.Msg → List (Option (List Char))
  | .enum _ _ _ => []
  | .struct _ fs v => texts fs v

/-- What is generated from a protocol with the structs `Config::close` adds to it
(`cli/src/workflow/config.rs` L136-233). `names` are the dotted names of all declarations. The ids of
the added structs and of their fields were given by `add_service_struct`
(`cli/src/protocol/store.rs` L40-95). `key` is `options.key` of the client, of the type of the self
key; `hashes` are the constants `hash::PROTOCOL` and `hash::WORKFLOW` of the client; `uuid` is
`Uuid::to_string`. -/
structure Codec where
  protocol : Rust.Protocol
  names : List (UInt32 × Flow.Ref)
  confirmation : UInt32
  selfKeyResponse : UInt32 × UInt16
  hashRequest : UInt32 × UInt16 × UInt16
  hashResponse : UInt32 × UInt16
  beaconConfirmation : UInt32 × UInt16
  key : Rust.Msg
  hashes : List Char × List Char
  uuid : Uuid → List Char

/-- A struct with one text. -/
def oneText (f : UInt16) : Fields := .cons f .str false false .nil

/-- A struct with one optional text. -/
def maybeText (f : UInt16) : Fields := .cons f .str false true .nil

/-- The struct `HashRequest`, `config.rs` L198-212. -/
def hashFields (a b : UInt16) : Fields := .cons a .str false false (.cons b .str false false .nil)

/-- The text of a wrong hash, `cli/src/workflow/render/producer/rust/render_mod.rs` L526. -/
def wrongHashText : List Char := "Hash is invalid".toList

/-- The name of a declaration. -/
def Codec.name (cd : Codec) (id : UInt32) : Flow.Ref := (cd.names.lookup id).getD []

/-- What a client sends, `cli/src/workflow/render/consumer/rust/render_consumer.rs` L637-642 and
L672-681, `render_controller.rs` L41-49, L66-73. -/
def Codec.call (cd : Codec) : Client.Out Rust.Msg → Rust.Msg
  | .selfKey => cd.key
  | .hash => .struct cd.hashRequest.1 (hashFields cd.hashRequest.2.1 cd.hashRequest.2.2)
      (cd.hashes.1, cd.hashes.2, ())
  | .msg _ _ body => body

/-- What the server sends: `render_mod.rs` L460-463, L524-531, L811-813, `render_beacon_emitter.rs`
L25. -/
def Codec.answer (cd : Codec) : Server.Out Rust.Msg → Rust.Msg
  | .confirmation => .struct cd.confirmation .nil ()
  | .selfKey u => .struct cd.selfKeyResponse.1 (oneText cd.selfKeyResponse.2) (cd.uuid u, ())
  | .hash e => .struct cd.hashResponse.1 (maybeText cd.hashResponse.2) (if e then some wrongHashText else none, ())
  | .beacon => .struct cd.beaconConfirmation.1 (maybeText cd.beaconConfirmation.2) (none, ())
  | .msg _ body => body

/-- The bytes of a message; messages that cannot be packed are not sent. -/
def Codec.pack (cd : Codec) (m : Rust.Msg) (q : UInt32) (ts : UInt64) : Bytes :=
  match cd.protocol.pack m q ts with
  | .ok b => b
  | _ => []

/-- The `match` of the server on a message, `render_mod.rs` L447, L489. -/
def Codec.seenByServer (cd : Codec) (m : Rust.Msg) : Server.In Rust.Msg :=
  if msgId m = cd.hashRequest.1 then
    .hash ((((msgTexts m)[0]?).getD none).getD []) ((((msgTexts m)[1]?).getD none).getD [])
  else .msg (cd.name (msgId m)) m

/-- The matches of the client on a message, `render_consumer.rs` L526, L652, L691,
`render_controller.rs` L52-57. -/
def Codec.seenByClient (cd : Codec) (m : Rust.Msg) : Client.In Rust.Msg :=
  if msgId m = cd.confirmation then .confirmation
  else if msgId m = cd.selfKeyResponse.1 then .selfKey ((((msgTexts m)[0]?).getD none).getD [])
  else if msgId m = cd.hashResponse.1 then .hash (((msgTexts m)[0]?).getD none).isSome
  else if msgId m = cd.beaconConfirmation.1 then .beacon (((msgTexts m)[0]?).getD none).isSome
  else .msg (cd.name (msgId m)) m

/-- A decoder followed by a function. -/
def mapDecoder {A B : Type} (d : Rust.Decoder A) (g : A → B) : Rust.Decoder B where
  signature := d.signature
  getMsg id body := match d.getMsg id body with
    | .ok m => .ok (g m)
    | .err => .err
    | .panic => .panic

/-- The two programs with this codec. -/
def Codec.setup (cd : Codec) (w : Setup Rust.Msg) : Setup Rust.Msg :=
  { w with
    server := { w.server with
      decoder := mapDecoder cd.protocol.decoder cd.seenByServer
      selfKey := cd.name (msgId cd.key) }
    client := { w.client with decoder := mapDecoder cd.protocol.decoder cd.seenByClient }
    up := fun ts q o => cd.pack (cd.call o) q ts
    down := fun ts q o => cd.pack (cd.answer o) q ts }

end Verif.System
