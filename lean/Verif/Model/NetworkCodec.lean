import Verif.Model.SystemCodec
import Verif.Model.NetworkPrograms
import Verif.Model.TsDispatch
import Verif.Model.TsValidate
set_option autoImplicit false
/-!
The generated TypeScript codec between clients and server of `Model.Network`: how values look in
JavaScript, how the messages of the programs are packed, and what the programs see of a decoded message.
`ts/mod.rs` is `cli/src/protocol/render/typescript/mod.rs`.
-/
namespace Verif.Network

open Verif Verif.Ts
open Verif.TsServer (Js)

/-! ### From declared types to JavaScript -/

/-- The properties of an array: its positions. -/
def items : Nat → List Js → List (List Char × Js)
  | _, [] => []
  | i, x :: xs => (Nat.toDigits 10 i, x) :: items (i + 1) xs

/-- A value, or an array of values. -/
def showRep {α : Type} (f : α → Js) : (rep : Bool) → Rep α rep → Js
  | false, v => f v
  | true, vs => .obj (items 0 (vs.map f))

/-- A property; it is `undefined` if the value is absent. -/
def showOpt {α : Type} (name : List Char) (f : α → Js) : (opt : Bool) → Opt α opt → List (List Char × Js)
  | false, v => [(name, f v)]
  | true, some v => [(name, f v)]
  | true, none => []

mutual
/-- The value a decoded element has in JavaScript, `get_field_decode`, `ts/mod.rs` L1150-1321: a struct is
an instance of its class with its properties (L97-107; the private enum objects L109-122 always agree with
them here), an enum is the object `get` returns (L368-398, L704-721), whose only property is the option. -/
def showOne : (e : NElem) → e.erase.Val → Js
  | .num _, v => .num v.val
  | .bool, v => .bool v
  | .str, v => .str v
  | .struct _ _ fs, v => .obj (showFields fs v)
  | .enum vs, v => .obj (showEnum vs v)
/-- The properties of a struct, `ts/mod.rs` L97-107. -/
def showFields : (fs : NFields) → fs.erase.Val → List (List Char × Js)
  | .nil, _ => []
  | .cons name _ e rep opt rest, v => showOpt name (showRep (showOne e) rep) opt v.1 ++ showFields rest v.2
/-- The properties of an enum, `ts/mod.rs` L368-398. -/
def showEnum : (vs : NVariants) → Option vs.erase.Val → List (List Char × Js)
  | .nil, _ => []
  | .cons name e rep rest, v =>
    match v with
    | none => []
    | some (.inl x) => [(name, showRep (showOne e) rep x)]
    | some (.inr w) => showEnum rest (some w)
end

/-! ### From JavaScript to declared types -/

/-- All or nothing. -/
def readAll {α : Type} (f : Js → Option α) : List (List Char × Js) → Option (List α)
  | [] => some []
  | p :: ps =>
    match f p.2, readAll f ps with
    | some x, some xs => some (x :: xs)
    | _, _ => none

/-- A value, or an array of values. -/
def readRep {α : Type} (f : Js → Option α) : (rep : Bool) → Js → Option (Rep α rep)
  | false, x => f x
  | true, .obj ps => readAll f ps
  | true, _ => none

/-- A property; the value is absent if it is `undefined`. -/
def readOpt {α : Type} (f : Js → Option α) : (opt : Bool) → Option Js → Option (Opt α opt)
  | false, some x => f x
  | false, none => none
  | true, some x => (f x).map some
  | true, none => some none

mutual
/-- The value that is encoded for a JavaScript value, `get_field_encode`, `ts/mod.rs` L1337-1380. Values
that do not have the declared type are `none`; what the code does with those is in `Model.TsValidate`. -/
def readOne : (e : NElem) → Js → Option e.erase.Val
  | .num n, .num b => if h : b < 256 ^ n.size then some ⟨b, h⟩ else none
  | .bool, .bool b => some b
  | .str, .str s => some s
  | .struct _ _ fs, .obj ps => readFields fs (fun n => ps.lookup n)
  | .enum vs, .obj ps => readEnum vs (fun n => ps.lookup n)
  | _, _ => none
/-- The fields of a struct, `ts/mod.rs` L175-195. -/
def readFields : (fs : NFields) → (List Char → Option Js) → Option fs.erase.Val
  | .nil, _ => some ()
  | .cons name _ e rep opt rest, get =>
    match readOpt (readRep (readOne e) rep) opt (get name), readFields rest get with
    | some x, some xs => some (x, xs)
    | _, _ => none
/-- The option of an enum, `set`, `ts/mod.rs` L309-367. -/
def readEnum : (vs : NVariants) → (List Char → Option Js) → Option (Option vs.erase.Val)
  | .nil, _ => some none
  | .cons name e rep rest, get =>
    match get name with
    | some x => (readRep (readOne e) rep x).map (fun v => some (.inl v))
    | none => (readEnum rest get).map (Option.map .inr)
end

/-! ### Messages -/

/-- The generated codec with the names TypeScript code uses: of the fields and options of all
declarations. The texts of the protocol are those of `System.Codec`. -/
structure Codec where
  codec : System.Codec
  enums : List (UInt32 × NVariants)
  structs : List (UInt32 × NFields)

/-- The generated `getMessage`, `ts/mod.rs` L1623-1681, with the names of groups around the instance
(L1608-1621). -/
def Codec.getMsg (cd : Codec) (id : UInt32) (body : Bytes) : Res TsServer.Msg :=
  match cd.enums.lookup id with
  | some vs => do
    let v ← Ts.decodeEnum vs.erase body
    pure ⟨Flow.splitDot (cd.codec.name id), .obj (showEnum vs v)⟩
  | none =>
    match cd.structs.lookup id with
    | some fs => do
      let v ← Ts.decode fs.erase body
      pure ⟨Flow.splitDot (cd.codec.name id), .obj (showFields fs v)⟩
    | none => .panic

/-- The generated `BufferReaderMessages`. -/
def Codec.decoder (cd : Codec) : Rust.Decoder TsServer.Msg := ⟨cd.codec.protocol.signature, cd.getMsg⟩

/-- The message user code passes as `ref`: the class with this name is used to pack it,
`cli/src/protocol/render/typescript/static/protocol.convertor.ts` L204-260. -/
def Codec.read (cd : Codec) (ref : Flow.Ref) : Js → Option Rust.Msg
  | .obj ps =>
    match cd.codec.names.find? (fun p => p.2 == ref) with
    | none => none
    | some (id, _) =>
      match cd.enums.lookup id with
      | some vs => (readEnum vs (fun n => ps.lookup n)).map (fun v => .enum id vs.erase v)
      | none =>
        match cd.structs.lookup id with
        | some fs => (readFields fs (fun n => ps.lookup n)).map (fun v => .struct id fs.erase v)
        | none => none
  | _ => none

/-- `pack` of a TypeScript message; one that cannot be packed is not sent. -/
def Codec.pack (cd : Codec) (m : Option Rust.Msg) (q : UInt32) (ts : UInt64) : Bytes :=
  match m with
  | none => []
  | some m =>
    match Ts.pack cd.codec.protocol m q ts with
    | .ok b => b
    | _ => []

/-- What a TypeScript client sends, `cli/src/workflow/render/consumer/typescript/render_consumer.rs`
L168-206: the key of the options, the hashes of the generated code, messages of user code. -/
def Codec.call (cd : Codec) : TsClient.Out → Option Rust.Msg
  | .selfKey => some cd.codec.key
  | .hash => some (cd.codec.call .hash)
  | .msg ref body => cd.read ref body

/-- The text of a wrong hash, `cli/src/workflow/render/producer/typescript/render_mod.rs` L306. -/
def invalidHashText : List Char := "Invalid hash".toList

/-- What a TypeScript server sends, `render_mod.rs` L264-267, L304-307, `render_beacon_emitter.rs` L24-27,
and messages of user code. -/
def Codec.answer (cd : Codec) : TsServer.Out → Option Rust.Msg
  | .selfKey u => some (cd.codec.answer (.selfKey u))
  | .hash e => some (.struct cd.codec.hashResponse.1 (System.maybeText cd.codec.hashResponse.2)
      (if e then some invalidHashText else none, ()))
  | .beacon => some (cd.codec.answer .beacon)
  | .msg ref body => cd.read ref body

/-! ### The programs with this codec -/

/-- The TypeScript client. -/
abbrev Codec.tsClient (cd : Codec) (cfg : TsClient.Cfg) (env : TsClient.Env) : ClientProg :=
  Network.tsClient { cfg with decoder := cd.decoder } env (fun ts q o => cd.pack (cd.call o) q ts)

/-- The Rust server; its messages are packed by Rust code. -/
abbrev Codec.rustServer (cd : Codec) (cfg : Server.Cfg Rust.Msg) (env : Server.Env Rust.Msg) (opts : Server.Options) : ServerProg :=
  Network.rustServer { cfg with
      decoder := System.mapDecoder cd.codec.protocol.decoder cd.codec.seenByServer
      selfKey := cd.codec.name (System.msgId cd.codec.key) } env opts
    (fun ts q o => cd.codec.pack (cd.codec.answer o) q ts)

/-- The TypeScript server. -/
abbrev Codec.tsServer (cd : Codec) (cfg : TsServer.Cfg) (env : TsServer.Env) (opts : Server.Options)
    (takes : List TsServer.Act → Uuid → UInt32 → TsServer.Out → Bool) : ServerProg :=
  Network.tsServer { cfg with
      decoder := cd.decoder
      selfKey := cd.codec.name (System.msgId cd.codec.key) } env opts takes
    (fun ts q o => cd.pack (cd.answer o) q ts)

/-- The Rust client; its messages are packed by Rust code. -/
abbrev Codec.rustClient (cd : Codec) (cfg : Client.Cfg Rust.Msg) : ClientProg :=
  Network.rustClient { cfg with decoder := System.mapDecoder cd.codec.protocol.decoder cd.codec.seenByClient }
    (fun ts q o => cd.codec.pack (cd.codec.call o) q ts)

end Verif.Network
