import Verif.Model.TsCodec
import Verif.Model.TsStream
import Verif.Model.RustDispatch
set_option autoImplicit false
/-!
The generated part of the TypeScript reader, and packing in TypeScript. `Protocol` and `Msg` are
those of the Rust model.
-/
namespace Verif.Ts

open Verif Verif.Rust

/-- The generated `getMessage`, `ts/mod.rs` L1623-1681: enums first, then structs; an unknown id
throws. -/
def getMessage (p : Protocol) (id : UInt32) (body : Bytes) : Res Msg :=
  match p.enums.lookup id with
  | some vs => do
    let v ← decodeEnum vs body
    pure (.enum id vs v)
  | none =>
    match p.structs.lookup id with
    | some fs => do
      let v ← decode fs body
      pure (.struct id fs v)
    | none => .panic

/-- The generated `BufferReaderMessages`. -/
def decoder (p : Protocol) : Decoder Msg := ⟨p.signature, getMessage p⟩

/-- The frame built by `pack`, `protocol.convertor.ts` L204-260: id, signature, sequence,
timestamp (milliseconds here, seconds in Rust), length, body. -/
def frameBytes (id : UInt32) (signature : UInt16) (sequence : UInt32) (ts : UInt64) (body : Bytes) :
    Bytes :=
  leBytes 4 id.toNat ++ (leBytes 2 signature.toNat ++ (leBytes 4 sequence.toNat ++
    (leBytes 8 ts.toNat ++ (leBytes 8 body.length ++ body))))

/-- `pack` of a struct (`protocol.convertor.ts` L204-260) and of an enum
(`protocol.primitives.enum.ts` L106-163), without packing middleware. -/
def pack (p : Protocol) (m : Msg) (sequence : UInt32) (ts : UInt64) : Res Bytes :=
  match m with
  | .enum id vs v => do
    let body ← encodeEnum vs v
    pure (frameBytes id p.signature sequence ts body)
  | .struct id fs v => do
    let body ← encode fs v
    pure (frameBytes id p.signature sequence ts body)

end Verif.Ts
