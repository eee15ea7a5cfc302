import Verif.Model.RustCodec
import Verif.Model.RustStream
/-!
The generated part of the Rust reader: which declaration decodes a body.
-/
namespace Verif.Rust

open Verif

/-- All message declarations of a protocol: `store.enums` and `store.structs` with their ids, and
the protocol signature (`rust/mod.rs` L738-798). -/
structure Protocol where
  signature : UInt16
  enums : List (UInt32 × Variants)
  structs : List (UInt32 × Fields)

/-- A decoded message together with its declaration, `AvailableMessages`
(`rust/mod.rs` L585-670). -/
inductive Msg where
  | enum (id : UInt32) (vs : Variants) (v : Option vs.Val)
  | struct (id : UInt32) (fs : Fields) (v : fs.Val)

/-- The generated `get_msg`: a `match id` with the enums first, then the structs, then an error
(`rust/mod.rs` L744-788). The first arm with the id is taken. -/
def Protocol.getMsg (p : Protocol) (id : UInt32) (body : Bytes) : Res Msg :=
  match p.enums.lookup id with
  | some vs => do
    let v ← decodeEnum vs body
    pure (.enum id vs v)
  | none =>
    match p.structs.lookup id with
    | some fs => do
      let v ← decode fs body
      pure (.struct id fs v)
    | none => .err

/-- `DecodeBuffer` of the generated `Buffer<AvailableMessages>`. -/
def Protocol.decoder (p : Protocol) : Decoder Msg := ⟨p.signature, p.getMsg⟩

/-- `PackingStruct::pack` / `PackingEnum::pack`, `protocol.packing.rs` L161-177: encode, then
frame with the id of the declaration and the protocol signature. -/
def Protocol.pack (p : Protocol) (m : Msg) (sequence : UInt32) (ts : UInt64) : Res Bytes :=
  match m with
  | .enum id vs v => do
    let body ← encodeEnum vs v
    pure (packBuffer id p.signature sequence ts body)
  | .struct id fs v => do
    let body ← encode fs v
    pure (packBuffer id p.signature sequence ts body)

end Verif.Rust
