import Verif.Model.Bytes
/-!
Model of framing in generated Rust code: `protocol.packing.rs` and `protocol.buffer.rs` under
`cli/src/protocol/render/rust/static/`.
-/
namespace Verif.Rust

open Verif

/-- `PackageHeader`, `protocol.packing.rs` L55-63. `len_usize` is `len` on 64 bit targets
(`usize::try_from` at L84 cannot fail) and is left out. -/
structure Header where
  id : UInt32
  signature : UInt16
  sequence : UInt32
  ts : UInt64
  len : UInt64
  deriving DecidableEq, Repr

/-- `MSG_HEADER_LEN`, `protocol.packing.rs` L9-13. -/
def headerLen : Nat := 4 + 2 + 4 + 8 + 8

/-- `pack_buffer`, `protocol.packing.rs` L133-159. The clock (`SystemTime::now`, L146) is the
argument `ts`; the middleware is the identity (L34-53). `buffer.len() as u64` cannot truncate
for a vector in memory. -/
def packBuffer (id : UInt32) (signature : UInt16) (sequence : UInt32) (ts : UInt64)
    (body : Bytes) : Bytes :=
  leBytes 4 id.toNat ++ leBytes 2 signature.toNat ++ leBytes 4 sequence.toNat ++
    leBytes 8 ts.toNat ++ leBytes 8 body.length ++ body

/-- `has_buffer_header`, `protocol.packing.rs` L65-67. -/
def hasHeader (buf : Bytes) : Bool := decide (headerLen ≤ buf.length)

/-- The five reads of `get_header_from_buffer`, `protocol.packing.rs` L74-83: id, signature,
sequence, timestamp, length. -/
def getHeader (buf : Bytes) : Header where
  id := UInt32.ofNat (leNat (buf.take 4))
  signature := UInt16.ofNat (leNat ((buf.drop 4).take 2))
  sequence := UInt32.ofNat (leNat ((buf.drop 6).take 4))
  ts := UInt64.ofNat (leNat ((buf.drop 10).take 8))
  len := UInt64.ofNat (leNat ((buf.drop 18).take 8))

/-- `IncomeMessage`, `protocol.buffer.rs` L13-17. -/
structure Income (T : Type) where
  header : Header
  msg : T

/-- The decoding half of a protocol: `get_signature` and `get_msg` of `DecodeBuffer`
(`protocol.buffer.rs` L19-22, generated by `rust/mod.rs` L738-798). -/
structure Decoder (T : Type) where
  signature : UInt16
  getMsg : UInt32 → Bytes → Res T

/-- `Buffer`, `protocol.buffer.rs` L24-27. -/
structure Reader (T : Type) where
  buffer : Bytes
  queue : List (Income T)

/-- `Buffer::new`, `protocol.buffer.rs` L53-58. -/
def Reader.new {T : Type} : Reader T := ⟨[], []⟩

/-- Result of `chunk`: `Ok(())`, one of the `ReadError`s (`protocol.buffer.rs` L7-11), or a
panic. -/
inductive ChunkRes where
  | ok
  | parsing
  | signature
  | panic
  deriving DecidableEq, Repr

/-- The body of `chunk` after the new bytes were appended (`protocol.buffer.rs` L64-95) with
`get_message` (L35-51), `has_buffer_body` and `get_body_from_buffer`
(`protocol.packing.rs` L100-121). `header.len_usize + MSG_HEADER_LEN` overflows for lengths at
the end of the range: panic in debug builds, in release builds the wrapped sum passes the check
and `vec![0; len]` panics. The recursion `self.chunk(&vec![], uuid)` is the recursive call;
`fuel` bounds its depth, every level removes at least a header. Not modelled: stack exhaustion
by this recursion. -/
def chunkLoop {T : Type} (d : Decoder T) : Nat → Reader T → ChunkRes × Reader T
  | 0, r => (.ok, r)
  | fuel + 1, r =>
    if !hasHeader r.buffer then (.ok, r)
    else
      let header := getHeader r.buffer
      if header.len.toNat + headerLen ≥ 2 ^ 64 then (.panic, r)
      else if r.buffer.length < header.len.toNat + headerLen then (.ok, r)
      else
        let body := (r.buffer.drop headerLen).take header.len.toNat
        let rest := r.buffer.drop (headerLen + header.len.toNat)
        if d.signature ≠ header.signature then (.signature, ⟨rest, r.queue⟩)
        else
          match d.getMsg header.id body with
          | .ok msg =>
            let r' : Reader T := ⟨rest, r.queue ++ [⟨header, msg⟩]⟩
            if rest.isEmpty then (.ok, r') else chunkLoop d fuel r'
          | .err => (.parsing, ⟨rest, r.queue⟩)
          | .panic => (.panic, ⟨rest, r.queue⟩)

/-- `Buffer::chunk`, `protocol.buffer.rs` L61-95. -/
def chunk {T : Type} (d : Decoder T) (r : Reader T) (bytes : Bytes) : ChunkRes × Reader T :=
  chunkLoop d (r.buffer.length + bytes.length) ⟨r.buffer ++ bytes, r.queue⟩

/-- `Buffer::next`, `protocol.buffer.rs` L98-109. -/
def next {T : Type} (r : Reader T) : Option (Income T) × Reader T :=
  match r.queue with
  | [] => (none, r)
  | m :: q => (some m, ⟨r.buffer, q⟩)

/-- `Buffer::len`, `protocol.buffer.rs` L111-113. -/
def bufLen {T : Type} (r : Reader T) : Nat := r.buffer.length

/-- `Buffer::pending`, `protocol.buffer.rs` L115-117. -/
def pending {T : Type} (r : Reader T) : Nat := r.queue.length

end Verif.Rust
