import Verif.Model.RustStream
/-!
Vocabulary for statements about byte streams. Only the header record and the little endian
byte order are shared with the model.
-/
namespace Verif.Spec

open Verif Verif.Rust

/-- A frame on the wire: a header and a body of the announced length. -/
structure Frame where
  hdr : Header
  body : Bytes

/-- The header announces the length of the body, and the frame fits into memory. -/
def Frame.Ok (f : Frame) : Prop :=
  f.hdr.len.toNat = f.body.length ∧ f.body.length + 26 < 2 ^ 64

/-- Wire order: id, signature, sequence, timestamp, length. -/
def Frame.bytes (f : Frame) : Bytes :=
  leBytes 4 f.hdr.id.toNat ++ leBytes 2 f.hdr.signature.toNat ++ leBytes 4 f.hdr.sequence.toNat ++
    leBytes 8 f.hdr.ts.toNat ++ leBytes 8 f.hdr.len.toNat ++ f.body

/-- The byte stream of a list of frames. -/
def stream (fs : List Frame) : Bytes := fs.flatMap Frame.bytes

/-- The message a receiver should get from a frame: none if the signature is foreign or the
body does not decode. -/
def delivered {T : Type} (d : Decoder T) (f : Frame) : Option (Income T) :=
  if d.signature = f.hdr.signature then
    match d.getMsg f.hdr.id f.body with
    | .ok t => some ⟨f.hdr, t⟩
    | _ => none
  else none

/-- A frame the receiver can use. -/
def Good {T : Type} (d : Decoder T) (f : Frame) : Prop :=
  f.Ok ∧ d.signature = f.hdr.signature ∧ ∃ t, d.getMsg f.hdr.id f.body = .ok t

/-- What an application does with a reader: feed bytes or fetch a message. -/
inductive ReadOp where
  | feed (c : Bytes)
  | next

/-- All bytes fed by a list of operations. -/
def fed : List ReadOp → Bytes
  | [] => []
  | .feed c :: ops => c ++ fed ops
  | .next :: ops => fed ops

/-- Everything an application observes: the result of each feed, the messages fetched so far,
and the reader left behind. -/
structure Observed (T : Type) where
  results : List ChunkRes
  got : List (Income T)
  reader : Reader T

/-- Run the operations on a reader. A panic ends the run. -/
def observe {T : Type} (d : Decoder T) : List ReadOp → Reader T → Observed T
  | [], r => ⟨[], [], r⟩
  | .feed c :: ops, r =>
    match chunk d r c with
    | (.panic, r') => ⟨[.panic], [], r'⟩
    | (res, r') =>
      let o := observe d ops r'
      ⟨res :: o.results, o.got, o.reader⟩
  | .next :: ops, r =>
    match Rust.next r with
    | (none, r') => observe d ops r'
    | (some m, r') =>
      let o := observe d ops r'
      ⟨o.results, m :: o.got, o.reader⟩

end Verif.Spec
