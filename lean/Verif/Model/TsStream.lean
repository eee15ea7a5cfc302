import Verif.Model.RustStream
/-!
Model of the stream reader in generated TypeScript code: `packing.ts` and `packing.header.ts`
under `cli/src/protocol/render/typescript/static/`. Both languages use one header layout, so the
records `Header`, `Income`, `Reader` and `Decoder` of the Rust model are used again. The result
`panic` of a decoder stands for a thrown exception here.
-/
namespace Verif.Ts

open Verif Verif.Rust

/-- `MessageHeader.SIZE`, `packing.header.ts` L3-12. -/
def headerSize : Nat := 4 + 2 + 4 + 8 + 8

/-- `MessageHeader.enow`, `packing.header.ts` L48-50. -/
def enow (buf : Bytes) : Bool := decide (buf.length ≥ headerSize)

/-- Constructor of `MessageHeader`, `packing.header.ts` L20-46: id at 0, signature at 4, sequence
at 6, timestamp at 10, length at 18. `Number(...)` of the length (L38) rounds values from 2^53
on; such a length is larger than any buffer before and after rounding, so it is kept exact. -/
def tsHeader (buf : Bytes) : Header where
  id := UInt32.ofNat (leNat (buf.take 4))
  signature := UInt16.ofNat (leNat ((buf.drop 4).take 2))
  sequence := UInt32.ofNat (leNat ((buf.drop (4 + 2)).take 4))
  ts := UInt64.ofNat (leNat ((buf.drop (4 + 2 + 4)).take 8))
  len := UInt64.ofNat (leNat ((buf.drop (4 + 2 + 4 + 8)).take 8))

/-- The errors `chunk` collects: `packing.ts` L47-56 (signature) and L81 (error returned by
`getMessage`). Texts are left out. -/
inductive TsErr where
  | signature (id : UInt32)
  | body
  deriving DecidableEq, Repr

/-- One round of the `do … while (true)` of `chunk`. -/
inductive Round (T : Type) where
  | stop
  | again (r : Reader T) (errors : List TsErr)
  | throw

/-- One round, `packing.ts` L37-91. The middleware is absent (`packing.middleware.ts` returns
`undefined` unless one is installed), so the body is the slice at L72-75. A foreign signature
only pushes an error (L46-56): the buffer is cut in the other branch (L87-89) alone. An exception
in `getMessage` (L79) leaves the method before the cut. -/
def round {T : Type} (d : Decoder T) (r : Reader T) : Round T :=
  if !enow r.buffer then .stop
  else
    let header := tsHeader (r.buffer.take headerSize)
    if r.buffer.length < header.len.toNat + headerSize then .stop
    else if header.signature ≠ d.signature then .again r [.signature header.id]
    else
      let body := (r.buffer.drop headerSize).take header.len.toNat
      let rest := r.buffer.drop (headerSize + header.len.toNat)
      match d.getMsg header.id body with
      | .ok msg => .again ⟨rest, r.queue ++ [⟨header, msg⟩]⟩ []
      | .err => .again ⟨rest, r.queue⟩ [.body]
      | .panic => .throw

/-- How a call of `chunk` ends: it returns the collected errors (`undefined` for none), or an
exception leaves it. -/
inductive TsEnd where
  | returned (errors : List TsErr)
  | thrown
  deriving DecidableEq, Repr

/-- At most `n` rounds of the loop, `packing.ts` L37-92. `none`: the loop is still running. -/
def loop {T : Type} (d : Decoder T) : Nat → Reader T → List TsErr → Option (TsEnd × Reader T)
  | 0, _, _ => none
  | n + 1, r, errs =>
    match round d r with
    | .stop => some (.returned errs, r)
    | .throw => some (.thrown, r)
    | .again r' es => loop d n r' (errs ++ es)

/-- `BufferReader.chunk`, `packing.ts` L27-93: the call ends with `e` and leaves `r'`. A call that
never ends is related to nothing. -/
def Chunk {T : Type} (d : Decoder T) (r : Reader T) (c : Bytes) (e : TsEnd) (r' : Reader T) : Prop :=
  ∃ n, loop d n ⟨r.buffer ++ c, r.queue⟩ [] = some (e, r')

/-- `BufferReader.next`, `packing.ts` L109-113. -/
def next {T : Type} (r : Reader T) : Option (Income T) × Reader T :=
  match r.queue with
  | [] => (none, r)
  | m :: q => (some m, ⟨r.buffer, q⟩)

/-- `BufferReader.pending`, `packing.ts` L101-103. -/
def pending {T : Type} (r : Reader T) : Nat := r.queue.length

/-- `BufferReader.len`, `packing.ts` L105-107. -/
def len {T : Type} (r : Reader T) : Nat := r.buffer.length

/-- `BufferReader.destroy`, `packing.ts` L95-99. -/
def destroy {T : Type} (_ : Reader T) : Reader T := ⟨[], []⟩

end Verif.Ts
