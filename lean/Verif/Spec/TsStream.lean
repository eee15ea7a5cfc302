import Verif.Spec.Stream
import Verif.Model.TsStream
/-!
Vocabulary for statements about the TypeScript reader. Frames, streams and what a frame should
deliver are those of `Spec/Stream.lean`.
-/
namespace Verif.Spec

open Verif Verif.Rust

/-- An application feeds bytes to a TypeScript reader and fetches messages: the ends of the feeds,
the messages fetched, the reader left behind. A run with a feed that never ends does not exist. -/
inductive TsRun {T : Type} (d : Decoder T) :
    List ReadOp → Reader T → List Ts.TsEnd → List (Income T) → Reader T → Prop where
  | done (r : Reader T) : TsRun d [] r [] [] r
  | feed {c ops r e r1 es got r2} : Ts.Chunk d r c e r1 → TsRun d ops r1 es got r2 →
      TsRun d (.feed c :: ops) r (e :: es) got r2
  | empty {ops r r1 es got r2} : Ts.next r = (none, r1) → TsRun d ops r1 es got r2 →
      TsRun d (.next :: ops) r es got r2
  | fetch {ops r m r1 es got r2} : Ts.next r = (some m, r1) → TsRun d ops r1 es got r2 →
      TsRun d (.next :: ops) r es (m :: got) r2

/-- A frame of this protocol whose body does not decode, with an error result and without an
exception. -/
def Undecodable {T : Type} (d : Decoder T) (f : Frame) : Prop :=
  f.Ok ∧ d.signature = f.hdr.signature ∧ d.getMsg f.hdr.id f.body = .err

/-- A frame of this protocol on which the decoder throws. -/
def Throwing {T : Type} (d : Decoder T) (f : Frame) : Prop :=
  f.Ok ∧ d.signature = f.hdr.signature ∧ d.getMsg f.hdr.id f.body = .panic

/-- A frame with the signature of another protocol. -/
def Foreign {T : Type} (d : Decoder T) (f : Frame) : Prop :=
  f.Ok ∧ d.signature ≠ f.hdr.signature

/-- A frame the reader takes off its buffer. -/
def Readable {T : Type} (d : Decoder T) (f : Frame) : Prop := Good d f ∨ Undecodable d f

/-- No complete frame at the front. -/
def NoFrame (b : Bytes) : Prop := ∀ f : Frame, f.Ok → ¬ f.bytes <+: b

end Verif.Spec
