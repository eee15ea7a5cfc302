import Verif.Proofs.TsStream
import Verif.Props.RustStream
set_option autoImplicit false
/-!
Property theorems C15–C17 and C55: the stream reader in generated TypeScript code. `Ts.Chunk`
models `BufferReader.chunk` as a relation, so that a call that never returns is a call related to
nothing.
-/
namespace Verif.Props

open Verif Verif.Spec Verif.Rust

/-- A decoder for witnesses, like the generated `getMessage`: message 7 with a one byte body,
an exception for every other id. -/
def tsDemoDecoder : Decoder UInt8 where
  signature := 513
  getMsg id body := if id = 7 then (match body with | [b] => .ok b | _ => .err) else .panic

/-- A frame with an id nobody declared. -/
def unknownFrame : Frame := ⟨⟨8, 513, 1, 2, 1⟩, [9]⟩

theorem tsDemo_good (b : UInt8) : Good tsDemoDecoder (demoFrame b) :=
  ⟨⟨rfl, by simp [demoFrame]⟩, rfl, b, rfl⟩

theorem tsDemo_undecodable : Undecodable tsDemoDecoder brokenFrame :=
  ⟨⟨rfl, by simp [brokenFrame]⟩, rfl, rfl⟩

theorem tsDemo_throwing : Throwing tsDemoDecoder unknownFrame :=
  ⟨⟨rfl, by simp [unknownFrame]⟩, rfl, rfl⟩

theorem tsDemo_foreign : Foreign tsDemoDecoder foreignFrame :=
  ⟨⟨rfl, by simp [foreignFrame]⟩, by decide⟩

/-- **C15** A stream of good frames in any chunks, with messages fetched at any time: every call
returns, none reports an error, exactly the messages of the frames arrive in order, nothing is left
over. -/
theorem C15_ts_chunking {T : Type} (d : Decoder T) (fs : List Frame) (hg : ∀ f ∈ fs, Good d f)
    (ops : List ReadOp) (hp : fed ops = stream fs) :
    (∃ es got r', TsRun d ops Reader.new es got r') ∧
    ∀ es got r', TsRun d ops Reader.new es got r' →
      (∀ e ∈ es, e = .returned []) ∧
      got ++ r'.queue = fs.filterMap (delivered d) ∧
      (fs.filterMap (delivered d)).map Income.header = fs.map Frame.hdr ∧
      Ts.len r' = 0 := by
  have hinc : Incomplete fs [] := by
    cases fs with
    | nil => exact Or.inl ⟨rfl, rfl⟩
    | cons f fs =>
      refine Or.inr ⟨f, fs, f.bytes, rfl, by simp, fun h => ?_⟩
      have := congrArg List.length h
      rw [frame_length] at this; simp at this
  obtain ⟨es, got, r', gs, hs, h1, h2, h3, h4, h5, h6⟩ :=
    Ts.run_good d ops fs [] [] hg hinc (by rw [List.nil_append, hp]; exact List.prefix_refl _)
  refine ⟨⟨es, got, r', h1⟩, ?_⟩
  intro es2 got2 r2 hrun
  obtain ⟨rfl, rfl, rfl⟩ := Ts.run_unique d hrun h1
  have hnil : hs = [] ∧ r2.buffer = [] := by
    rw [List.nil_append, hp, h2, stream_append] at h3
    have h7 := List.append_cancel_left h3
    rcases h4 with h | ⟨f, ks, t, rfl, hb, ht⟩
    · exact h
    · rw [stream_cons, hb, List.append_assoc] at h7
      have := congrArg List.length h7
      simp only [List.length_append] at this
      have := List.length_pos_iff.mpr ht
      omega
  obtain ⟨rfl, hb⟩ := hnil
  rw [List.append_nil] at h2
  subst h2
  refine ⟨h5, by simpa using h6, ?_, by simp [Ts.len, hb]⟩
  clear h6 h5 h3 h1 hp hrun hinc h4
  induction fs with
  | nil => rfl
  | cons f fs ih =>
    obtain ⟨t, _, ht⟩ := delivered_good d (hg f (by simp))
    simp [ht, ih (fun g hg' => hg g (by simp [hg']))]

/-- Two frames, byte by byte. -/
example : let ops : List ReadOp := (stream [demoFrame 3, demoFrame 4]).map (fun b => .feed [b])
    fed ops = stream [demoFrame 3, demoFrame 4] ∧
      ∀ f ∈ [demoFrame 3, demoFrame 4], Good tsDemoDecoder f := by
  refine ⟨by decide, ?_⟩
  intro f hf
  simp only [List.mem_cons, List.not_mem_nil, or_false] at hf
  rcases hf with rfl | rfl <;> exact tsDemo_good _

/-- **C16 (violated)** One complete frame with another signature: the call never returns. -/
theorem C16_violated : ∃ bytes : Bytes, ∀ e r',
    ¬ Ts.Chunk tsDemoDecoder Reader.new bytes e r' :=
  ⟨foreignFrame.bytes, Ts.chunk_hangs tsDemoDecoder Reader.new _ [] (by simp) foreignFrame
    tsDemo_foreign [] (by simp [Reader.new, stream])⟩

/-- **C16 (partial)** Full statement: every call of `chunk` ends. Proved: a call ends exactly when
the buffer does not consist of frames the reader can take off followed by a complete frame with a
foreign signature. Missing: such buffers, on which the call runs for ever (`C16_violated`). -/
theorem C16_ts_returns_partial {T : Type} (d : Decoder T) (r : Reader T) (c : Bytes)
    (hb : r.buffer.length + c.length < 2 ^ 64) :
    (∃ e r', Ts.Chunk d r c e r') ↔
      ¬ ∃ fs f rest, (∀ g ∈ fs, Readable d g) ∧ Foreign d f ∧
        r.buffer ++ c = stream fs ++ (f.bytes ++ rest) := by
  constructor
  · rintro ⟨e, r', h⟩ ⟨fs, f, rest, h1, h2, h3⟩
    exact Ts.chunk_hangs d r c fs h1 f h2 rest h3 e r' h
  · intro hno
    obtain ⟨fs, tail, h1, h2, h3⟩ := Ts.shape d (r.buffer ++ c) (by simpa using hb)
    have htl : tail.length < 2 ^ 64 := by
      have := congrArg List.length h2
      simp only [List.length_append] at this
      omega
    rcases h3 with hn | ⟨f, rest, rfl, ht | hf⟩
    · exact ⟨_, _, Ts.chunk_returns d r c fs h1 tail htl hn h2⟩
    · exact ⟨_, _, Ts.chunk_throws d r c fs h1 f ht rest h2⟩
    · exact absurd ⟨fs, f, rest, h1, hf, h2⟩ hno

/-- Both sides of the equivalence occur. -/
example : (∃ e r', Ts.Chunk tsDemoDecoder Reader.new (demoFrame 1).bytes e r') ∧
    ∃ fs f rest, (∀ g ∈ fs, Readable tsDemoDecoder g) ∧ Foreign tsDemoDecoder f ∧
      (Reader.new : Reader UInt8).buffer ++ ((demoFrame 1).bytes ++ foreignFrame.bytes)
        = stream fs ++ (f.bytes ++ rest) := by
  refine ⟨⟨.returned [], ⟨[], [⟨(demoFrame 1).hdr, 1⟩]⟩, 2, rfl⟩,
    [demoFrame 1], foreignFrame, [], ?_, tsDemo_foreign, ?_⟩
  · intro g hg
    simp only [List.mem_cons, List.not_mem_nil, or_false] at hg
    subst hg; exact Or.inl (tsDemo_good 1)
  · simp [Reader.new, stream]

/-- **C17 (violated)** Once a frame on which the decoder throws is at the front of the buffer (the
generated `getMessage` throws for an unknown id), every later call throws and nothing is delivered
any more, whatever good frames follow. -/
theorem C17_violated {T : Type} (d : Decoder T) (f : Frame) (hf : Throwing d f) (c : Bytes)
    (gs : List Frame) (hgs : ∀ g ∈ gs, Good d g) (rest : Bytes)
    (hc : c = stream gs ++ (f.bytes ++ rest)) :
    ∃ r1, Ts.Chunk d Reader.new c .thrown r1 ∧ r1.queue = gs.filterMap (delivered d) ∧
      ∀ ops es got r2, TsRun d ops r1 es got r2 →
        (∀ e ∈ es, e = .thrown) ∧ got ++ r2.queue = r1.queue := by
  refine ⟨_, Ts.chunk_throws d Reader.new c gs (fun g hg => Or.inl (hgs g hg)) f hf rest
    (by simp [Reader.new, hc]), by simp [Reader.new], ?_⟩
  intro ops es got r2 hrun
  obtain ⟨h1, h2, _⟩ := Ts.run_blocked d hrun f hf rest rfl
  exact ⟨h1, h2⟩

/-- The generated decoder is of this kind: an unknown id, then a good frame that never arrives. -/
example : Throwing tsDemoDecoder unknownFrame ∧ Good tsDemoDecoder (demoFrame 5) ∧
    TsRun tsDemoDecoder [.feed unknownFrame.bytes, .feed (demoFrame 5).bytes, .next] Reader.new
      [.thrown, .thrown] [] ⟨unknownFrame.bytes ++ (demoFrame 5).bytes, []⟩ :=
  ⟨tsDemo_throwing, tsDemo_good 5,
    .feed ⟨1, rfl⟩ (.feed ⟨1, rfl⟩ (.empty rfl (.done _)))⟩

/-- **C17 (partial)** Full statement: a frame the receiver cannot use does not block later frames.
Proved: frames whose body is reported as undecodable by an error value are dropped, one error
each, and all good frames around them are delivered by the same call. Missing: frames on which
the decoder throws, which includes unknown ids (`C17_violated`), and foreign signatures
(`C16_violated`). -/
theorem C17_ts_undecodable_partial {T : Type} (d : Decoder T) (r : Reader T) (c : Bytes)
    (fs : List Frame) (hfs : ∀ f ∈ fs, Good d f ∨ Undecodable d f)
    (hc : r.buffer ++ c = stream fs) :
    ∃ errors, Ts.Chunk d r c (.returned errors) ⟨[], r.queue ++ fs.filterMap (delivered d)⟩ ∧
      errors.length = (fs.filter (fun f => (delivered d f).isNone)).length := by
  refine ⟨_, Ts.chunk_returns d r c fs hfs [] (by simp) ?_ (by simpa using hc), by
    simp [Ts.bodyErrors]⟩
  exact Ts.noFrame_of_incomplete (fs := []) (by simp) (Or.inl ⟨rfl, rfl⟩)

example : ∀ f ∈ [demoFrame 1, brokenFrame, demoFrame 2],
    Good tsDemoDecoder f ∨ Undecodable tsDemoDecoder f := by
  intro f hf
  simp only [List.mem_cons, List.not_mem_nil, or_false] at hf
  rcases hf with rfl | rfl | rfl
  · exact Or.inl (tsDemo_good 1)
  · exact Or.inr tsDemo_undecodable
  · exact Or.inl (tsDemo_good 2)

/-- **C55** Soundness of the TypeScript reader over arbitrary streams: in every run whose calls
end, the bytes fed are frames of this protocol followed by the pending bytes, and the messages
handed out or queued are exactly the decodings of the frames that decode, in order. -/
theorem C55_ts_reader_sound {T : Type} (d : Decoder T) (ops : List ReadOp)
    (hb : (fed ops).length < 2 ^ 64) (es : List Ts.TsEnd) (got : List (Income T)) (r' : Reader T)
    (h : TsRun d ops Reader.new es got r') :
    ∃ fs : List Frame, (∀ f ∈ fs, f.Ok ∧ f.hdr.signature = d.signature) ∧
      fed ops = stream fs ++ r'.buffer ∧ got ++ r'.queue = fs.filterMap (delivered d) := by
  obtain ⟨fs, h1, h2, h3⟩ := Ts.run_sound d h (by simpa [Reader.new] using hb)
  refine ⟨fs, ?_, by simpa [Reader.new] using h2, by simpa [Reader.new] using h3⟩
  intro f hf
  rcases h1 f hf with h | h
  · exact ⟨h.1, h.2.1.symm⟩
  · exact ⟨h.1, h.2.1.symm⟩

example : TsRun tsDemoDecoder
    [.feed (brokenFrame.bytes ++ (demoFrame 5).bytes ++ [1, 2]), .next] Reader.new
    [.returned [.body]] [⟨(demoFrame 5).hdr, 5⟩] ⟨[1, 2], []⟩ :=
  .feed ⟨3, rfl⟩ (.fetch rfl (.done _))

end Verif.Props
