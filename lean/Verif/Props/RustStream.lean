import Verif.Proofs.RustReader
import Verif.Props.RustCodec
import Verif.Model.RustDispatch
/-!
Property theorems C09–C14, C52, C54: framing and the stream reader in generated Rust code.
`Reader`, `chunk`, `next` model `Buffer`, `Buffer::chunk`, `Buffer::next`. The decoder of the
messages is arbitrary (`Decoder T`); C54 instantiates it with the generated one.
-/
namespace Verif.Props

open Verif Verif.Spec Verif.Rust

/-- A decoder for witnesses: message 7 with a one byte body. -/
def demoDecoder : Decoder UInt8 where
  signature := 513
  getMsg id body := if id = 7 then (match body with | [b] => .ok b | _ => .err) else .err

/-- A good frame for `demoDecoder`. -/
def demoFrame (b : UInt8) : Frame := ⟨⟨7, 513, 1, 2, 1⟩, [b]⟩

/-- A frame with a wrong signature. -/
def foreignFrame : Frame := ⟨⟨7, 514, 1, 2, 1⟩, [9]⟩

/-- A frame that does not decode. -/
def brokenFrame : Frame := ⟨⟨7, 513, 1, 2, 2⟩, [9, 9]⟩

theorem demoFrame_good (b : UInt8) : Good demoDecoder (demoFrame b) :=
  ⟨⟨rfl, by simp [demoFrame]⟩, rfl, b, rfl⟩

/-- **C09** A packed frame starts with a header that carries exactly the packed id, signature,
sequence, timestamp and body length, followed by the body and then whatever follows. -/
theorem C09_rust_frame_round_trip (id : UInt32) (sg : UInt16) (sq : UInt32) (ts : UInt64)
    (body rest : Bytes) (hl : body.length < 2 ^ 64) :
    let bytes := packBuffer id sg sq ts body
    let h := getHeader (bytes ++ rest)
    hasHeader (bytes ++ rest) = true ∧ h.id = id ∧ h.signature = sg ∧ h.sequence = sq ∧
      h.ts = ts ∧ h.len.toNat = body.length ∧
      ((bytes ++ rest).drop headerLen).take h.len.toNat = body ∧
      (bytes ++ rest).drop (headerLen + h.len.toNat) = rest := by
  have hlen : (UInt64.ofNat body.length).toNat = body.length := by
    simp only [UInt64.toNat_ofNat']; exact Nat.mod_eq_of_lt hl
  have hp : packBuffer id sg sq ts body
      = Frame.bytes ⟨⟨id, sg, sq, ts, UInt64.ofNat body.length⟩, body⟩ := by
    simp only [packBuffer, Frame.bytes, hlen]
  simp only [hp, getHeader_frame, hlen]
  refine ⟨?_, trivial, trivial, trivial, trivial, trivial, ?_, ?_⟩
  · rw [hasHeader_iff, List.length_append, frame_length]; omega
  · have : (Frame.bytes ⟨⟨id, sg, sq, ts, UInt64.ofNat body.length⟩, body⟩ ++ rest).drop headerLen
        = body ++ rest := by
      rw [Frame.bytes, List.append_assoc, List.drop_left' (by simp [headerLen])]
    rw [this, List.take_left' rfl]
  · rw [List.drop_left' (by rw [frame_length]; simp [headerLen])]

example : getHeader (packBuffer 7 513 70000 5 [1, 2, 3] ++ [4])
    = ⟨7, 513, 70000, 5, 3⟩ := by decide

/-- **C11** Feed a prefix of a stream of good frames in any chunks, fetching messages at any time:
every feed succeeds; with `j` the number of frames that are completely contained in the prefix,
the messages fetched or ready to fetch are exactly those of the first `j` frames in order, and
the bytes behind them are kept. -/
theorem C11_rust_prefix {T : Type} (d : Decoder T) (fs : List Frame) (hg : ∀ f ∈ fs, Good d f)
    (ops : List ReadOp) (hp : fed ops <+: stream fs) (j : Nat) (hj : j ≤ fs.length)
    (hin : (stream (fs.take j)).length ≤ (fed ops).length)
    (hmax : j < fs.length → (fed ops).length < (stream (fs.take (j + 1))).length) :
    let o := observe d ops Reader.new
    (∀ x ∈ o.results, x = .ok) ∧
    o.got ++ o.reader.queue = (fs.take j).filterMap (delivered d) ∧
    o.reader.buffer = (fed ops).drop (stream (fs.take j)).length ∧
    bufLen o.reader = (fed ops).length - (stream (fs.take j)).length := by
  have hinc : Incomplete fs [] := by
    cases fs with
    | nil => exact Or.inl ⟨rfl, rfl⟩
    | cons f fs =>
      refine Or.inr ⟨f, fs, f.bytes, rfl, by simp, fun h => ?_⟩
      have := congrArg List.length h
      rw [frame_length] at this; simp at this
  obtain ⟨gs, hs, b', h1, h2, h3, h4, h5, h6⟩ := observe_good d ops fs [] [] hg hinc (by simpa using hp)
  simp only [List.nil_append] at h2 h5
  -- the number of complete frames is determined
  have hmono : ∀ i k : Nat, i ≤ k → (stream (fs.take i)).length ≤ (stream (fs.take k)).length := by
    intro i k hik
    have : fs.take k = fs.take i ++ (fs.take k).drop i := by
      conv => lhs; rw [← List.take_append_drop i (fs.take k)]
      rw [List.take_take, Nat.min_eq_left hik]
    rw [this, stream_append, List.length_append]; omega
  have hgs : fs.take gs.length = gs := by rw [h1]; simp
  have hlen : (fed ops).length = (stream gs).length + b'.length := by rw [h2]; simp
  have hjg : j = gs.length := by
    rcases Nat.lt_trichotomy j gs.length with h | h | h
    · have hjl : j < fs.length := by rw [h1]; simp; omega
      have h7 := hmax hjl
      have h8 := hmono (j + 1) gs.length (by omega)
      rw [hgs] at h8
      omega
    · exact h
    · rcases h3 with ⟨rfl, rfl⟩ | ⟨f, hs', t, rfl, hb, ht⟩
      · rw [h1] at hj; simp at hj; omega
      · have h8 := hmono (gs.length + 1) j (by omega)
        have h9 : fs.take (gs.length + 1) = gs ++ [f] := by
          rw [h1, show gs ++ f :: hs' = (gs ++ [f]) ++ hs' by simp, List.take_left' (by simp)]
        rw [h9, stream_append] at h8
        have h10 : (stream [f]).length = b'.length + t.length := by
          simp only [stream, List.flatMap_cons, List.flatMap_nil, List.append_nil]
          rw [hb]; simp
        have := List.length_pos_iff.mpr ht
        rw [List.length_append] at h8
        omega
  subst hjg
  rw [hgs]
  refine ⟨h4, h5, ?_, ?_⟩
  · rw [show (Reader.new : Reader T) = ⟨[], []⟩ from rfl, h6, h2, List.drop_left' rfl]
  · rw [bufLen, show (Reader.new : Reader T) = ⟨[], []⟩ from rfl, h6, hlen]; omega

/-- Two frames, the second cut in the middle, fed in three chunks with fetches between. -/
example : let fs := [demoFrame 3, demoFrame 4]
    let ops : List ReadOp := [.feed ((stream fs).take 5), .next, .feed [],
      .feed (((stream fs).drop 5).take 30), .next]
    fed ops <+: stream fs ∧ (stream (fs.take 1)).length ≤ (fed ops).length ∧
      (fed ops).length < (stream (fs.take 2)).length := by decide

/-- **C10** The whole stream in any chunks: no error, exactly the messages in order, nothing
left over. -/
theorem C10_rust_chunking {T : Type} (d : Decoder T) (fs : List Frame) (hg : ∀ f ∈ fs, Good d f)
    (ops : List ReadOp) (hp : fed ops = stream fs) :
    let o := observe d ops Reader.new
    (∀ x ∈ o.results, x = .ok) ∧
    o.got ++ o.reader.queue = fs.filterMap (delivered d) ∧
    (fs.filterMap (delivered d)).map Income.header = fs.map Frame.hdr ∧
    bufLen o.reader = 0 := by
  have h := C11_rust_prefix d fs hg ops (by rw [hp]; exact List.prefix_refl _) fs.length (Nat.le_refl _)
    (by rw [hp]; simp) (by omega)
  simp only [List.take_length, hp] at h
  obtain ⟨h1, h2, h3, h4⟩ := h
  refine ⟨h1, h2, ?_, by rw [h4]; omega⟩
  clear h1 h2 h3 h4 hp
  induction fs with
  | nil => rfl
  | cons f fs ih =>
    obtain ⟨t, _, ht⟩ := delivered_good d (hg f (by simp))
    simp [ht, ih (fun g hg' => hg g (by simp [hg']))]

example : (observe demoDecoder ((stream [demoFrame 3, demoFrame 4]).map (fun b => .feed [b]))
    Reader.new).reader.queue.map Income.msg = [3, 4] := by decide

/-- **C12** A frame with a foreign signature at any place of the stream, however the bytes arrive:
the call that completes it returns a signature error, the frames before it are delivered, exactly
the bad frame is dropped and the bytes behind it are kept. -/
theorem C12_rust_foreign_signature {T : Type} (d : Decoder T) (r : Reader T) (c : Bytes)
    (gs : List Frame) (hgs : ∀ g ∈ gs, Good d g) (bad : Frame) (hok : bad.Ok)
    (hbad : bad.hdr.signature ≠ d.signature) (rest : Bytes)
    (he : r.buffer ++ c = stream gs ++ bad.bytes ++ rest) :
    chunk d r c = (.signature, ⟨rest, r.queue ++ gs.filterMap (delivered d)⟩) :=
  chunk_bad_signature d gs hgs bad hok (fun h => hbad h.symm) r c rest he

/-- **C12** Whatever is fed, no message with a foreign signature is ever delivered. -/
theorem C12_rust_never_delivered {T : Type} (d : Decoder T) (ops : List ReadOp)
    (hp : ChunkRes.panic ∉ (observe d ops Reader.new).results) (m : Income T)
    (hm : m ∈ (observe d ops Reader.new).got ++ (observe d ops Reader.new).reader.queue) :
    m.header.signature = d.signature := by
  obtain ⟨fs, _, _, h3, _⟩ := observe_sound d ops Reader.new hp
  rw [h3] at hm
  simp only [Reader.new, List.nil_append, List.mem_filterMap] at hm
  obtain ⟨f, _, hf⟩ := hm
  unfold delivered at hf
  split at hf
  · rename_i hs
    split at hf
    · simp only [Option.some.injEq] at hf; rw [← hf, hs]
    · simp at hf
  · simp at hf

example : chunk demoDecoder Reader.new ((demoFrame 1).bytes ++ foreignFrame.bytes ++ [5, 6])
    = (.signature, ⟨[5, 6], [⟨(demoFrame 1).hdr, 1⟩]⟩) := by
  apply C12_rust_foreign_signature (gs := [demoFrame 1]) (bad := foreignFrame)
  · intro g hg
    simp only [List.mem_cons, List.not_mem_nil, or_false] at hg
    subst hg; exact demoFrame_good 1
  · exact ⟨rfl, by simp [foreignFrame]⟩
  · decide
  · rfl

/-- **C13 (violated)** After a chunk made of a bad frame and a complete good frame the good
message is not available. -/
theorem C13_violated : ∃ (bad good : Frame), bad.Ok ∧ Good demoDecoder good ∧
    (chunk demoDecoder Reader.new (bad.bytes ++ good.bytes)).1 ≠ .ok ∧
    (chunk demoDecoder Reader.new (bad.bytes ++ good.bytes)).1 ≠ .panic ∧
    pending (chunk demoDecoder Reader.new (bad.bytes ++ good.bytes)).2 = 0 := by
  refine ⟨foreignFrame, demoFrame 3, ⟨rfl, by simp [foreignFrame]⟩, demoFrame_good 3, ?_⟩
  decide

/-- **C13 (partial)** Full statement: after feeding a chunk made of a bad frame and good frames,
the good frames are available. Proved: they are available after one more call of `chunk`, even
with an empty chunk. Missing: availability without another call, which is false
(`C13_violated`). -/
theorem C13_rust_after_bad_frame_partial {T : Type} (d : Decoder T) (r : Reader T) (bad : Frame)
    (hok : bad.Ok)
    (hbad : bad.hdr.signature ≠ d.signature ∨
      (bad.hdr.signature = d.signature ∧ d.getMsg bad.hdr.id bad.body = .err))
    (gs : List Frame) (hgs : ∀ g ∈ gs, Good d g) (hr : r.buffer = []) :
    let r1 := (chunk d r (bad.bytes ++ stream gs)).2
    chunk d r1 [] = (.ok, ⟨[], r.queue ++ gs.filterMap (delivered d)⟩) := by
  have he : r.buffer ++ (bad.bytes ++ stream gs) = stream [] ++ bad.bytes ++ stream gs := by
    simp [hr, stream]
  have h1 : (chunk d r (bad.bytes ++ stream gs)).2 = ⟨stream gs, r.queue⟩ := by
    rcases hbad with h | ⟨h, hm⟩
    · rw [chunk_bad_signature d [] (by simp) bad hok (fun x => h x.symm) r _ (stream gs) he]
      simp
    · rw [chunk_bad_body d [] (by simp) bad hok h.symm hm r _ (stream gs) he]
      simp
  simp only [h1]
  exact chunk_good d gs [] hgs (by simp) ⟨stream gs, r.queue⟩ [] [] (by simp) (Or.inl ⟨rfl, rfl⟩)

example : brokenFrame.Ok ∧ brokenFrame.hdr.signature = demoDecoder.signature ∧
    demoDecoder.getMsg brokenFrame.hdr.id brokenFrame.body = .err :=
  ⟨⟨rfl, by simp [brokenFrame]⟩, rfl, rfl⟩

/-- A decoder that never panics. -/
def Calm {T : Type} (d : Decoder T) : Prop := ∀ id body, d.getMsg id body ≠ .panic

theorem demo_calm : Calm demoDecoder := by
  intro id body
  simp only [demoDecoder]
  split
  · split <;> simp
  · simp

/-- **C14 (violated)** 26 bytes from the network are enough to panic, even if decoding never
does: a header that announces 2^64 - 1 bytes. -/
theorem C14_violated : ∃ bytes : Bytes, bytes.length = 26 ∧ Calm demoDecoder ∧
    (chunk demoDecoder Reader.new bytes).1 = .panic :=
  ⟨[7, 0, 0, 0, 1, 2, 0, 0, 0, 0, 0, 0, 0, 0, 0, 0, 0, 0, 255, 255, 255, 255, 255, 255, 255, 255],
    rfl, demo_calm, by decide⟩

/-- **C14 (partial)** Full statement: feeding arbitrary bytes never panics. Proved: if decoding
does not panic, the only source of a panic is a header, reached after a sequence of good frames,
that announces a length of at least 2^64 - 26. Missing: such headers, for which the statement is
false (`C14_violated`). -/
theorem C14_rust_reader_panic_partial {T : Type} (d : Decoder T) (hcalm : Calm d) (r : Reader T)
    (c : Bytes)
    (hlen : ∀ gs tail, (∀ g ∈ gs, Good d g) → r.buffer ++ c = stream gs ++ tail →
      headerLen ≤ tail.length → (getHeader tail).len.toNat < 2 ^ 64 - 26) :
    (chunk d r c).1 ≠ .panic := by
  intro h
  obtain ⟨gs, tail, h1, h2, h3, h4⟩ := chunkLoop_panic d _ _ h
  rcases h4 with h4 | ⟨f, _, _, _, _, hm⟩
  · have := hlen gs tail h1 h2 h3
    omega
  · exact hcalm _ _ hm

example : ∀ gs tail, (∀ g ∈ gs, Good demoDecoder g) →
    (Reader.new : Reader UInt8).buffer ++ [1, 2, 3] = stream gs ++ tail →
    headerLen ≤ tail.length → (getHeader tail).len.toNat < 2 ^ 64 - 26 := by
  intro gs tail _ he hl
  have := congrArg List.length he
  simp [Reader.new, headerLen] at this hl
  omega

/-- **C52** Soundness over arbitrary streams: whatever bytes are fed in whatever chunks, the bytes
fed so far are a sequence of complete frames followed by the pending bytes, and the messages
handed out or queued are exactly the decodings of those frames whose signature is the protocol's
and whose body decodes, in order; every other frame made exactly one feed fail. -/
theorem C52_rust_reader_sound {T : Type} (d : Decoder T) (ops : List ReadOp)
    (hp : ChunkRes.panic ∉ (observe d ops Reader.new).results) :
    let o := observe d ops Reader.new
    ∃ fs : List Frame, (∀ f ∈ fs, f.Ok) ∧
      fed ops = stream fs ++ o.reader.buffer ∧
      o.got ++ o.reader.queue = fs.filterMap (delivered d) ∧
      (fs.filter (fun f => (delivered d f).isNone)).length
        = (o.results.filter (fun x => x != .ok)).length := by
  obtain ⟨fs, h1, h2, h3, h4⟩ := observe_sound d ops Reader.new hp
  exact ⟨fs, h1, by simpa [Reader.new] using h2, by simpa [Reader.new] using h3, h4⟩

/-- A hostile stream without panic. -/
example : ChunkRes.panic ∉ (observe demoDecoder
    [.feed (foreignFrame.bytes ++ brokenFrame.bytes ++ (demoFrame 8).bytes), .feed [], .feed [1]]
    Reader.new).results ∧
    (observe demoDecoder
    [.feed (foreignFrame.bytes ++ brokenFrame.bytes ++ (demoFrame 8).bytes), .feed [], .feed [1]]
    Reader.new).reader.queue.map Income.msg = [8] := by decide

/-- A message of a declared type with a value for which transport is exact. -/
def SendOk (p : Protocol) : Msg → Prop
  | .enum id vs v => (id, vs) ∈ p.enums ∧ ElemOk (.enum vs) ∧ ElemClean (.enum vs) v
  | .struct id fs v => (id, fs) ∈ p.structs ∧ FieldsOk fs ∧ FieldsClean fs v

/-- No two declarations share an id. -/
def IdsDistinct (p : Protocol) : Prop :=
  (p.enums.map Prod.fst ++ p.structs.map Prod.fst).Nodup

theorem lookup_of_mem {α β : Type} [BEq α] [LawfulBEq α] {l : List (α × β)} {a : α} {b : β}
    (hn : (l.map Prod.fst).Nodup) (hm : (a, b) ∈ l) : l.lookup a = some b := by
  induction l with
  | nil => simp at hm
  | cons x xs ih =>
    obtain ⟨k, v⟩ := x
    simp only [List.map_cons, List.nodup_cons] at hn
    rcases List.mem_cons.mp hm with h | h
    · simp only [Prod.mk.injEq] at h
      simp [List.lookup, h.1, h.2]
    · have hne : a ≠ k := fun he => hn.1 (he ▸ List.mem_map.mpr ⟨(a, b), h, rfl⟩)
      simp only [List.lookup]
      rw [show (a == k) = false from by simpa using hne]
      exact ih hn.2 h

theorem lookup_none_of_not_mem {α β : Type} [BEq α] [LawfulBEq α] {l : List (α × β)} {a : α}
    (hm : a ∉ l.map Prod.fst) : l.lookup a = none := by
  induction l with
  | nil => rfl
  | cons x xs ih =>
    obtain ⟨k, v⟩ := x
    simp only [List.map_cons, List.mem_cons, not_or] at hm
    simp only [List.lookup]
    rw [show (a == k) = false from by simpa using hm.1]
    exact ih hm.2

/-- **C21** With distinct ids, a body is decoded with exactly the declaration that carries the id
of the frame, and an id without declaration is an error. -/
theorem C21_rust_dispatch (p : Protocol) (hd : IdsDistinct p) (id : UInt32) (body : Bytes) :
    (∀ vs, (id, vs) ∈ p.enums →
      p.getMsg id body = (do let v ← decodeEnum vs body; pure (.enum id vs v))) ∧
    (∀ fs, (id, fs) ∈ p.structs →
      p.getMsg id body = (do let v ← decode fs body; pure (.struct id fs v))) ∧
    ((∀ vs, (id, vs) ∉ p.enums) → (∀ fs, (id, fs) ∉ p.structs) → p.getMsg id body = .err) := by
  unfold IdsDistinct at hd
  rw [List.nodup_append] at hd
  refine ⟨fun vs h => ?_, fun fs h => ?_, fun h1 h2 => ?_⟩
  · simp only [Protocol.getMsg, lookup_of_mem hd.1 h]
  · have hno : id ∉ p.enums.map Prod.fst := fun hc =>
      hd.2.2 _ hc _ (List.mem_map.mpr ⟨(id, fs), h, rfl⟩) rfl
    simp only [Protocol.getMsg, lookup_none_of_not_mem hno, lookup_of_mem hd.2.1 h]
  · have n1 : id ∉ p.enums.map Prod.fst := by
      intro hc
      obtain ⟨⟨i, vs⟩, hm, rfl⟩ := List.mem_map.mp hc
      exact h1 vs hm
    have n2 : id ∉ p.structs.map Prod.fst := by
      intro hc
      obtain ⟨⟨i, fs⟩, hm, rfl⟩ := List.mem_map.mp hc
      exact h2 fs hm
    simp only [Protocol.getMsg, lookup_none_of_not_mem n1, lookup_none_of_not_mem n2]

/-- A protocol for witnesses. -/
def demoProtocol : Protocol := ⟨513, [(2, demoEnum)], [(1, demoFields), (3, optStr)]⟩

example : IdsDistinct demoProtocol := by
  simp [IdsDistinct, demoProtocol]

/-- **C54** End to end: messages packed by a Rust sender and fed to a Rust reader of the same
protocol in any chunks arrive as exactly the same messages, in order, with their sequence
numbers. -/
theorem C54_rust_end_to_end (p : Protocol) (hd : IdsDistinct p)
    (sent : List (Msg × UInt32 × UInt64 × Bytes))
    (hsent : ∀ s ∈ sent, SendOk p s.1 ∧ p.pack s.1 s.2.1 s.2.2.1 = .ok s.2.2.2 ∧
      s.2.2.2.length < 2 ^ 64)
    (ops : List ReadOp) (hf : fed ops = (sent.map (fun s => s.2.2.2)).flatten) :
    let o := observe p.decoder ops Reader.new
    (∀ x ∈ o.results, x = .ok) ∧
    (o.got ++ o.reader.queue).map Income.msg = sent.map (fun s => s.1) ∧
    (o.got ++ o.reader.queue).map (fun m => m.header.sequence) = sent.map (fun s => s.2.1) ∧
    bufLen o.reader = 0 := by
  have key : ∀ s ∈ sent, ∃ f : Frame, s.2.2.2 = f.bytes ∧ Good p.decoder f ∧
      f.hdr.sequence = s.2.1 ∧ delivered p.decoder f = some ⟨f.hdr, s.1⟩ := by
    intro s hs
    obtain ⟨hok, hpack, hlen⟩ := hsent s hs
    have frame : ∀ (id : UInt32) (body : Bytes),
        packBuffer id p.signature s.2.1 s.2.2.1 body = s.2.2.2 →
        (body.length < 2 ^ 64 → p.getMsg id body = .ok s.1) →
        ∃ f : Frame, s.2.2.2 = f.bytes ∧ Good p.decoder f ∧ f.hdr.sequence = s.2.1 ∧
          delivered p.decoder f = some ⟨f.hdr, s.1⟩ := by
      intro id body hb hget
      have hbl : body.length + 26 < 2 ^ 64 := by
        have := congrArg List.length hb
        simp [packBuffer] at this
        omega
      have hm : (UInt64.ofNat body.length).toNat = body.length := by
        simp only [UInt64.toNat_ofNat']; exact Nat.mod_eq_of_lt (by omega)
      refine ⟨⟨⟨id, p.signature, s.2.1, s.2.2.1, UInt64.ofNat body.length⟩, body⟩, ?_,
        ⟨⟨hm, hbl⟩, rfl, s.1, hget (by omega)⟩, rfl, ?_⟩
      · rw [← hb]; simp only [packBuffer, Frame.bytes, hm]
      · simp [delivered, Protocol.decoder, hget (by omega)]
    cases hmsg : s.1 with
    | struct id fs v =>
      rw [hmsg] at hok hpack
      obtain ⟨hmem, hfs, hv⟩ := hok
      simp only [Protocol.pack, Res.bind_eq_ok, Res.pure_eq, Res.ok.injEq] at hpack
      obtain ⟨body, hb, hp⟩ := hpack
      obtain ⟨f, h1, h2, h3, h4⟩ := frame id body hp (fun hl => by
        obtain ⟨b', e1, e2⟩ := C01_rust_round_trip fs v hfs hv
        rw [hb, Res.ok.injEq] at e1
        subst e1
        rw [((C21_rust_dispatch p hd id body).2.1 fs hmem), e2 hl]
        simp [hmsg])
      exact ⟨f, h1, h2, h3, by rw [h4, hmsg]⟩
    | enum id vs v =>
      rw [hmsg] at hok hpack
      obtain ⟨hmem, hvs, hv⟩ := hok
      simp only [Protocol.pack, Res.bind_eq_ok, Res.pure_eq, Res.ok.injEq] at hpack
      obtain ⟨body, hb, hp⟩ := hpack
      cases v with
      | none => simp [ElemClean] at hv
      | some w =>
        obtain ⟨f, h1, h2, h3, h4⟩ := frame id body hp (fun hl => by
          simp only [ElemOk] at hvs
          simp only [ElemClean] at hv
          obtain ⟨b', e1, e2⟩ := C03_enum_round_trip_partial vs w hvs.1 hvs.2 hv
          rw [hb, Res.ok.injEq] at e1
          subst e1
          rw [((C21_rust_dispatch p hd id body).1 vs hmem), e2 hl]
          simp [hmsg])
        exact ⟨f, h1, h2, h3, by rw [h4, hmsg]⟩
  have hall : ∃ fs : List Frame, (∀ f ∈ fs, Good p.decoder f) ∧
      (sent.map (fun s => s.2.2.2)).flatten = stream fs ∧
      (fs.filterMap (delivered p.decoder)).map Income.msg = sent.map (fun s => s.1) ∧
      (fs.filterMap (delivered p.decoder)).map (fun m => m.header.sequence)
        = sent.map (fun s => s.2.1) := by
    clear hsent hf
    induction sent with
    | nil => exact ⟨[], by simp, by simp [stream], by simp, by simp⟩
    | cons s rest ih =>
      obtain ⟨f, h1, h2, h3, h4⟩ := key s (by simp)
      obtain ⟨fs, g1, g2, g3, g4⟩ := ih (fun x hx => key x (by simp [hx]))
      refine ⟨f :: fs, ?_, ?_, ?_, ?_⟩
      · intro g hg
        rcases List.mem_cons.mp hg with rfl | hg
        · exact h2
        · exact g1 g hg
      · rw [List.map_cons, List.flatten_cons, g2, h1, stream_cons]
      · simp [h4, g3]
      · simp [h4, g4, h3]
  obtain ⟨fs, g1, g2, g3, g4⟩ := hall
  obtain ⟨k1, k2, _, k4⟩ := C10_rust_chunking p.decoder fs g1 ops (by rw [hf, g2])
  exact ⟨k1, by rw [k2, g3], by rw [k2, g4], k4⟩

example : SendOk demoProtocol (.struct 1 demoFields demoVal) :=
  ⟨by simp [demoProtocol], demo_ok, demo_clean⟩

end Verif.Props
