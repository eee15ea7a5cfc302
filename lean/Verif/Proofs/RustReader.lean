import Verif.Proofs.RustStream
namespace Verif.Rust

open Verif Verif.Spec

/-- `b` does not reach the end of the first frame of `fs`. -/
def Incomplete (fs : List Frame) (b : Bytes) : Prop :=
  (fs = [] ∧ b = []) ∨ ∃ f gs t, fs = f :: gs ∧ f.bytes = b ++ t ∧ t ≠ []

theorem split_stream : ∀ (fs : List Frame) (p : Bytes), p <+: stream fs →
    ∃ gs hs b, fs = gs ++ hs ∧ p = stream gs ++ b ∧ Incomplete hs b
  | [], p, h => by
    have : p = [] := by simpa [stream] using h
    exact ⟨[], [], [], by simp, by simp [this, stream], Or.inl ⟨rfl, rfl⟩⟩
  | f :: fs, p, h => by
    obtain ⟨t, ht⟩ := h
    rw [stream_cons] at ht
    by_cases hl : p.length < f.bytes.length
    · refine ⟨[], f :: fs, p, by simp, by simp [stream], Or.inr ⟨f, fs, f.bytes.drop p.length, rfl, ?_, ?_⟩⟩
      · have : p = f.bytes.take p.length := by
          have := congrArg (List.take p.length) ht
          rw [List.take_left' rfl, List.take_append_of_le_length (by omega)] at this
          exact this
        conv => rhs; arg 1; rw [this]
        rw [List.take_append_drop]
      · intro h0
        have := congrArg List.length h0
        simp at this; omega
    · have hp : p = f.bytes ++ p.drop f.bytes.length := by
        have := congrArg (List.take f.bytes.length) ht
        rw [List.take_left' rfl, List.take_append_of_le_length (by omega)] at this
        conv => lhs; rw [← List.take_append_drop f.bytes.length p]
        rw [this]
      have hpre : p.drop f.bytes.length <+: stream fs := by
        refine ⟨t, ?_⟩
        rw [hp, List.append_assoc] at ht
        exact List.append_cancel_left ht
      obtain ⟨gs, hs, b, h1, h2, h3⟩ := split_stream fs _ hpre
      exact ⟨f :: gs, hs, b, by simp [h1], by rw [hp, h2, stream_cons, List.append_assoc], h3⟩

section
variable {T : Type} (d : Decoder T)

theorem chunkLoop_incomplete (fuel : Nat) (fs : List Frame) (hok : ∀ f ∈ fs, Good d f) (b : Bytes)
    (h : Incomplete fs b) (q : List (Income T)) : chunkLoop d fuel ⟨b, q⟩ = (.ok, ⟨b, q⟩) := by
  rcases h with ⟨_, rfl⟩ | ⟨f, gs, t, rfl, hb, ht⟩
  · exact chunkLoop_empty d fuel q
  · exact chunkLoop_wait d fuel f (hok f (by simp)).1 b t hb ht q

theorem chunk_good (gs hs : List Frame) (hgs : ∀ f ∈ gs, Good d f) (hhs : ∀ f ∈ hs, Good d f)
    (r : Reader T) (c b : Bytes) (he : r.buffer ++ c = stream gs ++ b) (hi : Incomplete hs b) :
    chunk d r c = (.ok, ⟨b, r.queue ++ gs.filterMap (delivered d)⟩) := by
  unfold chunk
  have hlen : r.buffer.length + c.length = (stream gs).length + b.length := by
    have := congrArg List.length he
    simpa using this
  have hgl := stream_length_le gs
  by_cases hb : b = []
  · subst hb
    rw [he, List.append_nil]
    exact chunkLoop_good_all d gs hgs _ (by omega) _
  · rw [he, hlen]
    have : (stream gs).length + b.length = ((stream gs).length + b.length - gs.length) + gs.length := by
      omega
    rw [this, chunkLoop_good d gs hgs _ b hb, chunkLoop_incomplete d _ hs hhs b hi]

/-- Reading good frames: all operations succeed, and what was fetched plus what is queued is
what is complete. -/
theorem observe_good : ∀ (ops : List ReadOp) (fs : List Frame) (b : Bytes) (q : List (Income T)),
    (∀ f ∈ fs, Good d f) → Incomplete fs b → b ++ fed ops <+: stream fs →
    ∃ gs hs b', fs = gs ++ hs ∧ b ++ fed ops = stream gs ++ b' ∧ Incomplete hs b' ∧
      (∀ x ∈ (observe d ops ⟨b, q⟩).results, x = .ok) ∧
      (observe d ops ⟨b, q⟩).got ++ (observe d ops ⟨b, q⟩).reader.queue
        = q ++ gs.filterMap (delivered d) ∧
      (observe d ops ⟨b, q⟩).reader.buffer = b'
  | [], fs, b, q, _, hi, hp => by
    refine ⟨[], fs, b, by simp, by simp [fed, stream], hi, ?_, ?_, ?_⟩ <;> simp [observe]
  | .next :: ops, fs, b, q, hg, hi, hp => by
    have hp' : b ++ fed ops <+: stream fs := hp
    cases q with
    | nil =>
      have := observe_good ops fs b [] hg hi hp'
      simpa [observe, next, fed] using this
    | cons m q =>
      obtain ⟨gs, hs, b', h1, h2, h3, h4, h5, h6⟩ := observe_good ops fs b q hg hi hp'
      refine ⟨gs, hs, b', h1, h2, h3, ?_, ?_, ?_⟩
      · simpa [observe, next] using h4
      · simpa [observe, next] using h5
      · simpa [observe, next] using h6
  | .feed c :: ops, fs, b, q, hg, hi, hp => by
    have hp' : (b ++ c) ++ fed ops <+: stream fs := by simpa [fed] using hp
    have hpre : b ++ c <+: stream fs := by
      obtain ⟨t, ht⟩ := hp'
      exact ⟨fed ops ++ t, by simpa [List.append_assoc] using ht⟩
    obtain ⟨gs, hs, b1, h1, h2, h3⟩ := split_stream fs (b ++ c) hpre
    have hgs : ∀ f ∈ gs, Good d f := fun f hf => hg f (by rw [h1]; simp [hf])
    have hhs : ∀ f ∈ hs, Good d f := fun f hf => hg f (by rw [h1]; simp [hf])
    have hc := chunk_good d gs hs hgs hhs ⟨b, q⟩ c b1 h2 h3
    have hrest : b1 ++ fed ops <+: stream hs := by
      obtain ⟨t, ht⟩ := hp'
      refine ⟨t, ?_⟩
      rw [h2, h1, stream_append, List.append_assoc, List.append_assoc] at ht
      rw [List.append_assoc]
      exact List.append_cancel_left ht
    obtain ⟨gs2, hs2, b2, k1, k2, k3, k4, k5, k6⟩ :=
      observe_good ops hs b1 (q ++ gs.filterMap (delivered d)) hhs h3 hrest
    refine ⟨gs ++ gs2, hs2, b2, by rw [h1, k1, List.append_assoc], ?_, k3, ?_, ?_, ?_⟩
    · rw [fed, ← List.append_assoc, h2, List.append_assoc, k2, stream_append, List.append_assoc]
    · simp only [observe, hc]
      intro x hx
      rcases List.mem_cons.mp hx with rfl | hx
      · rfl
      · exact k4 x hx
    · simp only [observe, hc]
      rw [k5]; simp
    · simp only [observe, hc]
      exact k6

/-! ### Arbitrary streams -/

/-- What one call of the loop did: the frames it took off the buffer, and why it stopped. -/
structure Took (r : Reader T) (res : ChunkRes) (r' : Reader T) (fs : List Frame) : Prop where
  ok : ∀ f ∈ fs, f.Ok
  buffer : r.buffer = stream fs ++ r'.buffer
  queue : r'.queue = r.queue ++ fs.filterMap (delivered d)
  whenOk : res = .ok → ∀ f ∈ fs, Good d f
  whenSignature : res = .signature →
    ∃ gs f, fs = gs ++ [f] ∧ (∀ g ∈ gs, Good d g) ∧ d.signature ≠ f.hdr.signature
  whenParsing : res = .parsing →
    ∃ gs f, fs = gs ++ [f] ∧ (∀ g ∈ gs, Good d g) ∧ d.signature = f.hdr.signature ∧
      d.getMsg f.hdr.id f.body = .err

theorem chunkLoop_took : ∀ (fuel : Nat) (r : Reader T), (chunkLoop d fuel r).1 ≠ .panic →
    ∃ fs, Took d r (chunkLoop d fuel r).1 (chunkLoop d fuel r).2 fs
  | 0, r, _ => ⟨[], ⟨by simp, by simp [chunkLoop, stream], by simp [chunkLoop], by simp,
      by simp [chunkLoop], by simp [chunkLoop]⟩⟩
  | fuel + 1, r, h => by
    have hnil : ∀ x : ChunkRes, x = .ok → ∃ fs, Took d r x r fs := fun x hx =>
      ⟨[], ⟨by simp, by simp [stream], by simp, by simp, by simp [hx], by simp [hx]⟩⟩
    by_cases hh : 26 ≤ r.buffer.length
    · by_cases hov : (getHeader r.buffer).len.toNat + 26 ≥ 2 ^ 64
      · exfalso; apply h
        rw [chunkLoop, if_neg (by simp [(hasHeader_iff r.buffer).mpr hh])]
        dsimp only
        rw [if_pos (show (getHeader r.buffer).len.toNat + headerLen ≥ 2 ^ 64 from hov)]
      · by_cases hfit : r.buffer.length < (getHeader r.buffer).len.toNat + 26
        · have : chunkLoop d (fuel + 1) r = (.ok, r) := by
            rw [chunkLoop, if_neg (by simp [(hasHeader_iff r.buffer).mpr hh])]
            dsimp only
            rw [if_neg (show ¬ (getHeader r.buffer).len.toNat + headerLen ≥ 2 ^ 64 from hov),
              if_pos (show r.buffer.length < (getHeader r.buffer).len.toNat + headerLen from hfit)]
          rw [this]; exact hnil _ rfl
        · obtain ⟨f, hf, hhdr, hbody, hb⟩ := frame_of_buffer r.buffer hh (by omega) (by omega)
          generalize hrest : r.buffer.drop (26 + (getHeader r.buffer).len.toNat) = rest at hb
          have hr : r = ⟨f.bytes ++ rest, r.queue⟩ := by
            cases r; simp only at hb ⊢; rw [← hb]
          have hstep := chunkLoop_frame d fuel f hf rest r.queue
          rw [← hr] at hstep
          by_cases hs : d.signature = f.hdr.signature
          · rw [if_neg (by simpa using hs)] at hstep
            cases hm : d.getMsg f.hdr.id f.body with
            | ok t =>
              have hd : delivered d f = some ⟨f.hdr, t⟩ := by simp [delivered, hs, hm]
              have hgood : Good d f := ⟨hf, hs, t, hm⟩
              rw [hm] at hstep
              simp only at hstep
              by_cases he : rest.isEmpty
              · rw [if_pos he] at hstep
                rw [hstep]
                exact ⟨[f], ⟨by simpa using hf, by simpa [stream] using hb, by simp [hd],
                  fun _ => by simpa using hgood, by simp, by simp⟩⟩
              · rw [if_neg he] at hstep
                rw [hstep] at h ⊢
                obtain ⟨fs, hfs⟩ := chunkLoop_took fuel ⟨rest, r.queue ++ [⟨f.hdr, t⟩]⟩ h
                refine ⟨f :: fs, ⟨?_, ?_, ?_, ?_, ?_, ?_⟩⟩
                · intro g hg
                  rcases List.mem_cons.mp hg with rfl | hg
                  · exact hf
                  · exact hfs.ok g hg
                · rw [hb, stream_cons, List.append_assoc, ← hfs.buffer]
                · rw [hfs.queue]; simp [hd]
                · intro hres g hg
                  rcases List.mem_cons.mp hg with rfl | hg
                  · exact hgood
                  · exact hfs.whenOk hres g hg
                · intro hres
                  obtain ⟨gs, g, h1, h2, h3⟩ := hfs.whenSignature hres
                  refine ⟨f :: gs, g, by simp [h1], ?_, h3⟩
                  intro x hx
                  rcases List.mem_cons.mp hx with rfl | hx
                  · exact hgood
                  · exact h2 x hx
                · intro hres
                  obtain ⟨gs, g, h1, h2, h3⟩ := hfs.whenParsing hres
                  refine ⟨f :: gs, g, by simp [h1], ?_, h3⟩
                  intro x hx
                  rcases List.mem_cons.mp hx with rfl | hx
                  · exact hgood
                  · exact h2 x hx
            | err =>
              have hd : delivered d f = none := by simp [delivered, hs, hm]
              rw [hm] at hstep
              rw [hstep]
              exact ⟨[f], ⟨by simpa using hf, by simpa [stream] using hb, by simp [hd], by simp,
                by simp, fun _ => ⟨[], f, by simp, by simp, hs, hm⟩⟩⟩
            | panic =>
              exfalso; apply h
              rw [hstep, hm]
          · have hd : delivered d f = none := by simp [delivered, hs]
            rw [if_pos (by simpa using hs)] at hstep
            rw [hstep]
            exact ⟨[f], ⟨by simpa using hf, by simpa [stream] using hb, by simp [hd], by simp,
              fun _ => ⟨[], f, by simp, by simp, hs⟩, by simp⟩⟩
    · have : chunkLoop d (fuel + 1) r = (.ok, r) := by
        rw [chunkLoop, if_pos (by simp [(hasHeader_false_iff r.buffer).mpr (by omega)])]
      rw [this]; exact hnil _ rfl

theorem chunk_took (r : Reader T) (c : Bytes) (h : (chunk d r c).1 ≠ .panic) :
    ∃ fs, Took d ⟨r.buffer ++ c, r.queue⟩ (chunk d r c).1 (chunk d r c).2 fs :=
  chunkLoop_took d _ _ h

/-- Number of failed feeds. -/
def failures (rs : List ChunkRes) : Nat := (rs.filter (fun x => x != .ok)).length

/-- Whatever is fed: the bytes fed so far are a sequence of frames plus the pending bytes; the
messages are exactly those of the usable frames, in order; the failed feeds are as many as the
unusable frames. -/
theorem observe_sound : ∀ (ops : List ReadOp) (r : Reader T),
    ChunkRes.panic ∉ (observe d ops r).results →
    ∃ fs : List Frame, (∀ f ∈ fs, f.Ok) ∧
      r.buffer ++ fed ops = stream fs ++ (observe d ops r).reader.buffer ∧
      (observe d ops r).got ++ (observe d ops r).reader.queue
        = r.queue ++ fs.filterMap (delivered d) ∧
      (fs.filter (fun f => (delivered d f).isNone)).length
        = failures (observe d ops r).results
  | [], r, _ => ⟨[], by simp, by simp [fed, stream, observe], by simp [observe],
      by simp [observe, failures]⟩
  | .next :: ops, ⟨b, []⟩, h => by
    have h' : ChunkRes.panic ∉ (observe d ops ⟨b, []⟩).results := by
      simpa [observe, next] using h
    simpa [observe, next, fed] using observe_sound ops ⟨b, []⟩ h'
  | .next :: ops, ⟨b, m :: q⟩, h => by
    have h' : ChunkRes.panic ∉ (observe d ops ⟨b, q⟩).results := by
      simpa [observe, next] using h
    obtain ⟨fs, h1, h2, h3, h4⟩ := observe_sound ops ⟨b, q⟩ h'
    exact ⟨fs, h1, by simpa [observe, next, fed] using h2, by simpa [observe, next] using h3,
      by simpa [observe, next] using h4⟩
  | .feed c :: ops, r, h => by
    by_cases hp : (chunk d r c).1 = .panic
    · exfalso; apply h
      have hs : chunk d r c = (.panic, (chunk d r c).2) := by rw [← hp]
      simp only [observe]
      rw [hs]
      simp
    · have hobs : observe d (.feed c :: ops) r =
          ⟨(chunk d r c).1 :: (observe d ops (chunk d r c).2).results,
            (observe d ops (chunk d r c).2).got, (observe d ops (chunk d r c).2).reader⟩ := by
        rw [observe]
        split
        · rename_i r' heq
          rw [heq] at hp; simp at hp
        · rename_i res r' _ heq
          rw [heq]
      rw [hobs] at h ⊢
      simp only [List.mem_cons, not_or] at h
      obtain ⟨fs, hfs⟩ := chunk_took d r c hp
      obtain ⟨gs, h1, h2, h3, h4⟩ := observe_sound ops (chunk d r c).2 h.2
      refine ⟨fs ++ gs, ?_, ?_, ?_, ?_⟩
      · intro f hf
        rcases List.mem_append.mp hf with hf | hf
        · exact hfs.ok f hf
        · exact h1 f hf
      · have := hfs.buffer
        simp only at this
        rw [fed, ← List.append_assoc, this, List.append_assoc, h2, stream_append, List.append_assoc]
      · rw [h3, hfs.queue]; simp
      · rw [List.filter_append, List.length_append, h4]
        have hgood : ∀ l : List Frame, (∀ f ∈ l, Good d f) →
            l.filter (fun f => (delivered d f).isNone) = [] := by
          intro l hl
          rw [List.filter_eq_nil_iff]
          intro f hf
          obtain ⟨t, _, ht⟩ := delivered_good d (hl f hf)
          simp [ht]
        cases hres : (chunk d r c).1 with
        | ok =>
          rw [hgood fs (hfs.whenOk hres)]
          simp [failures]
        | panic => exact absurd hres hp
        | signature =>
          obtain ⟨as, a, rfl, ha, hb⟩ := hfs.whenSignature hres
          rw [List.filter_append, hgood as ha]
          have : delivered d a = none := by simp [delivered, hb]
          simp [failures, this]
          omega
        | parsing =>
          obtain ⟨as, a, rfl, ha, hb, hc⟩ := hfs.whenParsing hres
          rw [List.filter_append, hgood as ha]
          have : delivered d a = none := by simp [delivered, hb, hc]
          simp [failures, this]
          omega

/-- Where a panic can come from. -/
theorem chunkLoop_panic : ∀ (fuel : Nat) (r : Reader T), (chunkLoop d fuel r).1 = .panic →
    ∃ gs tail, (∀ g ∈ gs, Good d g) ∧ r.buffer = stream gs ++ tail ∧ 26 ≤ tail.length ∧
      (2 ^ 64 ≤ (getHeader tail).len.toNat + 26 ∨
        ∃ f rest, Frame.Ok f ∧ tail = f.bytes ++ rest ∧ d.signature = f.hdr.signature ∧
          d.getMsg f.hdr.id f.body = .panic)
  | 0, r, h => by simp [chunkLoop] at h
  | fuel + 1, r, h => by
    by_cases hh : 26 ≤ r.buffer.length
    · by_cases hov : (getHeader r.buffer).len.toNat + 26 ≥ 2 ^ 64
      · exact ⟨[], r.buffer, by simp, by simp [stream], hh, Or.inl hov⟩
      · by_cases hfit : r.buffer.length < (getHeader r.buffer).len.toNat + 26
        · have : chunkLoop d (fuel + 1) r = (.ok, r) := by
            rw [chunkLoop, if_neg (by simp [(hasHeader_iff r.buffer).mpr hh])]
            dsimp only
            rw [if_neg (show ¬ (getHeader r.buffer).len.toNat + headerLen ≥ 2 ^ 64 from hov),
              if_pos (show r.buffer.length < (getHeader r.buffer).len.toNat + headerLen from hfit)]
          rw [this] at h; simp at h
        · obtain ⟨f, hf, hhdr, hbody, hb⟩ := frame_of_buffer r.buffer hh (by omega) (by omega)
          generalize hrest : r.buffer.drop (26 + (getHeader r.buffer).len.toNat) = rest at hb
          have hr : r = ⟨f.bytes ++ rest, r.queue⟩ := by
            cases r; simp only at hb ⊢; rw [← hb]
          have hstep := chunkLoop_frame d fuel f hf rest r.queue
          rw [← hr] at hstep
          by_cases hs : d.signature = f.hdr.signature
          · rw [if_neg (by simpa using hs)] at hstep
            cases hm : d.getMsg f.hdr.id f.body with
            | ok t =>
              rw [hm] at hstep
              simp only at hstep
              by_cases he : rest.isEmpty
              · rw [if_pos he] at hstep
                rw [hstep] at h; simp at h
              · rw [if_neg he] at hstep
                rw [hstep] at h
                obtain ⟨gs, tail, h1, h2, h3⟩ := chunkLoop_panic fuel _ h
                refine ⟨f :: gs, tail, ?_, ?_, h3⟩
                · intro g hg
                  rcases List.mem_cons.mp hg with rfl | hg
                  · exact ⟨hf, hs, t, hm⟩
                  · exact h1 g hg
                · simp only at h2
                  rw [hb, h2, stream_cons, List.append_assoc]
            | err => rw [hstep, hm] at h; simp at h
            | panic => exact ⟨[], r.buffer, by simp, by simp [stream], hh, Or.inr ⟨f, rest, hf, hb, hs, hm⟩⟩
          · rw [if_pos (by simpa using hs)] at hstep
            rw [hstep] at h; simp at h
    · have : chunkLoop d (fuel + 1) r = (.ok, r) := by
        rw [chunkLoop, if_pos (by simp [(hasHeader_false_iff r.buffer).mpr (by omega)])]
      rw [this] at h; simp at h

/-- Good frames, then a frame with a foreign signature. -/
theorem chunk_bad_signature (gs : List Frame) (hgs : ∀ g ∈ gs, Good d g) (f : Frame) (hf : f.Ok)
    (hs : d.signature ≠ f.hdr.signature) (r : Reader T) (c rest : Bytes)
    (he : r.buffer ++ c = stream gs ++ f.bytes ++ rest) :
    chunk d r c = (.signature, ⟨rest, r.queue ++ gs.filterMap (delivered d)⟩) := by
  unfold chunk
  have hlen := congrArg List.length he
  simp only [List.length_append, frame_length] at hlen
  have hgl := stream_length_le gs
  have hk : r.buffer.length + c.length = (r.buffer.length + c.length - gs.length - 1 + 1) + gs.length := by
    omega
  rw [hk, he, List.append_assoc, chunkLoop_good d gs hgs _ _ (by
    intro h0
    have := congrArg List.length h0
    simp [frame_length] at this), chunkLoop_frame d _ f hf, if_pos hs]

theorem chunk_bad_body (gs : List Frame) (hgs : ∀ g ∈ gs, Good d g) (f : Frame) (hf : f.Ok)
    (hs : d.signature = f.hdr.signature) (hm : d.getMsg f.hdr.id f.body = .err)
    (r : Reader T) (c rest : Bytes) (he : r.buffer ++ c = stream gs ++ f.bytes ++ rest) :
    chunk d r c = (.parsing, ⟨rest, r.queue ++ gs.filterMap (delivered d)⟩) := by
  unfold chunk
  have hlen := congrArg List.length he
  simp only [List.length_append, frame_length] at hlen
  have hgl := stream_length_le gs
  have hk : r.buffer.length + c.length = (r.buffer.length + c.length - gs.length - 1 + 1) + gs.length := by
    omega
  rw [hk, he, List.append_assoc, chunkLoop_good d gs hgs _ _ (by
    intro h0
    have := congrArg List.length h0
    simp [frame_length] at this), chunkLoop_frame d _ f hf, if_neg (by simpa using hs), hm]

end

end Verif.Rust
