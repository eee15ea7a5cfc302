import Verif.Spec.TsStream
import Verif.Proofs.RustReader
set_option autoImplicit false
namespace Verif.Ts

open Verif Verif.Spec Verif.Rust

theorem tsHeader_take (b : Bytes) : tsHeader (b.take headerSize) = getHeader b := by
  unfold tsHeader getHeader headerSize
  congr 1
  · rw [List.take_take]; rfl
  all_goals
    rw [List.drop_take, List.take_take]
    rfl

theorem enow_iff (b : Bytes) : enow b = true ↔ 26 ≤ b.length := by
  unfold enow; exact decide_eq_true_iff

theorem enow_false_iff (b : Bytes) : enow b = false ↔ b.length < 26 := by
  rw [← Bool.not_eq_true, enow_iff]; omega

section
variable {T : Type} (d : Decoder T)

theorem round_frame (f : Frame) (hf : f.Ok) (rest : Bytes) (q : List (Income T)) :
    round d ⟨f.bytes ++ rest, q⟩ =
      if f.hdr.signature ≠ d.signature then .again ⟨f.bytes ++ rest, q⟩ [.signature f.hdr.id]
      else match d.getMsg f.hdr.id f.body with
        | .ok msg => .again ⟨rest, q ++ [⟨f.hdr, msg⟩]⟩ []
        | .err => .again ⟨rest, q⟩ [.body]
        | .panic => .throw := by
  obtain ⟨h1, h2⟩ := hf
  have hl := frame_length f
  have hb : (f.bytes ++ rest).drop 26 = f.body ++ rest := by
    rw [Frame.bytes, List.append_assoc, List.drop_left' (by simp)]
  have hr : (f.bytes ++ rest).drop (26 + f.body.length) = rest := by
    rw [List.drop_left' (by omega)]
  have hh : enow (f.bytes ++ rest) = true := by
    rw [enow_iff, List.length_append]; omega
  unfold round
  simp only [hh, Bool.not_true, Bool.false_eq_true, if_false, tsHeader_take, getHeader_frame, h1]
  have h3 : ¬ (f.bytes ++ rest).length < f.body.length + 26 := by
    simp only [List.length_append]; omega
  rw [if_neg (show ¬ (f.bytes ++ rest).length < f.body.length + headerSize from h3)]
  simp only [show headerSize = 26 from rfl, hb, hr, List.take_left' rfl]
  rfl

/-- Every buffer either has a complete frame in front or not. -/
theorem frame_or_not (b : Bytes) :
    NoFrame b ∨ ∃ f rest, Frame.Ok f ∧ b = f.bytes ++ rest := by
  by_cases h : ∃ f : Frame, f.Ok ∧ f.bytes <+: b
  · obtain ⟨f, hf, t, ht⟩ := h
    exact Or.inr ⟨f, t, hf, ht.symm⟩
  · exact Or.inl fun f hf hp => h ⟨f, hf, hp⟩

theorem round_noFrame (b : Bytes) (hb : b.length < 2 ^ 64) (hn : NoFrame b) (q : List (Income T)) :
    round d ⟨b, q⟩ = .stop := by
  unfold round
  by_cases h26 : 26 ≤ b.length
  · simp only [(enow_iff b).mpr h26, Bool.not_true, Bool.false_eq_true, if_false, tsHeader_take]
    rw [if_pos]
    show b.length < (getHeader b).len.toNat + 26
    rcases Nat.lt_or_ge b.length ((getHeader b).len.toNat + 26) with hc | hc
    · exact hc
    exfalso
    obtain ⟨f, hf, _, _, he⟩ := frame_of_buffer b h26 (by omega) (by omega)
    exact hn f hf ⟨_, he.symm⟩
  · simp [(enow_false_iff b).mpr (by omega)]

theorem loop_mono (n k : Nat) (r : Reader T) (errs : List TsErr) (x : TsEnd × Reader T)
    (h : loop d n r errs = some x) : loop d (n + k) r errs = some x := by
  induction n generalizing r errs with
  | zero => simp [loop] at h
  | succ n ih =>
    rw [show n + 1 + k = (n + k) + 1 by omega, loop]
    rw [loop] at h
    split <;> rename_i hr <;> rw [hr] at h
    · exact h
    · exact h
    · exact ih _ _ h

theorem loop_unique (n m : Nat) (r : Reader T) (errs : List TsErr) (x y : TsEnd × Reader T)
    (hx : loop d n r errs = some x) (hy : loop d m r errs = some y) : x = y := by
  have h1 := loop_mono d n m r errs x hx
  have h2 := loop_mono d m n r errs y hy
  rw [Nat.add_comm, h1] at h2
  simpa using h2

theorem chunk_unique {r : Reader T} {c : Bytes} {e e' : TsEnd} {r1 r2 : Reader T}
    (h1 : Chunk d r c e r1) (h2 : Chunk d r c e' r2) : e = e' ∧ r1 = r2 := by
  obtain ⟨n, hn⟩ := h1
  obtain ⟨m, hm⟩ := h2
  have := loop_unique d n m _ _ _ _ hn hm
  simpa using this

/-- Errors collected for a list of readable frames: one for each frame that does not decode. -/
def bodyErrors (fs : List Frame) : List TsErr :=
  List.replicate (fs.filter (fun f => (delivered d f).isNone)).length .body

theorem loop_readable (fs : List Frame) (hg : ∀ f ∈ fs, Readable d f) (n : Nat) (tail : Bytes)
    (q : List (Income T)) (errs : List TsErr) :
    loop d (n + fs.length) ⟨stream fs ++ tail, q⟩ errs =
      loop d n ⟨tail, q ++ fs.filterMap (delivered d)⟩ (errs ++ bodyErrors d fs) := by
  induction fs generalizing q errs with
  | nil => simp [stream, bodyErrors]
  | cons f fs ih =>
    have ih' := ih (fun g hg' => hg g (by simp [hg']))
    rw [stream_cons, List.append_assoc, List.length_cons, ← Nat.add_assoc, loop]
    rcases hg f (by simp) with hgood | hbad
    · obtain ⟨t, ht, hd⟩ := delivered_good d hgood
      rw [round_frame d f hgood.1, if_neg (by simp [hgood.2.1]), ht]
      simp only
      rw [ih']
      simp [hd, bodyErrors]
    · have hd : delivered d f = none := by simp [delivered, hbad.2.1, hbad.2.2]
      rw [round_frame d f hbad.1, if_neg (by simp [hbad.2.1]), hbad.2.2]
      simp only
      rw [ih']
      simp [hd, bodyErrors, List.replicate_succ]

theorem loop_foreign (f : Frame) (hf : Foreign d f) (rest : Bytes) (q : List (Income T)) (n : Nat)
    (errs : List TsErr) : loop d n ⟨f.bytes ++ rest, q⟩ errs = none := by
  induction n generalizing errs with
  | zero => rfl
  | succ n ih =>
    rw [loop, round_frame d f hf.1, if_pos (fun h => hf.2 h.symm)]
    exact ih _

theorem loop_throwing (f : Frame) (hf : Throwing d f) (rest : Bytes) (q : List (Income T)) (n : Nat)
    (errs : List TsErr) : loop d (n + 1) ⟨f.bytes ++ rest, q⟩ errs =
      some (.thrown, ⟨f.bytes ++ rest, q⟩) := by
  rw [loop, round_frame d f hf.1, if_neg (by simp [hf.2.1]), hf.2.2]

theorem loop_noFrame (b : Bytes) (hb : b.length < 2 ^ 64) (hn : NoFrame b) (q : List (Income T))
    (n : Nat) (errs : List TsErr) : loop d (n + 1) ⟨b, q⟩ errs = some (.returned errs, ⟨b, q⟩) := by
  rw [loop, round_noFrame d b hb hn]

/-- Every buffer is a sequence of readable frames, and then no complete frame, or one on which the
decoder throws, or one with a foreign signature. -/
theorem shape (b : Bytes) (hb : b.length < 2 ^ 64) :
    ∃ fs tail, (∀ f ∈ fs, Readable d f) ∧ b = stream fs ++ tail ∧
      (NoFrame tail ∨ ∃ f rest, tail = f.bytes ++ rest ∧ (Throwing d f ∨ Foreign d f)) := by
  induction hn : b.length using Nat.strongRecOn generalizing b with
  | ind n ih =>
    rcases frame_or_not b with h | ⟨f, rest, hf, he⟩
    · exact ⟨[], b, by simp, by simp [stream], Or.inl h⟩
    · by_cases hs : d.signature = f.hdr.signature
      · have hlen : b.length = 26 + f.body.length + rest.length := by
          rw [he, List.length_append, frame_length]
        have go : Readable d f → ∃ fs tail, (∀ f ∈ fs, Readable d f) ∧ b = stream fs ++ tail ∧
            (NoFrame tail ∨ ∃ f rest, tail = f.bytes ++ rest ∧ (Throwing d f ∨ Foreign d f)) := by
          intro hr
          obtain ⟨fs, tail, h1, h2, h3⟩ := ih rest.length (by omega) rest (by omega) rfl
          refine ⟨f :: fs, tail, ?_, by rw [he, h2, stream_cons, List.append_assoc], h3⟩
          intro g hg
          rcases List.mem_cons.mp hg with rfl | hg
          · exact hr
          · exact h1 g hg
        cases hm : d.getMsg f.hdr.id f.body with
        | ok t => exact go (Or.inl ⟨hf, hs, t, hm⟩)
        | err => exact go (Or.inr ⟨hf, hs, hm⟩)
        | panic =>
          exact ⟨[], b, by simp, by simp [stream], Or.inr ⟨f, rest, he, Or.inl ⟨hf, hs, hm⟩⟩⟩
      · exact ⟨[], b, by simp, by simp [stream], Or.inr ⟨f, rest, he, Or.inr ⟨hf, hs⟩⟩⟩

theorem chunk_returns (r : Reader T) (c : Bytes) (fs : List Frame) (hg : ∀ f ∈ fs, Readable d f)
    (tail : Bytes) (hb : tail.length < 2 ^ 64) (hn : NoFrame tail)
    (he : r.buffer ++ c = stream fs ++ tail) :
    Chunk d r c (.returned (bodyErrors d fs)) ⟨tail, r.queue ++ fs.filterMap (delivered d)⟩ := by
  refine ⟨0 + 1 + fs.length, ?_⟩
  rw [he, loop_readable d fs hg, loop_noFrame d tail hb hn]
  simp

theorem chunk_throws (r : Reader T) (c : Bytes) (fs : List Frame) (hg : ∀ f ∈ fs, Readable d f)
    (f : Frame) (hf : Throwing d f) (rest : Bytes)
    (he : r.buffer ++ c = stream fs ++ (f.bytes ++ rest)) :
    Chunk d r c .thrown ⟨f.bytes ++ rest, r.queue ++ fs.filterMap (delivered d)⟩ := by
  refine ⟨0 + 1 + fs.length, ?_⟩
  rw [he, loop_readable d fs hg, loop_throwing d f hf]

theorem chunk_hangs (r : Reader T) (c : Bytes) (fs : List Frame) (hg : ∀ f ∈ fs, Readable d f)
    (f : Frame) (hf : Foreign d f) (rest : Bytes)
    (he : r.buffer ++ c = stream fs ++ (f.bytes ++ rest)) (e : TsEnd) (r' : Reader T) :
    ¬ Chunk d r c e r' := by
  rintro ⟨n, hn⟩
  have := loop_mono d n fs.length _ _ _ hn
  rw [he, loop_readable d fs hg, loop_foreign d f hf] at this
  simp at this

/-- A call that ends took readable frames and stopped at an incomplete or throwing one. -/
theorem chunk_ended {r : Reader T} {c : Bytes} {e : TsEnd} {r' : Reader T}
    (hb : r.buffer.length + c.length < 2 ^ 64) (h : Chunk d r c e r') :
    ∃ fs, (∀ f ∈ fs, Readable d f) ∧ r.buffer ++ c = stream fs ++ r'.buffer ∧
      r'.queue = r.queue ++ fs.filterMap (delivered d) ∧
      ((NoFrame r'.buffer ∧ e = .returned (bodyErrors d fs)) ∨
       (e = .thrown ∧ ∃ f rest, Throwing d f ∧ r'.buffer = f.bytes ++ rest)) := by
  have hl : (r.buffer ++ c).length < 2 ^ 64 := by simpa using hb
  obtain ⟨fs, tail, h1, h2, h3⟩ := shape d (r.buffer ++ c) hl
  have htl : tail.length < 2 ^ 64 := by
    rw [h2, List.length_append] at hl; omega
  rcases h3 with hn | ⟨f, rest, rfl, ht | hf⟩
  · obtain ⟨rfl, rfl⟩ := chunk_unique d h (chunk_returns d r c fs h1 tail htl hn h2)
    exact ⟨fs, h1, h2, rfl, Or.inl ⟨hn, rfl⟩⟩
  · obtain ⟨rfl, rfl⟩ := chunk_unique d h (chunk_throws d r c fs h1 f ht rest h2)
    exact ⟨fs, h1, h2, rfl, Or.inr ⟨rfl, f, rest, ht, rfl⟩⟩
  · exact absurd h (chunk_hangs d r c fs h1 f hf rest h2 e r')

end

theorem bytes_prefix_unique {f g : Frame} (hf : f.Ok) (hg : g.Ok) {s t : Bytes}
    (h : f.bytes ++ s = g.bytes ++ t) : f = g ∧ s = t := by
  have hh : f.hdr = g.hdr := by
    rw [← getHeader_frame f s, h, getHeader_frame]
  have hl : f.body.length = g.body.length := by rw [← hf.1, ← hg.1, hh]
  have hb : f.bytes = g.bytes ∧ s = t := by
    refine List.append_inj h ?_
    rw [frame_length, frame_length, hl]
  refine ⟨?_, hb.2⟩
  obtain ⟨fh, fb⟩ := f
  obtain ⟨gh, gb⟩ := g
  simp only at hh hl
  subst hh
  have := hb.1
  simp only [Frame.bytes] at this
  rw [List.append_cancel_left this]

theorem noFrame_of_incomplete {fs : List Frame} (hok : ∀ f ∈ fs, f.Ok) {b : Bytes}
    (h : Incomplete fs b) : NoFrame b := by
  intro g hg ⟨s, hs⟩
  rcases h with ⟨_, rfl⟩ | ⟨f, gs, t, rfl, hb, ht⟩
  · have := congrArg List.length hs
    rw [List.length_append, frame_length] at this; simp at this
  · have h2 : f.bytes ++ [] = g.bytes ++ (s ++ t) := by
      rw [List.append_nil, hb, ← hs, List.append_assoc]
    have := (bytes_prefix_unique (hok f (by simp)) hg h2).2
    have : s = [] ∧ t = [] := by simpa using this.symm
    exact ht this.2

theorem bodyErrors_good {T : Type} (d : Decoder T) (fs : List Frame) (hg : ∀ f ∈ fs, Good d f) :
    bodyErrors d fs = [] := by
  unfold bodyErrors
  rw [List.filter_eq_nil_iff.mpr]
  · rfl
  · intro f hf
    obtain ⟨t, _, ht⟩ := delivered_good d (hg f hf)
    simp [ht]

theorem frame_lt {f : Frame} (hf : f.Ok) : f.bytes.length < 2 ^ 64 := by
  rw [frame_length]; have := hf.2; omega

theorem incomplete_lt {fs : List Frame} (hok : ∀ f ∈ fs, f.Ok) {b : Bytes} (h : Incomplete fs b) :
    b.length < 2 ^ 64 := by
  rcases h with ⟨_, rfl⟩ | ⟨f, gs, t, rfl, hb, ht⟩
  · simp
  · have := frame_lt (hok f (by simp))
    rw [hb, List.length_append] at this
    omega

/-- Good frames in any chunks: a run exists. -/
theorem run_good {T : Type} (d : Decoder T) : ∀ (ops : List ReadOp) (fs : List Frame) (b : Bytes)
    (q : List (Income T)), (∀ f ∈ fs, Good d f) → Incomplete fs b → b ++ fed ops <+: stream fs →
    ∃ es got r' gs hs, TsRun d ops ⟨b, q⟩ es got r' ∧ fs = gs ++ hs ∧
      b ++ fed ops = stream gs ++ r'.buffer ∧ Incomplete hs r'.buffer ∧
      (∀ e ∈ es, e = .returned []) ∧ got ++ r'.queue = q ++ gs.filterMap (delivered d)
  | [], fs, b, q, _, hi, _ =>
    ⟨[], [], ⟨b, q⟩, [], fs, .done _, by simp, by simp [fed, stream], hi, by simp, by simp⟩
  | .next :: ops, fs, b, [], hg, hi, hp => by
    obtain ⟨es, got, r', gs, hs, h1, h2⟩ := run_good d ops fs b [] hg hi hp
    exact ⟨es, got, r', gs, hs, .empty rfl h1, h2⟩
  | .next :: ops, fs, b, m :: q, hg, hi, hp => by
    obtain ⟨es, got, r', gs, hs, h1, h2, h3, h4, h5, h6⟩ := run_good d ops fs b q hg hi hp
    exact ⟨es, m :: got, r', gs, hs, .fetch rfl h1, h2, h3, h4, h5, by simp [h6]⟩
  | .feed c :: ops, fs, b, q, hg, hi, hp => by
    have hp' : (b ++ c) ++ fed ops <+: stream fs := by simpa [fed] using hp
    have hpre : b ++ c <+: stream fs := by
      obtain ⟨t, ht⟩ := hp'
      exact ⟨fed ops ++ t, by simpa [List.append_assoc] using ht⟩
    obtain ⟨gs, hs, b1, h1, h2, h3⟩ := split_stream fs (b ++ c) hpre
    have hgs : ∀ f ∈ gs, Good d f := fun f hf => hg f (by rw [h1]; simp [hf])
    have hhs : ∀ f ∈ hs, Good d f := fun f hf => hg f (by rw [h1]; simp [hf])
    have hok : ∀ f ∈ hs, f.Ok := fun f hf => (hhs f hf).1
    have hc := chunk_returns d ⟨b, q⟩ c gs (fun f hf => Or.inl (hgs f hf)) b1
      (incomplete_lt hok h3) (noFrame_of_incomplete hok h3) h2
    rw [bodyErrors_good d gs hgs] at hc
    have hrest : b1 ++ fed ops <+: stream hs := by
      obtain ⟨t, ht⟩ := hp'
      refine ⟨t, ?_⟩
      rw [h2, h1, stream_append, List.append_assoc, List.append_assoc] at ht
      rw [List.append_assoc]
      exact List.append_cancel_left ht
    obtain ⟨es, got, r', gs2, hs2, k1, k2, k3, k4, k5, k6⟩ :=
      run_good d ops hs b1 (q ++ gs.filterMap (delivered d)) hhs h3 hrest
    refine ⟨_ :: es, got, r', gs ++ gs2, hs2, .feed hc k1, by rw [h1, k2, List.append_assoc], ?_, k4,
      ?_, ?_⟩
    · rw [fed, ← List.append_assoc, h2, List.append_assoc, k3, stream_append, List.append_assoc]
    · intro e he
      rcases List.mem_cons.mp he with rfl | he
      · rfl
      · exact k5 e he
    · rw [k6]; simp

/-- Runs are determined by the operations. -/
theorem run_unique {T : Type} (d : Decoder T) {ops : List ReadOp} {r : Reader T}
    {es es' : List TsEnd} {got got' : List (Income T)} {r1 r2 : Reader T}
    (h1 : TsRun d ops r es got r1) (h2 : TsRun d ops r es' got' r2) :
    es = es' ∧ got = got' ∧ r1 = r2 := by
  induction h1 generalizing es' got' r2 with
  | done r => cases h2; simp
  | feed hc _ ih =>
    cases h2 with
    | feed hc' ht' =>
      obtain ⟨rfl, rfl⟩ := chunk_unique d hc hc'
      obtain ⟨rfl, rfl, rfl⟩ := ih ht'
      simp
  | empty hn _ ih =>
    cases h2 with
    | empty hn' ht' =>
      rw [hn] at hn'; cases hn'
      exact ih ht'
    | fetch hn' ht' => rw [hn] at hn'; cases hn'
  | fetch hn _ ih =>
    cases h2 with
    | empty hn' ht' => rw [hn] at hn'; cases hn'
    | fetch hn' ht' =>
      rw [hn] at hn'; cases hn'
      obtain ⟨rfl, rfl, rfl⟩ := ih ht'
      simp

/-- Errors reported by the ends of feeds. -/
def reported : List TsEnd → Nat
  | [] => 0
  | .returned es :: l => es.length + reported l
  | .thrown :: l => reported l

/-- Whatever is fed, as long as the calls end. -/
theorem run_sound {T : Type} (d : Decoder T) {ops : List ReadOp} {r : Reader T}
    {es : List TsEnd} {got : List (Income T)} {r' : Reader T}
    (h : TsRun d ops r es got r') (hb : r.buffer.length + (fed ops).length < 2 ^ 64) :
    ∃ fs, (∀ f ∈ fs, Readable d f) ∧ r.buffer ++ fed ops = stream fs ++ r'.buffer ∧
      got ++ r'.queue = r.queue ++ fs.filterMap (delivered d) := by
  induction h with
  | done r => exact ⟨[], by simp, by simp [stream, fed], by simp⟩
  | @feed c ops r e r1 es got r2 hc _ ih =>
    rw [fed, List.length_append] at hb
    obtain ⟨fs, h1, h2, h3, _⟩ := chunk_ended d (by omega) hc
    have hlen : r1.buffer.length ≤ r.buffer.length + c.length := by
      have := congrArg List.length h2
      simp only [List.length_append] at this
      omega
    obtain ⟨gs, k1, k2, k3⟩ := ih (by omega)
    refine ⟨fs ++ gs, ?_, ?_, ?_⟩
    · intro f hf
      rcases List.mem_append.mp hf with hf | hf
      · exact h1 f hf
      · exact k1 f hf
    · rw [fed, ← List.append_assoc, h2, List.append_assoc, k2, stream_append, List.append_assoc]
    · rw [k3, h3]; simp
  | @empty ops r r1 es got r2 hn _ ih =>
    have : r1 = r := by
      unfold next at hn; split at hn <;> simp_all
    subst this
    exact ih hb
  | @fetch ops r m r1 es got r2 hn _ ih =>
    have : r = ⟨r1.buffer, m :: r1.queue⟩ := by
      obtain ⟨b, q⟩ := r
      cases q with
      | nil => simp [next] at hn
      | cons x q => simp only [next, Prod.mk.injEq, Option.some.injEq] at hn; rw [← hn.2, hn.1]
    subst this
    obtain ⟨gs, k1, k2, k3⟩ := ih hb
    exact ⟨gs, k1, k2, by simp [k3]⟩

/-- A throwing frame at the front stays there for ever. -/
theorem run_blocked {T : Type} (d : Decoder T) {ops : List ReadOp} {r : Reader T}
    {es : List TsEnd} {got : List (Income T)} {r' : Reader T}
    (h : TsRun d ops r es got r') (f : Frame) (hf : Throwing d f) (rest : Bytes)
    (hb : r.buffer = f.bytes ++ rest) :
    (∀ e ∈ es, e = .thrown) ∧ got ++ r'.queue = r.queue ∧
      r'.buffer = f.bytes ++ rest ++ fed ops := by
  induction h generalizing rest with
  | done r => exact ⟨by simp, by simp, by simp [fed, hb]⟩
  | @feed c ops r e r1 es got r2 hc _ ih =>
    obtain ⟨rfl, rfl⟩ := chunk_unique d hc
      (chunk_throws d r c [] (by simp) f hf (rest ++ c) (by simp [hb, stream]))
    obtain ⟨h1, h2, h3⟩ := ih (rest ++ c) rfl
    refine ⟨?_, by simpa using h2, by rw [h3, fed]; simp⟩
    intro e he
    rcases List.mem_cons.mp he with rfl | he
    · rfl
    · exact h1 e he
  | @empty ops r r1 es got r2 hn _ ih =>
    have : r1 = r := by
      unfold next at hn; split at hn <;> simp_all
    subst this
    exact ih rest hb
  | @fetch ops r m r1 es got r2 hn _ ih =>
    have : r = ⟨r1.buffer, m :: r1.queue⟩ := by
      obtain ⟨b, q⟩ := r
      cases q with
      | nil => simp [next] at hn
      | cons x q => simp only [next, Prod.mk.injEq, Option.some.injEq] at hn; rw [← hn.2, hn.1]
    subst this
    obtain ⟨h1, h2, h3⟩ := ih rest hb
    exact ⟨h1, by simp [h2], h3⟩

end Verif.Ts
