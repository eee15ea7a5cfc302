import Verif.Proofs.RustClientMore
set_option autoImplicit false
/-! No complete frame is left in the reader of a Rust client after a chunk was read without error. -/
namespace Verif.Rust

open Verif Verif.Spec

section
variable {T : Type} {d : Decoder T}

theorem chunkLoop_ok_whole (fuel : Nat) (r r' : Reader T) (hl : r.buffer.length ≤ fuel)
    (h : chunkLoop d fuel r = (.ok, r')) : ¬ ∃ f rest, f.Ok ∧ r'.buffer = Frame.bytes f ++ rest := by
  induction fuel generalizing r with
  | zero =>
    cases h
    rintro ⟨f, rest, _, e⟩
    have := congrArg List.length e
    rw [List.length_append, frame_length] at this
    omega
  | succ fuel ih =>
    rintro ⟨f, rest, hf, e⟩
    rw [chunkLoop] at h
    split at h
    · rename_i hh
      have hh' : hasHeader r.buffer = false := by simpa using hh
      cases h
      rw [hasHeader_false_iff, e, List.length_append, frame_length] at hh'
      omega
    · rename_i hh
      have h26 : 26 ≤ r.buffer.length := by rw [← hasHeader_iff]; simpa using hh
      simp only at h
      split at h
      · cases h
      · split at h
        · rename_i h1
          cases h
          rw [e, getHeader_frame, List.length_append, frame_length, headerLen, hf.1] at h1
          omega
        · split at h
          · cases h
          · split at h
            · split at h
              · rename_i hr
                cases h
                simp only at e
                rw [List.isEmpty_iff.1 hr] at e
                have := congrArg List.length e
                rw [List.length_append, frame_length] at this
                simp at this
                omega
              · exact ih _ (by simp [headerLen]; omega) h ⟨f, rest, hf, e⟩
            · cases h
            · cases h

theorem chunk_ok_whole {r r' : Reader T} {c : Bytes} (h : chunk d r c = (.ok, r')) :
    ¬ ∃ f rest, f.Ok ∧ r'.buffer = Frame.bytes f ++ rest :=
  chunkLoop_ok_whole _ _ _ (by simp) h

theorem next_buffer (r : Reader T) : (next r).2.buffer = r.buffer := by
  unfold next
  split <;> rfl

end

end Verif.Rust

namespace Verif.Client

open Verif Verif.Spec

variable {P : Type}

/-- No complete frame is left, or the last piece of data was not read without error. -/
def Whole (s : State P) : Prop :=
  ∀ m, s.msgs = some m → (¬ ∃ f rest, f.Ok ∧ m.reader.buffer = Frame.bytes f ++ rest) ∨ Held s.past

theorem Held.more {xs h : List (Act P)} (hx : ∀ x ∈ xs, ∀ bytes, x ≠ .chunk bytes) (k : Held h) :
    Held (xs ++ h) := by
  obtain ⟨a, b, rfl, h2⟩ := k
  refine ⟨xs ++ a, b, by simp, fun x hm => ?_⟩
  rcases List.mem_append.1 hm with hm | hm
  · exact hx _ hm
  · exact h2 x hm

theorem Whole.keep {s s' : State P} (h : Whole s) (xs : List (Act P)) (h1 : s'.past = xs ++ s.past)
    (h2 : ∀ x ∈ xs, ∀ bytes, x ≠ .chunk bytes)
    (h3 : ∀ m', s'.msgs = some m' → ∃ m, s.msgs = some m ∧ m'.reader.buffer = m.reader.buffer) : Whole s' := by
  intro m' hm'
  obtain ⟨m, hm, e⟩ := h3 m' hm'
  rw [e, h1]
  exact (h m hm).imp id (Held.more h2)

theorem Whole.frame {s s' : State P} (h : Whole s) (f : Framed s s') : Whole s' := by
  obtain ⟨xs, h1, h2⟩ := f.past
  refine h.keep xs h1 (fun x hx b e => by subst e; exact h2 _ hx) ?_
  intro m' hm'
  rcases f.msgs with k | ⟨m, n, k1, k2, k3, _⟩
  · rw [k] at hm'; cases hm'
  · rw [hm'] at k2; cases k2; exact ⟨m, k1, by rw [k3]⟩

theorem whole_answer {s : State P} (h : Whole s) (b : Bool) : Whole (answerAccept b s) := by
  refine h.keep [] rfl (by simp) ?_
  intro m hm
  simp only [answerAccept] at hm
  match e : s.msgs, hm with
  | some x, hm =>
    refine ⟨x, rfl, ?_⟩
    simp only [Option.map_some, Option.some.injEq] at hm
    split at hm <;> subst hm <;> rfl

theorem whole_received {cfg : Cfg P} {s : State P} (h : Whole s) (bytes : Bytes) :
    Whole (received cfg bytes s) := by
  unfold received
  split
  · simp only
    split
    · rename_i r e
      intro m hm
      cases hm
      exact .inl (Rust.chunk_ok_whole e)
    · intro m hm; cases hm
    · intro m hm
      cases hm
      exact .inr ⟨[], _, rfl, by simp⟩
  · exact h

theorem whole_work {cfg : Cfg P} {s : State P} (h : Whole s) : Whole (work cfg s) := by
  unfold work
  split
  · rename_i reader uuid hm
    have hb := Rust.next_buffer reader
    split
    · rename_i r e
      rw [e] at hb
      exact h.keep [] rfl (by simp) (by rintro m' hm'; cases hm'; exact ⟨_, hm, hb⟩)
    · rename_i x r e
      rw [e] at hb
      have h0 : Whole (({ s with msgs := some ⟨r, .between, uuid⟩ } : State P).push
          (.got x.header.sequence x.msg)) :=
        h.keep [.got x.header.sequence x.msg] rfl (by simp)
          (by rintro m' hm'; cases hm'; exact ⟨_, hm, hb⟩)
      simp only
      split
      · exact h0.keep [.authStarted _] rfl (by simp) (fun m' hm' => ⟨m', hm', rfl⟩)
      · split
        · obtain ⟨ev, k, _⟩ := offer_past cfg x.header.sequence x.msg
            (emit .acceptError (({ s with msgs := some ⟨r, .between, uuid⟩ } : State P).push
              (.got x.header.sequence x.msg)))
          refine h0.keep [.emitted ev, .emitted .acceptError] (by rw [k]; rfl) (by simp) ?_
          intro m' hm'
          rw [offer_msgs] at hm'
          exact ⟨m', hm', rfl⟩
        · exact h0.keep [] rfl (by simp) (by rintro m' hm'; cases hm'; exact ⟨_, rfl, rfl⟩)
  · rename_i reader q m r uuid hm
    have h0 : Whole ({ s with msgs := some ⟨reader, .between, uuid⟩ } : State P) :=
      h.keep [] rfl (by simp) (by rintro m' hm'; cases hm'; exact ⟨_, hm, rfl⟩)
    simp only
    split
    · exact h
    · exact h0
    · obtain ⟨ev, k, _⟩ := offer_past cfg q m ({ s with msgs := some ⟨reader, .between, uuid⟩ } : State P)
      refine h0.keep [.emitted ev] (by rw [k]; rfl) (by simp) ?_
      intro m' hm'
      rw [offer_msgs] at hm'
      exact ⟨m', hm', rfl⟩
    · obtain ⟨ev, k, _⟩ := offer_past cfg q m
        (emit .acceptError ({ s with msgs := some ⟨reader, .between, uuid⟩ } : State P))
      refine h0.keep [.emitted ev, .emitted .acceptError] (by rw [k]; rfl) (by simp) ?_
      intro m' hm'
      rw [offer_msgs] at hm'
      exact ⟨m', hm', rfl⟩
  · exact h

theorem whole_step {cfg : Cfg P} {s : State P} (h : Whole s) (i : Input P) : Whole (step cfg s i) := by
  by_cases h1 : ∃ b, i = .api b
  · obtain ⟨b, rfl⟩ := h1
    simp only [step]
    rcases api_step b s with f | ⟨a, n, k1, k2, k3, k4⟩ | ⟨t, c, a, q, m, cs, f, _, k, _⟩
    · exact h.frame f
    · exact h.keep [_] k3 (by simp) (fun m hm => ⟨m, k4 ▸ hm, rfl⟩)
    · rw [k]
      exact whole_answer (h.frame f) _
  · by_cases h2 : ∃ b, i = .received b
    · obtain ⟨b, rfl⟩ := h2; exact whole_received h b
    · by_cases h3 : i = .work
      · subst h3; exact whole_work h
      · exact h.frame (frame_step cfg s i (fun b e => h1 ⟨b, e⟩) (fun b e => h2 ⟨b, e⟩) h3)

theorem whole_run (cfg : Cfg P) (is : List (Input P)) : Whole (run cfg is .new) := by
  have : ∀ s : State P, Whole s → Whole (run cfg is s) := by
    induction is with
    | nil => exact fun s h => h
    | cons i is ih => exact fun s h => ih _ (whole_step h i)
  refine this _ ?_
  rintro m hm
  cases hm
  refine .inl ?_
  rintro ⟨f, rest, _, e⟩
  have := congrArg List.length e
  rw [List.length_append, Rust.frame_length] at this
  simp [Rust.Reader.new] at this
  omega

end Verif.Client
