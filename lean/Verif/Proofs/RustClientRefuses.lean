import Verif.Proofs.RustClientCalls
import Verif.Proofs.RustClientAlive
set_option autoImplicit false
/-! A Rust client fails to find out who waits for a message only if the task that sends requests has ended. -/
namespace Verif.Client

open Verif Verif.Spec

variable {P : Type}

/-- The answer of `api.accept` will never come. -/
def Closed (s : State P) : Prop := ∃ m q x, s.msgs = some m ∧ m.place = .accepting q x .closed

structure Refuses (s : State P) : Prop where
  past : .emitted .acceptError ∈ s.past → s.api = none
  place : Closed s → s.api = none

theorem Refuses.keep {s s' : State P} (h : Refuses s) (h1 : s.api = none → s'.api = none)
    (h2 : .emitted .acceptError ∈ s'.past → .emitted .acceptError ∈ s.past ∨ s'.api = none) (h3 : Closed s' → Closed s ∨ s'.api = none) :
    Refuses s' :=
  ⟨fun k => (h2 k).elim (fun k => h1 (h.past k)) id, fun k => (h3 k).elim (fun k => h1 (h.place k)) id⟩

theorem Refuses.framed {s s' : State P} (h : Refuses s) (f : Framed s s') (h3 : Closed s' → Closed s ∨ s'.api = none) : Refuses s' := by
  refine h.keep (fun k => ?_) (fun k => ?_) h3
  · rcases f.api with k' | ⟨a, a', k1, _⟩
    · exact k'
    · rw [k] at k1; cases k1
  · obtain ⟨xs, e, hx⟩ := f.past
    rw [e] at k
    rcases List.mem_append.1 k with k | k
    · exact (hx _ k).elim
    · exact .inl k

theorem closed_same {s s' : State P} (h : s'.msgs = s.msgs) : Closed s' → Closed s ∨ s'.api = none := by
  rintro ⟨m, q, x, h1, h2⟩
  exact .inl ⟨m, q, x, by rw [← h, h1], h2⟩

theorem closed_idle {s s' : State P} {r : Rust.Reader (In P)} {u : Option (List Char)} (h : s'.msgs = some ⟨r, .idle, u⟩) :
    Closed s' → Closed s ∨ s'.api = none := by
  rintro ⟨m, q, x, h1, h2⟩
  rw [h] at h1
  cases h1
  cases h2

theorem closed_between {s s' : State P} {r : Rust.Reader (In P)} {u : Option (List Char)} (h : s'.msgs = some ⟨r, .between, u⟩) :
    Closed s' → Closed s ∨ s'.api = none := by
  rintro ⟨m, q, x, h1, h2⟩
  rw [h] at h1
  cases h1
  cases h2

theorem closed_none {s s' : State P} (h : s'.msgs = none) : Closed s' → Closed s ∨ s'.api = none := by
  rintro ⟨m, q, x, h1, h2⟩
  rw [h] at h1
  cases h1

theorem closed_endAuth {s s0 : State P} (n : Nat) (r : Option (List Char)) (h : s0.msgs = s.msgs) : (endAuth n r s0).msgs = s.msgs := by
  unfold endAuth
  simp only [State.push]
  split <;> simp_all

theorem closed_step (cfg : Cfg P) (s : State P) (i : Input P) (h2 : ∀ b, i ≠ .received b) (h3 : i ≠ .work) :
    Closed (step cfg s i) → Closed s ∨ (step cfg s i).api = none := by
  cases i with
  | call job body =>
    simp only [step, call]
    split <;> exact closed_same rfl
  | proceed n =>
    simp only [step, proceed]
    repeat' split
    all_goals exact closed_same rfl
  | timeout n =>
    simp only [step, timeout]
    split <;> exact closed_same rfl
  | abandon n => exact closed_same rfl
  | api sends =>
    simp only [step, apiStep]
    split
    · rename_i a c cs ha hq
      cases c with
      | request who q o =>
        simp only [command]
        repeat' split
        all_goals first | exact fun _ => .inr rfl | exact closed_same rfl
      | accept q m =>
        have key : ∀ (b : Bool) (t : State P), t.msgs = s.msgs → Closed (answerAccept b t) → Closed s ∨ (answerAccept b t).api = none := by
          rintro b t ht ⟨m', q', x', k1, k2⟩
          left
          simp only [answerAccept, ht] at k1
          cases e : s.msgs with
          | none => rw [e] at k1; cases k1
          | some y =>
            rw [e] at k1
            simp only [Option.map_some, Option.some.injEq] at k1
            split at k1
            · subst k1; cases k2
            · subst k1; exact ⟨y, q', x', e, k2⟩
        simp only [command]
        split
        · exact key _ _ rfl
        · split
          · rename_i t ht
            exact key _ _ (by rw [(frame_deliver ht).2.2])
          · exact fun _ => .inr rfl
      | uuid n =>
        simp only [command]
        split
        · exact closed_same rfl
        · exact fun _ => .inr rfl
      | sequence n =>
        simp only [command]
        split
        · exact closed_same rfl
        · exact fun _ => .inr rfl
    · exact closed_same rfl
  | received b => exact absurd rfl (h2 b)
  | work => exact absurd rfl h3
  | authMessage =>
    simp only [step, authMessage]
    split
    · rename_i reader uuid x xs hm hq
      cases x with
      | setUuid r =>
        cases r with
        | none => exact closed_none rfl
        | some u =>
          simp only
          split
          · exact closed_idle rfl
          · exact closed_none rfl
      | getUuid n =>
        simp only
        split
        · exact closed_idle rfl
        · exact closed_none rfl
    · exact closed_same rfl
  | auth n =>
    simp only [step, auth]
    repeat' split
    all_goals first | exact closed_same (closed_endAuth _ _ rfl) | exact closed_same rfl
  | disconnected =>
    simp only [step]
    split
    · exact closed_idle rfl
    · exact closed_same rfl
  | failure =>
    simp only [step]
    split <;> exact closed_same rfl
  | eventsEnd =>
    simp only [step]
    split
    · exact closed_none rfl
    · exact closed_same rfl
  | cancel => exact closed_same rfl
  | shutdown =>
    simp only [step]
    split <;> exact closed_same rfl
  | closed ok =>
    simp only [step]
    split
    · cases ok <;> exact closed_same rfl
    · exact closed_same rfl
  | apiStops =>
    simp only [step]
    split
    · exact fun _ => .inr rfl
    · exact closed_same rfl
  | messagesStop =>
    simp only [step]
    split
    · exact closed_none rfl
    · exact closed_same rfl
  | finish =>
    simp only [step]
    split <;> exact closed_same rfl

theorem offer_api (cfg : Cfg P) (q : UInt32) (m : In P) (s : State P) : (offer cfg q m s).api = s.api := by
  unfold offer
  split
  · split <;> rfl
  · rfl

theorem offer_refused (cfg : Cfg P) (q : UInt32) (m : In P) (s : State P) (h : .emitted .acceptError ∈ (offer cfg q m s).past) :
    .emitted .acceptError ∈ s.past := by
  unfold offer at h
  repeat' split at h
  all_goals simpa [emit, State.push] using h

theorem refuses_step {cfg : Cfg P} {s : State P} (h : Refuses s) (i : Input P) : Refuses (step cfg s i) := by
  by_cases h1 : ∃ b, i = .api b
  · obtain ⟨b, rfl⟩ := h1
    have hc := closed_step cfg s (.api b) (by simp) (by simp)
    rcases api_step b s with f | ⟨a, n, k1, k2, k3, k4⟩ | ⟨t, c, a, q, m, cs, f, ht, k, ka, kq, kf⟩
    · exact h.framed f hc
    · refine h.keep (fun k => ?_) (fun k => ?_) hc
      · rw [k1] at k; cases k
      · simp only [step] at k
        rw [k3] at k
        exact .inl (by simpa using k)
    · refine h.keep (fun k => ?_) (fun k' => ?_) hc
      · rw [ka] at k; cases k
      · simp only [step] at k'
        rw [k] at k'
        obtain ⟨xs, e, hx⟩ := f.past
        rw [answerAccept_past, e] at k'
        rcases List.mem_append.1 k' with k | k
        · exact (hx _ k).elim
        · exact .inl k
  · by_cases h2 : ∃ b, i = .received b
    · obtain ⟨b, rfl⟩ := h2
      simp only [step, received]
      split
      · split
        · exact h.keep id (fun k => .inl (by simpa [State.push] using k)) (closed_between rfl)
        · exact h.keep (fun _ => rfl) (fun _ => .inr rfl) (closed_none rfl)
        · exact h.keep id (fun k => .inl (by simpa [State.push, emit] using k)) (closed_idle rfl)
      · exact h
    · by_cases h3 : i = .work
      · subst h3
        simp only [step, work]
        split
        · rename_i reader uuid hm
          split
          · exact h.keep id .inl (closed_idle rfl)
          · rename_i x r e
            split
            · exact h.keep id (fun k => .inl (by simpa [State.push] using k)) (closed_between rfl)
            · split
              · rename_i ha
                have ha : s.api = none := ha
                refine h.keep (fun k => ?_) (fun _ => .inr ?_) ?_
                · rw [offer_api]; exact k
                · rw [offer_api]; exact ha
                · refine closed_between (r := r) (u := uuid) ?_
                  rw [offer_msgs]
                  rfl
              · refine h.keep id (fun k => .inl (by simpa [State.push, State.command] using k)) ?_
                rintro ⟨m', q', x', k1, k2⟩
                cases k1
                cases k2
        · rename_i reader q m r uuid hm
          split
          · exact h
          · exact h.keep id .inl (closed_between rfl)
          · refine h.keep (fun k => ?_) (fun k => .inl ?_) ?_
            · rw [offer_api]; exact k
            · have := offer_refused _ _ _ _ k
              exact this
            · refine closed_between (r := reader) (u := uuid) ?_
              rw [offer_msgs]
          · have ha := h.place ⟨_, _, _, hm, rfl⟩
            refine h.keep (fun k => ?_) (fun _ => .inr ?_) ?_
            · rw [offer_api]; exact k
            · rw [offer_api]; exact ha
            · refine closed_between (r := reader) (u := uuid) ?_
              rw [offer_msgs]
              rfl
        · exact h
      · exact h.framed (frame_step cfg s i (fun b e => h1 ⟨b, e⟩) (fun b e => h2 ⟨b, e⟩) h3) (closed_step cfg s i (fun b e => h2 ⟨b, e⟩) h3)

theorem refuses_run (cfg : Cfg P) (is : List (Input P)) : Refuses (run cfg is .new) := by
  have : ∀ s : State P, Refuses s → Refuses (run cfg is s) := by
    induction is with
    | nil => exact fun s h => h
    | cons i is ih => exact fun s h => ih _ (refuses_step h i)
  refine this _ ⟨by simp [State.new], ?_⟩
  rintro ⟨m, q, x, h1, h2⟩
  cases h1
  cases h2

end Verif.Client
