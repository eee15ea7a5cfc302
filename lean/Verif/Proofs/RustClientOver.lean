import Verif.Proofs.RustClientShake
set_option autoImplicit false
/-! What is known when a Rust client has ended. -/
namespace Verif.Client

open Verif

variable {P : Type}

structure Over (s : State P) : Prop where
  ended : s.over = true → s.api = none ∧ s.msgs = none ∧ s.open_ = false ∧
    (.emitted (.shutdown (!s.failed)) ∈ s.past ∨ .panicked ∈ s.past ∧ s.failed = true)
  told : ∀ ok, .emitted (.shutdown ok) ∈ s.past → s.over = true ∧ s.failed = !ok

/-- Steps that do not end `listen`, and change nothing after it. -/
theorem Over.quiet {s s' : State P} (h : Over s) (xs : List (Act P)) (h1 : s'.past = xs ++ s.past)
    (h2 : ∀ x ∈ xs, ∀ ok, x ≠ .emitted (.shutdown ok)) (h3 : s'.over = s.over)
    (h4 : s.over = true → s'.api = none ∧ s'.msgs = none ∧ s'.open_ = false ∧ s'.failed = s.failed) :
    Over s' := by
  refine ⟨?_, ?_⟩
  · intro k
    rw [h3] at k
    obtain ⟨a, b, c, d⟩ := h4 k
    refine ⟨a, b, c, ?_⟩
    rw [d, h1]
    rcases (h.ended k).2.2.2 with e | ⟨e, f⟩
    · exact .inl (List.mem_append_right _ e)
    · exact .inr ⟨List.mem_append_right _ e, f⟩
  · intro ok k
    rw [h1] at k
    rcases List.mem_append.1 k with k | k
    · exact absurd rfl (h2 _ k ok)
    · obtain ⟨a, b⟩ := h.told ok k
      exact ⟨by rw [h3]; exact a, by rw [(h4 a).2.2.2]; exact b⟩

theorem Over.plain {s s' : State P} (h : Over s) (xs : List (Act P)) (h1 : s'.past = xs ++ s.past)
    (h2 : ∀ x ∈ xs, ∀ ok, x ≠ .emitted (.shutdown ok)) (h3 : s'.over = s.over) (h4 : s'.api = s.api)
    (h5 : s'.msgs = s.msgs) (h6 : s'.open_ = s.open_) (h7 : s'.failed = s.failed) : Over s' :=
  h.quiet xs h1 h2 h3 (fun k => by
    obtain ⟨a, b, c, _⟩ := h.ended k
    exact ⟨h4.trans a, h5.trans b, h6.trans c, h7⟩)

/-- Steps that happen only before the end. -/
theorem Over.running {s s' : State P} (h : Over s) (xs : List (Act P)) (h1 : s'.past = xs ++ s.past)
    (h2 : ∀ x ∈ xs, ∀ ok, x ≠ .emitted (.shutdown ok)) (h3 : s'.over = s.over)
    (h4 : s.api.isSome ∨ s.msgs.isSome ∨ s.open_ = true) : Over s' :=
  h.quiet xs h1 h2 h3 (fun k => by
    obtain ⟨a, b, c, _⟩ := h.ended k
    rw [a, b, c] at h4
    simp at h4)

theorem over_step {cfg : Cfg P} {s : State P} (h : Over s) (i : Input P) : Over (step cfg s i) := by
  cases i with
  | call job body =>
    simp only [step, call]
    split
    · exact h.plain [.ended _ .failed, .called _ job body] rfl (by simp) rfl rfl rfl rfl rfl
    · exact h.plain [.called _ job body] rfl (by simp) rfl rfl rfl rfl rfl
  | proceed n =>
    simp only [step, proceed]
    split
    · exact h
    · split <;> (try split) <;> (try split) <;>
        first
        | exact h
        | exact h.plain [.ended _ _] rfl (by simp) rfl rfl rfl rfl rfl
        | exact h.plain [] rfl (by simp) rfl rfl rfl rfl rfl
  | timeout n =>
    simp only [step, timeout]
    split
    · exact h.plain [.ended _ _] rfl (by simp) rfl rfl rfl rfl rfl
    · exact h
  | abandon n => exact h.plain [] rfl (by simp) rfl rfl rfl rfl rfl
  | api sends =>
    simp only [step, apiStep]
    split
    · rename_i a c cs ha hq
      have hr : s.api.isSome ∨ s.msgs.isSome ∨ s.open_ = true := .inl (by simp [ha])
      cases c with
      | request who q o =>
        simp only [command]
        split
        · exact h.running [.apiEnded false] rfl (by simp) rfl hr
        · split
          · exact h.running [.sent who q o] rfl (by simp) rfl hr
          · exact h.running [.apiEnded false] rfl (by simp) rfl hr
      | accept q m =>
        simp only [command]
        split
        · exact h.running [] rfl (by simp) rfl hr
        · split
          · rename_i t hd
            unfold deliver at hd
            split at hd <;> split at hd <;> cases hd <;>
              exact h.running [.delivered _ _ _] rfl (by simp) rfl hr
          · exact h.running [.apiEnded false] rfl (by simp) rfl hr
      | uuid n =>
        simp only [command]
        split
        · exact h.running [] rfl (by simp) rfl hr
        · exact h.running [.apiEnded false] rfl (by simp) rfl hr
      | sequence n =>
        simp only [command]
        split
        · exact h.running [.numbered _ _] rfl (by simp) rfl hr
        · exact h.running [.apiEnded false] rfl (by simp) rfl hr
    · exact h
  | received b =>
    simp only [step, received]
    split
    · rename_i hm
      have hr : s.api.isSome ∨ s.msgs.isSome ∨ s.open_ = true := .inr (.inl (by simp [hm]))
      split
      · exact h.running [.chunk b] rfl (by simp) rfl hr
      · refine ⟨fun _ => ⟨rfl, rfl, rfl, .inr ⟨List.mem_cons_self, ?_⟩⟩, ?_⟩
        · simp [State.push, endMsgs, endApi]
        · intro ok k
          have : .emitted (.shutdown ok) ∈ s.past := by
            simpa [State.push, endMsgs, endApi] using k
          have := (h.ended (h.told ok this).1).2.1
          rw [hm] at this
          cases this
      · exact h.running [.emitted .readError, .chunk b] rfl (by simp) rfl hr
    · exact h
  | work =>
    simp only [step, work]
    split
    · rename_i hm
      have hr : s.api.isSome ∨ s.msgs.isSome ∨ s.open_ = true := .inr (.inl (by simp [hm]))
      split
      · exact h.running [] rfl (by simp) rfl hr
      · split
        · exact h.running [_, .got _ _] rfl (by simp) rfl hr
        · split
          · obtain ⟨e, he, h3⟩ := offer_past cfg _ _ (emit Event.acceptError (State.push { s with msgs := some ⟨_, .between, _⟩ } (.got _ _)))
            rw [he]
            refine h.running [.emitted e, .emitted .acceptError, .got _ _] rfl ?_ rfl hr
            rcases h3 with ⟨_, _, _, _, rfl⟩ | ⟨rfl, _⟩ <;> simp
          · exact h.running [.got _ _] rfl (by simp) rfl hr
    · rename_i reader q m r uuid hm
      have hr : s.api.isSome ∨ s.msgs.isSome ∨ s.open_ = true := .inr (.inl (by simp [hm]))
      split
      · exact h
      · exact h.running [] rfl (by simp) rfl hr
      · obtain ⟨e, he, h3⟩ := offer_past cfg q m { s with msgs := some ⟨reader, .between, uuid⟩ }
        rw [he]
        refine h.running [.emitted e] rfl ?_ rfl hr
        rcases h3 with ⟨_, _, _, _, rfl⟩ | ⟨rfl, _⟩ <;> simp
      · obtain ⟨e, he, h3⟩ := offer_past cfg q m (emit .acceptError { s with msgs := some ⟨reader, .between, uuid⟩ })
        rw [he]
        refine h.running [.emitted e, .emitted .acceptError] rfl ?_ rfl hr
        rcases h3 with ⟨_, _, _, _, rfl⟩ | ⟨rfl, _⟩ <;> simp
    · exact h
  | authMessage =>
    simp only [step, authMessage]
    split
    · rename_i reader uuid x xs hm hq
      have hr : s.api.isSome ∨ s.msgs.isSome ∨ s.open_ = true := .inr (.inl (by simp [hm]))
      split
      · split
        · exact h.running [.emitted .connected] rfl (by simp) rfl hr
        · exact h.running [.messagesEnded false] rfl (by simp) rfl hr
      · exact h.running [.messagesEnded false, .emitted .authError] rfl (by simp) rfl hr
      · split
        · exact h.running [] rfl (by simp) rfl hr
        · exact h.running [.messagesEnded false] rfl (by simp) rfl hr
    · exact h
  | auth n =>
    simp only [step, auth]
    have key : ∀ r, Over (endAuth n r s) := by
      intro r
      unfold endAuth
      simp only
      split
      · exact h.plain [.authEnded n r] rfl (by simp) rfl rfl rfl rfl rfl
      · exact h.plain [.authEnded n r] rfl (by simp) rfl rfl rfl rfl rfl
    split <;> (try split) <;>
      first
      | exact key _
      | exact h
      | exact h.plain [] rfl (by simp) rfl rfl rfl rfl rfl
  | disconnected =>
    simp only [step]
    split
    · rename_i hm
      exact h.running [] rfl (by simp) rfl (.inr (.inl (by simp [hm])))
    · exact h
  | failure =>
    simp only [step]
    split
    · exact h.plain [.emitted .transportError] rfl (by simp) rfl rfl rfl rfl rfl
    · exact h
  | eventsEnd =>
    simp only [step]
    split
    · rename_i hm
      exact h.running [.messagesEnded true] rfl (by simp) rfl (.inr (.inl (by simp [hm])))
    · exact h
  | cancel => exact h.plain [] rfl (by simp) rfl rfl rfl rfl rfl
  | shutdown =>
    simp only [step]
    split
    · exact h
    · exact h.plain [] rfl (by simp) rfl rfl rfl rfl rfl
  | closed ok =>
    simp only [step]
    split
    · rename_i ho
      cases ok
      · exact h.running [.emitted .disconnected, .emitted .transportError] rfl (by simp) rfl (.inr (.inr ho))
      · exact h.running [.emitted .disconnected] rfl (by simp) rfl (.inr (.inr ho))
    · exact h
  | apiStops =>
    simp only [step]
    split
    · rename_i ha
      simp only [Bool.and_eq_true] at ha
      exact h.running [.apiEnded true] rfl (by simp) rfl (.inl ha.2)
    · exact h
  | messagesStop =>
    simp only [step]
    split
    · rename_i hm
      exact h.running [.messagesEnded true] rfl (by simp) rfl (.inr (.inl (by simp [hm])))
    · exact h
  | finish =>
    simp only [step]
    split
    · rename_i hc
      simp only [Bool.and_eq_true, Bool.not_eq_true', Option.isNone_iff_eq_none] at hc
      obtain ⟨⟨⟨h1, h2⟩, h3⟩, h4⟩ := hc
      refine ⟨fun _ => ⟨h1, h2, h3, .inl List.mem_cons_self⟩, ?_⟩
      intro ok k
      rcases List.mem_cons.1 k with e | k
      · simp only [Act.emitted.injEq, Event.shutdown.injEq] at e
        subst e
        exact ⟨rfl, by simp [emit, State.push]⟩
      · have := (h.told ok k).1
        rw [h4] at this
        cases this
    · exact h

theorem over_run (cfg : Cfg P) (is : List (Input P)) : Over (run cfg is .new) := by
  have : ∀ s : State P, Over s → Over (run cfg is s) := by
    induction is with
    | nil => exact fun s h => h
    | cons i is ih => exact fun s h => ih _ (over_step h i)
  exact this _ ⟨by simp [State.new], by simp [State.new]⟩

/-- `shut` is set by a request for shutdown only, and stays. -/
theorem shut_step (cfg : Cfg P) (s : State P) (i : Input P) :
    (step cfg s i).shut = (s.shut || (match i with | .shutdown => !s.cancelled | _ => false)) := by
  cases i with
  | shutdown =>
    simp only [step]
    split
    · rename_i h; simp [h]
    · rename_i h; simp [h]
  | call job body =>
    simp only [step, call, Bool.or_false]
    split <;> rfl
  | proceed n =>
    simp only [step, proceed, Bool.or_false]
    split
    · rfl
    · split <;> (try split) <;> (try split) <;> rfl
  | timeout n => simp only [step, timeout, Bool.or_false]; split <;> rfl
  | abandon n => simp [step, State.dropCall]
  | api sends =>
    simp only [step, apiStep, Bool.or_false]
    split
    · rename_i a c cs ha hq
      cases c with
      | request who q o => simp only [command]; split <;> (try split) <;> rfl
      | accept q m =>
        simp only [command]
        split
        · rfl
        · split
          · rename_i t hd
            unfold deliver at hd
            split at hd <;> split at hd <;> cases hd <;> rfl
          · rfl
      | uuid n => simp only [command]; split <;> rfl
      | sequence n => simp only [command]; split <;> rfl
    · rfl
  | received b =>
    simp only [step, received, Bool.or_false]
    split
    · split <;> rfl
    · rfl
  | work =>
    have ho : ∀ q m t, (offer cfg q m t).shut = t.shut := by
      intro q m t
      obtain ⟨e, he, _⟩ := offer_past cfg q m t
      rw [he]; rfl
    simp only [step, work, Bool.or_false]
    split
    · split
      · rfl
      · split
        · rfl
        · split
          · rw [ho]; rfl
          · rfl
    · split
      · rfl
      · rfl
      · rw [ho]
      · rw [ho]; rfl
    · rfl
  | authMessage =>
    simp only [step, authMessage, Bool.or_false]
    split
    · split
      · split <;> rfl
      · rfl
      · split <;> rfl
    · rfl
  | auth n =>
    have key : ∀ r, (endAuth n r s).shut = s.shut := by
      intro r; unfold endAuth; simp only; split <;> rfl
    simp only [step, auth, Bool.or_false]
    split <;> (try split) <;> first | exact key _ | rfl
  | disconnected => simp only [step, Bool.or_false]; split <;> rfl
  | failure => simp only [step, Bool.or_false]; split <;> rfl
  | eventsEnd => simp only [step, Bool.or_false]; split <;> rfl
  | cancel => simp [step]
  | closed ok =>
    simp only [step, Bool.or_false]
    split
    · cases ok <;> rfl
    · rfl
  | apiStops => simp only [step, Bool.or_false]; split <;> rfl
  | messagesStop => simp only [step, Bool.or_false]; split <;> rfl
  | finish => simp only [step, Bool.or_false]; split <;> rfl

theorem run_append (cfg : Cfg P) (a b : List (Input P)) (s : State P) :
    run cfg (a ++ b) s = run cfg b (run cfg a s) := by simp [run]

theorem shut_run (cfg : Cfg P) (is : List (Input P)) (s : State P) (h : s.shut = true) :
    (run cfg is s).shut = true := by
  induction is generalizing s with
  | nil => exact h
  | cons i is ih => exact ih _ (by rw [shut_step, h]; rfl)

theorem not_shut_run (cfg : Cfg P) (is : List (Input P)) (s : State P) (h : s.shut = false)
    (hi : ∀ i ∈ is, i ≠ .shutdown) : (run cfg is s).shut = false := by
  induction is generalizing s with
  | nil => exact h
  | cons i is ih =>
    refine ih _ ?_ (fun j hj => hi j (List.mem_cons_of_mem _ hj))
    rw [shut_step, h]
    have := hi i List.mem_cons_self
    cases i <;> first | rfl | exact absurd rfl this

end Verif.Client
