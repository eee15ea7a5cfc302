import Verif.Proofs.RustClientCalls
set_option autoImplicit false
/-! Why calls of a Rust client fail. -/
namespace Verif.Client

open Verif

variable {P : Type}

def Phase.shut : Phase P → Prop
  | .sequence .closed => True
  | .uuid _ .closed => True
  | .response _ .closed => True
  | _ => False

def Phase.served : Phase P → Prop
  | .response _ (.ready _) => True
  | _ => False

def FailsOK (cfg : Cfg P) : List (Act P) → Prop
  | [] => True
  | x :: h => (∀ n, x = .ended n .failed → Hopeless cfg n h) ∧ FailsOK cfg h

structure Fails (cfg : Cfg P) (s : State P) : Prop where
  gone : s.api = none → ∃ ok, .apiEnded ok ∈ s.past
  shut : ∀ n c, s.calls.lookup n = some c → c.phase.shut → Stopped s.past
  served : ∀ n c q m, s.calls.lookup n = some c → .delivered (.call n) q m ∈ s.past → c.phase.served
  failed : FailsOK cfg s.past

theorem FailsOK.append {cfg : Cfg P} {h : List (Act P)} (k : FailsOK cfg h) {xs : List (Act P)}
    (hx : ∀ x ∈ xs, ∀ n, x ≠ .ended n .failed) : FailsOK cfg (xs ++ h) := by
  induction xs with
  | nil => exact k
  | cons x xs ih =>
    exact ⟨fun n e => absurd e (hx x (by simp) n), ih (fun y hy => hx y (List.mem_cons_of_mem _ hy))⟩

theorem Stopped.append {h : List (Act P)} (k : Stopped h) (xs : List (Act P)) : Stopped (xs ++ h) := by
  rcases k with ⟨ok, k⟩ | ⟨ok, k⟩
  · exact .inl ⟨ok, List.mem_append_right _ k⟩
  · exact .inr ⟨ok, List.mem_append_right _ k⟩

theorem FailsOK.at {cfg : Cfg P} {a b : List (Act P)} {n : Nat} (h : FailsOK cfg (a ++ .ended n .failed :: b)) :
    Hopeless cfg n b := by
  induction a with
  | nil => exact h.1 n rfl
  | cons y a ih => exact ih h.2

/-- Calls may only change in the expected way. -/
theorem Fails.quiet {cfg : Cfg P} {s s' : State P} (h : Fails cfg s) (xs : List (Act P))
    (h1 : s'.past = xs ++ s.past)
    (h2 : ∀ x ∈ xs, (∀ n, x ≠ .ended n .failed) ∧ ∀ n q m, x ≠ .delivered (.call n) q m)
    (h3 : s'.api = none → s.api = none ∨ ∃ ok, .apiEnded ok ∈ xs)
    (h4 : ∀ n c', s'.calls.lookup n = some c' → ∃ c, s.calls.lookup n = some c ∧
      (c'.phase.shut → c.phase.shut ∨ Stopped xs) ∧ (c.phase.served → c'.phase.served)) : Fails cfg s' := by
  refine ⟨fun k => ?_, fun n c' k1 k2 => ?_, fun n c' q m k1 k2 => ?_, ?_⟩
  · rw [h1]
    rcases h3 k with k | ⟨ok, k⟩
    · obtain ⟨ok, k⟩ := h.gone k; exact ⟨ok, List.mem_append_right _ k⟩
    · exact ⟨ok, List.mem_append_left _ k⟩
  · rw [h1]
    obtain ⟨c, e1, e2, _⟩ := h4 n c' k1
    rcases e2 k2 with e | e
    · exact (h.shut n c e1 e).append xs
    · rcases e with ⟨ok, e⟩ | ⟨ok, e⟩
      · exact .inl ⟨ok, List.mem_append_left _ e⟩
      · exact .inr ⟨ok, List.mem_append_left _ e⟩
  · rw [h1] at k2
    obtain ⟨c, e1, _, e3⟩ := h4 n c' k1
    rcases List.mem_append.1 k2 with k2 | k2
    · exact absurd rfl ((h2 _ k2).2 n q m)
    · exact e3 (h.served n c q m e1 k2)
  · rw [h1]
    exact h.failed.append (fun x hx => (h2 x hx).1)

theorem Fails.same {cfg : Cfg P} {s s' : State P} (h : Fails cfg s) (xs : List (Act P))
    (h1 : s'.past = xs ++ s.past)
    (h2 : ∀ x ∈ xs, (∀ n, x ≠ .ended n .failed) ∧ ∀ n q m, x ≠ .delivered (.call n) q m)
    (h3 : s'.api = none → s.api = none ∨ ∃ ok, .apiEnded ok ∈ xs) (h4 : s'.calls = s.calls) : Fails cfg s' :=
  h.quiet xs h1 h2 h3 (fun n c k => ⟨c, by rw [← h4]; exact k, .inl, id⟩)

/-- One call changes. -/
theorem Fails.set {cfg : Cfg P} {s s' : State P} (h : Fails cfg s) (xs : List (Act P))
    (h1 : s'.past = xs ++ s.past)
    (h2 : ∀ x ∈ xs, (∀ n, x ≠ .ended n .failed) ∧ ∀ n q m, x ≠ .delivered (.call n) q m)
    (h3 : s'.api = none → s.api = none ∨ ∃ ok, .apiEnded ok ∈ xs) {n : Nat} {c d : Call P}
    (hl : s.calls.lookup n = some d) (hs : ¬ d.phase.served) (hc : ¬ c.phase.shut)
    (h4 : s'.calls = (s.setCall n c).calls) : Fails cfg s' := by
  refine h.quiet xs h1 h2 h3 (fun m c' k => ?_)
  rw [h4] at k
  simp only [State.setCall] at k
  rw [lookup_mapSet] at k
  split at k
  · rename_i e
    subst e
    rw [hl] at k
    cases k
    exact ⟨d, hl, fun e => absurd e hc, fun e => absurd e hs⟩
  · exact ⟨c', k, .inl, id⟩

theorem Reply.close_closed {α : Type} (r : Reply α) : r.close = .closed ∨ ∃ a, r = .ready a ∧ r.close = .ready a := by
  cases r <;> simp [Reply.close]

theorem orphan_served {c : Call P} {b : Bool} (h : c.phase.served) : (c.orphan b).phase.served := by
  obtain ⟨job, body, ph⟩ := c
  cases ph with
  | sequence r => exact h.elim
  | uuid q r => exact h.elim
  | response q r => cases r <;> first | exact h.elim | exact trivial

theorem unheard_served {c : Call P} {b : Bool} (h : c.phase.served) : (c.unheard b).phase.served := by
  obtain ⟨job, body, ph⟩ := c
  cases ph with
  | sequence r => exact h.elim
  | uuid q r => exact h.elim
  | response q r => cases r <;> first | exact h.elim | exact trivial

theorem fails_endApi {cfg : Cfg P} {s s' : State P} (h : Fails cfg s) (ok : Bool) (h1 : s'.past = s.past)
    (h2 : s'.calls = s.calls) : Fails cfg (endApi ok s') := by
  refine h.quiet [.apiEnded ok] (by simp [endApi, State.push, h1]) (by simp) (fun _ => .inr ⟨ok, by simp⟩) ?_
  intro n c' k
  simp only [endApi, State.push] at k
  rw [lookup_mapVal (f := fun n (c : Call P) => c.orphan (s'.authQueue.contains (.getUuid n))), h2] at k
  cases e : s.calls.lookup n with
  | none => rw [e] at k; cases k
  | some c =>
    rw [e] at k
    cases k
    exact ⟨c, rfl, fun _ => .inr (.inl ⟨ok, by simp⟩), orphan_served⟩

theorem fails_endMsgs {cfg : Cfg P} {s : State P} (h : Fails cfg s) (ok : Bool) : Fails cfg (endMsgs ok s) := by
  refine h.quiet [.messagesEnded ok] (by simp [endMsgs, State.push]) (by simp) (fun k => .inl k) ?_
  intro n c' k
  simp only [endMsgs, State.push] at k
  rw [lookup_mapVal (f := fun n (c : Call P) => c.unheard (s.authQueue.contains (.getUuid n)))] at k
  cases e : s.calls.lookup n with
  | none => rw [e] at k; cases k
  | some c =>
    rw [e] at k
    cases k
    exact ⟨c, rfl, fun _ => .inr (.inr ⟨ok, by simp⟩), unheard_served⟩

theorem fails_endCall {cfg : Cfg P} {s : State P} (h : Fails cfg s) {n : Nat} {r : Result P}
    (hr : r = .failed → Hopeless cfg n s.past) : Fails cfg (s.endCall n r) := by
  refine ⟨fun k => ?_, fun m c k1 k2 => ?_, fun m c q x k1 k2 => ?_, ⟨?_, h.failed⟩⟩
  · obtain ⟨ok, k⟩ := h.gone k
    exact ⟨ok, List.mem_cons_of_mem _ k⟩
  · simp only [State.endCall, State.dropCall, State.push] at k1
    rw [lookup_filterNe] at k1
    split at k1
    · cases k1
    · exact (h.shut m c k1 k2).append [_]
  · simp only [State.endCall, State.dropCall, State.push] at k1
    rw [lookup_filterNe] at k1
    split at k1
    · cases k1
    · rcases List.mem_cons.1 k2 with e | k2
      · cases e
      · exact h.served m c q x k1 k2
  · intro m e
    simp only [Act.ended.injEq] at e
    obtain ⟨rfl, rfl⟩ := e
    exact hr rfl

theorem conclude_ne (job : Job) (m : In P) : conclude job m ≠ .failed := by
  unfold conclude
  split
  · split
    · simp
    · split <;> simp
  · split <;> simp
  · simp

theorem fails_step {cfg : Cfg P} {s : State P} (hi : Inv cfg s) (h : Fails cfg s) (i : Input P) :
    Fails cfg (step cfg s i) := by
  cases i with
  | call job body =>
    have hf := hi.fresh s.next (Nat.le_refl _)
    have hnd : ∀ q m, .delivered (.call s.next) q m ∉ s.past := by
      intro q m hm
      obtain ⟨o, ho⟩ := lawful_delivered hi.lawful hm
      obtain ⟨_, _, _, _, k, _⟩ := lawful_sent hi.lawful ho
      exact hf.1 _ _ k
    simp only [step, call]
    split
    · rename_i ha
      have h1 : Fails cfg (({ s with next := s.next + 1 } : State P).push (.called s.next job body)) :=
        h.same [.called s.next job body] rfl (by simp) .inl rfl
      refine ⟨h1.gone |> fun k e => ?_, fun m c k1 k2 => (h1.shut m c k1 k2).append [_], ?_, ⟨?_, h1.failed⟩⟩
      · obtain ⟨ok, k⟩ := k e; exact ⟨ok, List.mem_cons_of_mem _ k⟩
      · intro m c q x k1 k2
        rcases List.mem_cons.1 k2 with e | k2
        · cases e
        · exact h1.served m c q x k1 k2
      · intro n e
        simp only [Act.ended.injEq, and_true] at e
        subst e
        refine ⟨fun q m hm => ?_, .inl ?_⟩
        · rcases List.mem_cons.1 hm with e | hm
          · cases e
          · exact hnd q m hm
        · obtain ⟨ok, k⟩ := h.gone ha
          exact .inl ⟨ok, List.mem_cons_of_mem _ k⟩
    · refine ⟨fun k => ?_, fun m c k1 k2 => ?_, fun m c q x k1 k2 => ?_, ⟨by simp, h.failed⟩⟩
      · obtain ⟨ok, k⟩ := h.gone k; exact ⟨ok, List.mem_cons_of_mem _ k⟩
      · simp only [State.command, State.push] at k1
        rw [lookup_snoc] at k1
        split at k1
        · exact (h.shut m c k1 k2).append [_]
        · split at k1
          · cases k1; exact k2.elim
          · cases k1
      · have k3 : .delivered (.call m) q x ∈ s.past := by
          rcases List.mem_cons.1 k2 with e | k2
          · cases e
          · exact k2
        simp only [State.command, State.push] at k1
        rw [lookup_snoc] at k1
        split at k1
        · exact h.served m c q x k1 k3
        · split at k1
          · rename_i e
            subst e
            exact absurd k3 (hnd q x)
          · cases k1
  | proceed n =>
    simp only [step, proceed]
    cases e : s.calls.lookup n with
    | none => exact h
    | some c =>
      have hnd : ¬ c.phase.served → ∀ q m, .delivered (.call n) q m ∉ s.past :=
        fun k q m hm => k (h.served n c q m e hm)
      have hcalled : .called n c.job c.body ∈ s.past := (hi.calls n c e).1
      have hasks : c.job.Asks c.job.ref := by cases c.job <;> rfl
      simp only
      cases ep : c.phase with
      | sequence r =>
        rw [ep] at hnd
        cases r with
        | waiting => exact h
        | closed =>
          exact fails_endCall h (fun _ => ⟨hnd id, .inl (h.shut n c e (by rw [ep]; trivial))⟩)
        | ready q =>
          simp only
          split
          · rename_i ha
            exact fails_endCall h (fun _ => ⟨hnd id, .inl (.inl (h.gone ha))⟩)
          · exact h.set [] rfl (by simp) (fun k => .inl k) e (by rw [ep]; exact id)
              (c := { c with phase := .uuid q .waiting }) id rfl
      | uuid q r =>
        rw [ep] at hnd
        cases r with
        | waiting => exact h
        | closed =>
          exact fails_endCall h (fun _ => ⟨hnd id, .inl (h.shut n c e (by rw [ep]; trivial))⟩)
        | ready u =>
          simp only
          split
          · split
            · rename_i ha
              exact fails_endCall h (fun _ => ⟨hnd id, .inl (.inl (h.gone ha))⟩)
            · exact h.set [] rfl (by simp) (fun k => .inl k) e (by rw [ep]; exact id)
                (c := { c with phase := .response q .waiting }) id rfl
          · rename_i hp
            exact fails_endCall h (fun _ => ⟨hnd id, .inr ⟨c.job, c.body, u, c.job.ref, hcalled, hasks,
              by simpa using hp⟩⟩)
      | response q r =>
        rw [ep] at hnd
        cases r with
        | waiting => exact h
        | closed =>
          exact fails_endCall h (fun _ => ⟨hnd id, .inl (h.shut n c e (by rw [ep]; trivial))⟩)
        | ready m => exact fails_endCall h (fun k => absurd k (conclude_ne _ _))
  | timeout n =>
    simp only [step, timeout]
    split
    · exact fails_endCall h (by simp)
    · exact h
  | abandon n =>
    refine h.quiet [] rfl (by simp) .inl (fun m c k => ?_)
    simp only [step, State.dropCall] at k
    rw [lookup_filterNe] at k
    split at k
    · cases k
    · exact ⟨c, k, .inl, id⟩
  | api sends =>
    simp only [step, apiStep]
    split
    · rename_i a c cs ha hq
      cases c with
      | request who q o =>
        simp only [command]
        split
        · exact fails_endApi h false rfl rfl
        · split
          · exact h.same [.sent who q o] rfl (by simp) (by simp [State.push]) rfl
          · exact fails_endApi h false rfl rfl
      | accept q m =>
        simp only [command]
        split
        · exact h.same [] rfl (by simp) .inl rfl
        · split
          · rename_i who _ t hd
            unfold deliver at hd
            split at hd <;> split at hd <;> cases hd
            · rename_i n _ job body q' hc
              refine ⟨by simp [answerAccept, State.push, State.setCall], fun m c k1 k2 => ?_, fun m' c q'' x k1 k2 => ?_,
                ⟨by simp, h.failed⟩⟩
              · simp only [answerAccept, State.push, State.setCall] at k1
                rw [lookup_mapSet] at k1
                split at k1
                · rename_i e
                  subst e
                  simp only at hc
                  rw [hc] at k1
                  cases k1
                  exact k2.elim
                · exact (h.shut m c k1 k2).append [_]
              · simp only [answerAccept, State.push, State.setCall] at k1
                rw [lookup_mapSet] at k1
                split at k1
                · rename_i e
                  subst e
                  simp only at hc
                  rw [hc] at k1
                  cases k1
                  exact trivial
                · rename_i hne
                  rcases List.mem_cons.1 k2 with e | k2
                  · simp only [Act.delivered.injEq, Who.call.injEq] at e
                    exact absurd e.1 hne
                  · exact h.served m' c q'' x k1 k2
            · exact h.same [.delivered _ q m] rfl (by simp) (by simp [answerAccept, State.push]) rfl
            · exact h.same [.delivered _ q m] rfl (by simp) (by simp [answerAccept, State.push]) rfl
          · exact fails_endApi h false rfl rfl
      | uuid n =>
        simp only [command]
        split
        · exact h.same [] rfl (by simp) .inl rfl
        · exact fails_endApi h false rfl rfl
      | sequence n =>
        simp only [command]
        split
        · rename_i job body hc
          exact h.set [.numbered n _] rfl (by simp) (by simp [State.setCall, State.push]) hc id
            (c := ⟨job, body, .sequence (.ready _)⟩) id rfl
        · exact fails_endApi h false rfl rfl
    · exact h
  | received b =>
    simp only [step, received]
    split
    · split
      · exact h.same [.chunk b] rfl (by simp) .inl rfl
      · have h1 : Fails cfg (s.push (.chunk b)) := h.same [.chunk b] rfl (by simp) .inl rfl
        have h2 := fails_endMsgs (fails_endApi h1 false rfl rfl) false
        exact h2.same [.panicked] rfl (by simp) .inl rfl
      · exact h.same [.emitted .readError, .chunk b] rfl (by simp) .inl rfl
    · exact h
  | work =>
    simp only [step, work]
    split
    · split
      · exact h.same [] rfl (by simp) .inl rfl
      · split
        · exact h.same [.authStarted _, .got _ _] rfl (by simp) .inl rfl
        · split
          · obtain ⟨e, he, h3⟩ := offer_past cfg _ _ (emit Event.acceptError (State.push { s with msgs := some ⟨_, .between, _⟩ } (.got _ _)))
            rw [he]
            exact h.same [.emitted e, .emitted .acceptError, .got _ _] rfl (by simp) .inl rfl
          · exact h.same [.got _ _] rfl (by simp) .inl rfl
    · rename_i reader q m r uuid hm
      split
      · exact h
      · exact h.same [] rfl (by simp) .inl rfl
      · obtain ⟨e, he, h3⟩ := offer_past cfg q m { s with msgs := some ⟨reader, .between, uuid⟩ }
        rw [he]
        exact h.same [.emitted e] rfl (by simp) .inl rfl
      · obtain ⟨e, he, h3⟩ := offer_past cfg q m (emit .acceptError { s with msgs := some ⟨reader, .between, uuid⟩ })
        rw [he]
        exact h.same [.emitted e, .emitted .acceptError] rfl (by simp) .inl rfl
    · exact h
  | authMessage =>
    simp only [step, authMessage]
    split
    · rename_i reader uuid x xs hm hq
      have h1 : Fails cfg ({ s with authQueue := xs } : State P) := h.same [] rfl (by simp) .inl rfl
      split
      · split
        · exact h.same [.emitted .connected] rfl (by simp) .inl rfl
        · exact fails_endMsgs h1 false
      · exact fails_endMsgs (s := emit .authError { s with authQueue := xs })
          (h1.same [.emitted .authError] rfl (by simp) .inl rfl) false
      · split
        · rename_i n _ job body q hc
          exact h.set [] rfl (by simp) .inl hc id (c := ⟨job, body, .uuid q (.ready uuid)⟩) id rfl
        · exact fails_endMsgs h1 false
    · exact h
  | auth n =>
    have key : ∀ r, Fails cfg (endAuth n r s) := by
      intro r
      unfold endAuth
      simp only
      split
      · exact h.same [.authEnded n r] rfl (by simp) .inl rfl
      · exact h.same [.authEnded n r] rfl (by simp) .inl rfl
    simp only [step, auth]
    split <;> (try split) <;>
      first
      | exact key _
      | exact h
      | exact h.same [] rfl (by simp) .inl rfl
  | disconnected =>
    simp only [step]
    split
    · exact h.same [] rfl (by simp) .inl rfl
    · exact h
  | failure =>
    simp only [step]
    split
    · exact h.same [.emitted .transportError] rfl (by simp) .inl rfl
    · exact h
  | eventsEnd =>
    simp only [step]
    split
    · exact fails_endMsgs h true
    · exact h
  | cancel => exact h.same [] rfl (by simp) .inl rfl
  | shutdown =>
    simp only [step]
    split
    · exact h
    · exact h.same [] rfl (by simp) .inl rfl
  | closed ok =>
    simp only [step]
    split
    · cases ok
      · exact h.same [.emitted .disconnected, .emitted .transportError] rfl (by simp) .inl rfl
      · exact h.same [.emitted .disconnected] rfl (by simp) .inl rfl
    · exact h
  | apiStops =>
    simp only [step]
    split
    · exact fails_endApi h true rfl rfl
    · exact h
  | messagesStop =>
    simp only [step]
    split
    · exact fails_endMsgs h true
    · exact h
  | finish =>
    simp only [step]
    split
    · exact h.same [.emitted (.shutdown _)] rfl (by simp) .inl rfl
    · exact h

theorem fails_run (cfg : Cfg P) (is : List (Input P)) : Fails cfg (run cfg is .new) := by
  have : ∀ s, Inv cfg s → Asks s → Fails cfg s → Fails cfg (run cfg is s) := by
    induction is with
    | nil => exact fun s _ _ h => h
    | cons i is ih =>
      intro s h1 h2 h3
      exact ih _ (inv_step h1 h2 i) (asks_step h2 i) (fails_step h1 h3 i)
  refine this _ (inv_new cfg) (asks_idle rfl) ⟨?_, ?_, ?_, trivial⟩ <;> simp [State.new]

/-! ### The parts end together -/

/-- When a part has ended the others are told to. -/
structure Together (s : State P) : Prop where
  api : s.api = none → s.cancelled = true
  msgs : s.msgs = none → s.cancelled = true
  open_ : s.open_ = false → s.cancelled = true

theorem Together.keep {s s' : State P} (h : Together s) (h1 : s.cancelled = true → s'.cancelled = true)
    (h2 : s'.api = none → s.api = none ∨ s'.cancelled = true)
    (h3 : s'.msgs = none → s.msgs = none ∨ s'.cancelled = true)
    (h4 : s'.open_ = false → s.open_ = false ∨ s'.cancelled = true) : Together s' :=
  ⟨fun k => (h2 k).elim (fun k => h1 (h.api k)) id, fun k => (h3 k).elim (fun k => h1 (h.msgs k)) id,
    fun k => (h4 k).elim (fun k => h1 (h.open_ k)) id⟩

theorem together_step {cfg : Cfg P} {s : State P} (h : Together s) (i : Input P) : Together (step cfg s i) := by
  cases i with
  | call job body =>
    simp only [step, call]
    split <;> exact h.keep id .inl .inl .inl
  | proceed n =>
    simp only [step, proceed]
    split
    · exact h
    · split <;> (try split) <;> (try split) <;> exact h.keep id .inl .inl .inl
  | timeout n =>
    simp only [step, timeout]
    split <;> exact h.keep id .inl .inl .inl
  | abandon n => exact h.keep id .inl .inl .inl
  | api sends =>
    simp only [step, apiStep]
    split
    · rename_i a c cs ha hq
      cases c with
      | request who q o =>
        simp only [command]
        split
        · exact h.keep (fun _ => rfl) (fun _ => .inr rfl) (fun _ => .inr rfl) (fun _ => .inr rfl)
        · split
          · exact h.keep id (by simp [State.push]) .inl .inl
          · exact h.keep (fun _ => rfl) (fun _ => .inr rfl) (fun _ => .inr rfl) (fun _ => .inr rfl)
      | accept q m =>
        simp only [command]
        split
        · exact h.keep id .inl (fun k => .inl (by simpa [answerAccept] using k)) .inl
        · split
          · rename_i t hd
            unfold deliver at hd
            split at hd <;> split at hd <;> cases hd <;>
              exact h.keep id (by simp [answerAccept, State.push, State.setCall])
                (fun k => .inl (by simpa [answerAccept, State.push, State.setCall] using k)) .inl
          · exact h.keep (fun _ => rfl) (fun _ => .inr rfl) (fun _ => .inr rfl) (fun _ => .inr rfl)
      | uuid n =>
        simp only [command]
        split
        · exact h.keep id .inl .inl .inl
        · exact h.keep (fun _ => rfl) (fun _ => .inr rfl) (fun _ => .inr rfl) (fun _ => .inr rfl)
      | sequence n =>
        simp only [command]
        split
        · exact h.keep id (by simp [State.push, State.setCall]) .inl .inl
        · exact h.keep (fun _ => rfl) (fun _ => .inr rfl) (fun _ => .inr rfl) (fun _ => .inr rfl)
    · exact h
  | received b =>
    simp only [step, received]
    split
    · split
      · exact h.keep id .inl (by simp [State.push]) .inl
      · exact h.keep (fun _ => rfl) (fun _ => .inr rfl) (fun _ => .inr rfl) (fun _ => .inr rfl)
      · exact h.keep id .inl (by simp [State.push, emit]) .inl
    · exact h
  | work =>
    simp only [step, work]
    split
    · split
      · exact h.keep id .inl (by simp) .inl
      · split
        · exact h.keep id .inl (by simp [State.push]) .inl
        · split
          · obtain ⟨e, he, h3⟩ := offer_past cfg _ _ (emit Event.acceptError (State.push { s with msgs := some ⟨_, .between, _⟩ } (.got _ _)))
            rw [he]
            exact h.keep id .inl (by simp [State.push, emit]) .inl
          · exact h.keep id .inl (by simp [State.push, State.command]) .inl
    · rename_i reader q m r uuid hm
      split
      · exact h
      · exact h.keep id .inl (by simp) .inl
      · obtain ⟨e, he, h3⟩ := offer_past cfg q m { s with msgs := some ⟨reader, .between, uuid⟩ }
        rw [he]
        exact h.keep id .inl (by simp [State.push]) .inl
      · obtain ⟨e, he, h3⟩ := offer_past cfg q m (emit .acceptError { s with msgs := some ⟨reader, .between, uuid⟩ })
        rw [he]
        exact h.keep id .inl (by simp [State.push, emit]) .inl
    · exact h
  | authMessage =>
    simp only [step, authMessage]
    split
    · split
      · split
        · exact h.keep id .inl (by simp [State.push, emit]) .inl
        · exact h.keep (fun _ => rfl) (fun _ => .inr rfl) (fun _ => .inr rfl) (fun _ => .inr rfl)
      · exact h.keep (fun _ => rfl) (fun _ => .inr rfl) (fun _ => .inr rfl) (fun _ => .inr rfl)
      · split
        · exact h.keep id .inl (by simp) .inl
        · exact h.keep (fun _ => rfl) (fun _ => .inr rfl) (fun _ => .inr rfl) (fun _ => .inr rfl)
    · exact h
  | auth n =>
    have key : ∀ r, Together (endAuth n r s) := by
      intro r
      unfold endAuth
      simp only
      split <;> exact h.keep id .inl .inl .inl
    simp only [step, auth]
    split <;> (try split) <;>
      first
      | exact key _
      | exact h
      | exact h.keep id .inl .inl .inl
  | disconnected =>
    simp only [step]
    split
    · exact h.keep id .inl (by simp) .inl
    · exact h
  | failure =>
    simp only [step]
    split
    · exact h.keep id .inl .inl .inl
    · exact h
  | eventsEnd =>
    simp only [step]
    split
    · exact h.keep (fun _ => rfl) (fun _ => .inr rfl) (fun _ => .inr rfl) (fun _ => .inr rfl)
    · exact h
  | cancel => exact h.keep (fun _ => rfl) (fun _ => .inr rfl) (fun _ => .inr rfl) (fun _ => .inr rfl)
  | shutdown =>
    simp only [step]
    split
    · exact h
    · exact h.keep (fun _ => rfl) (fun _ => .inr rfl) (fun _ => .inr rfl) (fun _ => .inr rfl)
  | closed ok =>
    simp only [step]
    split
    · exact h.keep (fun _ => rfl) (fun _ => .inr rfl) (fun _ => .inr rfl) (fun _ => .inr rfl)
    · exact h
  | apiStops =>
    simp only [step]
    split
    · exact h.keep (fun _ => rfl) (fun _ => .inr rfl) (fun _ => .inr rfl) (fun _ => .inr rfl)
    · exact h
  | messagesStop =>
    simp only [step]
    split
    · exact h.keep (fun _ => rfl) (fun _ => .inr rfl) (fun _ => .inr rfl) (fun _ => .inr rfl)
    · exact h
  | finish =>
    simp only [step]
    split
    · exact h.keep id .inl .inl .inl
    · exact h

theorem together_run (cfg : Cfg P) (is : List (Input P)) : Together (run cfg is .new) := by
  have : ∀ s : State P, Together s → Together (run cfg is s) := by
    induction is with
    | nil => exact fun s h => h
    | cons i is ih => exact fun s h => ih _ (together_step h i)
  refine this _ ⟨?_, ?_, ?_⟩ <;> simp [State.new]

/-- When a part has ended, the others end when they notice. -/
theorem together_ends {cfg : Cfg P} {s : State P} (h : Together s)
    (hp : s.api = none ∨ s.msgs = none ∨ s.open_ = false) (hm : ∀ m, s.msgs = some m → m.place = .idle)
    (ok : Bool) : (run cfg [.apiStops, .messagesStop, .closed ok, .finish] s).over = true := by
  have hc : s.cancelled = true := by
    rcases hp with k | k | k
    · exact h.api k
    · exact h.msgs k
    · exact h.open_ k
  obtain ⟨t, et, ht, hmt, hct⟩ : ∃ t, step cfg s .apiStops = t ∧ t.api = none ∧
      (∀ m, t.msgs = some m → m.place = .idle) ∧ t.cancelled = true := by
    refine ⟨_, rfl, ?_⟩
    simp only [step, hc, Bool.true_and]
    split
    · refine ⟨rfl, fun m e => ?_, rfl⟩
      simp only [endApi, State.push] at e
      cases e2 : s.msgs with
      | none => rw [e2] at e; cases e
      | some m' =>
        rw [e2] at e
        cases e
        simp [hm m' e2, Place.orphan]
    · rename_i e
      exact ⟨by simpa using e, hm, hc⟩
  obtain ⟨u, eu, hu, hmu⟩ : ∃ u, step cfg t .messagesStop = u ∧ u.api = none ∧ u.msgs = none := by
    refine ⟨_, rfl, ?_⟩
    simp only [step]
    split
    · exact ⟨ht, rfl⟩
    · rename_i e
      refine ⟨ht, ?_⟩
      cases e2 : t.msgs with
      | none => rfl
      | some m =>
        obtain ⟨r, p, u⟩ := m
        have := hmt _ e2
        simp only at this
        subst this
        exact absurd e2 (e _ _ hct)
  obtain ⟨v, ev, hv, hmv, hov⟩ : ∃ v, step cfg u (.closed ok) = v ∧ v.api = none ∧ v.msgs = none ∧ v.open_ = false := by
    refine ⟨_, rfl, ?_⟩
    simp only [step]
    split
    · cases ok <;> exact ⟨hu, hmu, rfl⟩
    · rename_i e
      exact ⟨hu, hmu, by simpa using e⟩
  simp only [run, List.foldl_cons, List.foldl_nil, et, eu, ev]
  simp only [step, hv, hmv, hov]
  cases e : v.over
  · rfl
  · simp [e]

end Verif.Client
