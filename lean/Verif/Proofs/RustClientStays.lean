import Verif.Proofs.RustClientOver
set_option autoImplicit false
/-! What ends a Rust client that nobody stops. -/
namespace Verif.Client

open Verif

variable {P : Type}

/-- An act that tells that a task ended. -/
def Act.ends : Act P → Prop
  | .apiEnded _ => True
  | .messagesEnded _ => True
  | _ => False

/-- The first task that ended failed. -/
def Fell (h : List (Act P)) : Prop :=
  ∃ a x b, h = a ++ x :: b ∧ (x = .apiEnded false ∨ x = .messagesEnded false) ∧ ∀ y ∈ b, ¬ y.ends

structure Up (s : State P) : Prop where
  cancelled : s.cancelled = false
  open_ : s.open_ = true
  api : s.api.isSome = true
  msgs : s.msgs.isSome = true
  past : ∀ y ∈ s.past, ¬ y.ends

structure Stays (s : State P) : Prop where
  fell : Up s ∨ Fell s.past
  sets : .setUuid none ∈ s.authQueue → ∃ n, .authEnded n none ∈ s.past
  told : .emitted .authError ∈ s.past → ∃ n, .authEnded n none ∈ s.past

theorem Fell.append {h : List (Act P)} (k : Fell h) (xs : List (Act P)) : Fell (xs ++ h) := by
  obtain ⟨a, x, b, rfl, h1, h2⟩ := k
  exact ⟨xs ++ a, x, b, by simp, h1, h2⟩

theorem Up.fell {s : State P} (h : Up s) (xs : List (Act P)) {x : Act P}
    (hx : x = .apiEnded false ∨ x = .messagesEnded false) : Fell (xs ++ x :: s.past) :=
  ⟨xs, x, s.past, rfl, hx, h.past⟩

/-- A step that ends no task. -/
theorem Stays.quiet {s s' : State P} (h : Stays s) (xs : List (Act P)) (h1 : s'.past = xs ++ s.past)
    (h2 : ∀ x ∈ xs, ¬ x.ends) (h3 : s'.cancelled = s.cancelled) (h4 : s'.open_ = s.open_)
    (h5 : s.api.isSome = true → s'.api.isSome = true) (h6 : s.msgs.isSome = true → s'.msgs.isSome = true)
    (h7 : .setUuid none ∈ s'.authQueue → .setUuid none ∈ s.authQueue ∨ ∃ n, .authEnded n none ∈ xs)
    (h8 : .emitted .authError ∈ xs → .setUuid none ∈ s.authQueue) : Stays s' := by
  have mono : ∀ x, x ∈ s.past → x ∈ s'.past := fun x hx => by rw [h1]; exact List.mem_append_right _ hx
  refine ⟨?_, ?_, ?_⟩
  · rcases h.fell with k | k
    · refine .inl ⟨h3.trans k.cancelled, h4.trans k.open_, h5 k.api, h6 k.msgs, fun y hy => ?_⟩
      rw [h1] at hy
      rcases List.mem_append.1 hy with hy | hy
      · exact h2 y hy
      · exact k.past y hy
    · rw [h1]; exact .inr (k.append xs)
  · intro k
    rcases h7 k with k | ⟨n, k⟩
    · obtain ⟨n, k⟩ := h.sets k; exact ⟨n, mono _ k⟩
    · exact ⟨n, by rw [h1]; exact List.mem_append_left _ k⟩
  · intro k
    rw [h1] at k
    rcases List.mem_append.1 k with k | k
    · obtain ⟨n, k⟩ := h.sets (h8 k); exact ⟨n, mono _ k⟩
    · obtain ⟨n, k⟩ := h.told k; exact ⟨n, mono _ k⟩

theorem Stays.plain {s s' : State P} (h : Stays s) (xs : List (Act P)) (h1 : s'.past = xs ++ s.past)
    (h2 : ∀ x ∈ xs, ¬ x.ends ∧ x ≠ .emitted .authError) (h3 : s'.cancelled = s.cancelled)
    (h4 : s'.open_ = s.open_) (h5 : s.api.isSome = true → s'.api.isSome = true)
    (h6 : s.msgs.isSome = true → s'.msgs.isSome = true)
    (h7 : .setUuid none ∈ s'.authQueue → .setUuid none ∈ s.authQueue) : Stays s' :=
  h.quiet xs h1 (fun x hx => (h2 x hx).1) h3 h4 h5 h6 (fun k => .inl (h7 k))
    (fun k => absurd rfl (h2 _ k).2)

/-- A step that ends a task with an error. -/
theorem Stays.fall {s s' : State P} (h : Stays s) (xs ys : List (Act P)) {x : Act P}
    (h1 : s'.past = xs ++ x :: (ys ++ s.past)) (h2 : x = .apiEnded false ∨ x = .messagesEnded false)
    (hy : ∀ y ∈ ys, ¬ y.ends)
    (h3 : .setUuid none ∈ s'.authQueue → .setUuid none ∈ s.authQueue)
    (hx : .emitted .authError ∈ xs ++ ys → .setUuid none ∈ s.authQueue) : Stays s' := by
  have mono : ∀ x, x ∈ s.past → x ∈ s'.past := fun x hx => by
    rw [h1]; exact List.mem_append_right _ (List.mem_cons_of_mem _ (List.mem_append_right _ hx))
  refine ⟨.inr ?_, ?_, ?_⟩
  · rw [h1]
    rcases h.fell with k | k
    · refine ⟨xs, x, ys ++ s.past, rfl, h2, fun y hm => ?_⟩
      rcases List.mem_append.1 hm with hm | hm
      · exact hy y hm
      · exact k.past y hm
    · have := k.append (xs ++ x :: ys)
      simpa using this
  · intro k
    obtain ⟨n, k⟩ := h.sets (h3 k)
    exact ⟨n, mono _ k⟩
  · intro k
    have : .emitted .authError ∈ xs ++ ys ∨ .emitted .authError ∈ s.past := by
      rw [h1] at k
      simp only [List.mem_append, List.mem_cons] at k ⊢
      rcases h2 with rfl | rfl <;> grind
    rcases this with k | k
    · obtain ⟨n, k⟩ := h.sets (hx k); exact ⟨n, mono _ k⟩
    · obtain ⟨n, k⟩ := h.told k; exact ⟨n, mono _ k⟩

theorem stays_step {cfg : Cfg P} {s : State P} (h : Stays s) (i : Input P) (hi : i.Steady) :
    Stays (step cfg s i) := by
  cases i with
  | call job body =>
    simp only [step, call]
    split
    · exact h.plain [.ended _ .failed, .called _ job body] rfl (by simp [Act.ends]) rfl rfl id id id
    · exact h.plain [.called _ job body] rfl (by simp [Act.ends]) rfl rfl id id id
  | proceed n =>
    simp only [step, proceed]
    split
    · exact h
    · split <;> (try split) <;> (try split) <;>
        first
        | exact h
        | exact h.plain [.ended _ _] rfl (by simp [Act.ends]) rfl rfl id id id
        | exact h.plain [] rfl (by simp [Act.ends]) rfl rfl id id id
  | timeout n =>
    simp only [step, timeout]
    split
    · exact h.plain [.ended _ _] rfl (by simp [Act.ends]) rfl rfl id id id
    · exact h
  | abandon n => exact h.plain [] rfl (by simp [Act.ends]) rfl rfl id id id
  | api sends =>
    simp only [step, apiStep]
    split
    · rename_i a c cs ha hq
      cases c with
      | request who q o =>
        simp only [command]
        split
        · exact h.fall [] [] (x := .apiEnded false) rfl (.inl rfl) (by simp) id (by simp)
        · split
          · exact h.plain [.sent who q o] rfl (by simp [Act.ends]) rfl rfl (fun _ => rfl) id id
          · exact h.fall [] [] (x := .apiEnded false) rfl (.inl rfl) (by simp) id (by simp)
      | accept q m =>
        simp only [command]
        split
        · exact h.plain [] rfl (by simp [Act.ends]) rfl rfl id (by simp [answerAccept]) id
        · split
          · rename_i t hd
            unfold deliver at hd
            split at hd <;> split at hd <;> cases hd <;>
              exact h.plain [.delivered _ _ _] rfl (by simp [Act.ends]) rfl rfl (fun _ => rfl)
                (by simp [answerAccept, State.setCall, State.push]) id
          · exact h.fall [] [] (x := .apiEnded false) rfl (.inl rfl) (by simp) id (by simp)
      | uuid n =>
        simp only [command]
        split
        · exact h.plain [] rfl (by simp [Act.ends]) rfl rfl id id (by simp)
        · exact h.fall [] [] (x := .apiEnded false) rfl (.inl rfl) (by simp) id (by simp)
      | sequence n =>
        simp only [command]
        split
        · exact h.plain [.numbered _ _] rfl (by simp [Act.ends]) rfl rfl (fun _ => rfl) id id
        · exact h.fall [] [] (x := .apiEnded false) rfl (.inl rfl) (by simp) id (by simp)
    · exact h
  | received b =>
    simp only [step, received]
    split
    · rename_i hm
      split
      · exact h.plain [.chunk b] rfl (by simp [Act.ends]) rfl rfl id (fun _ => rfl) id
      · exact h.fall [.panicked, .messagesEnded false] [.chunk b] (x := .apiEnded false) rfl (.inl rfl)
          (by simp [Act.ends]) (by simp [endMsgs, State.push]) (by simp)
      · exact h.plain [.emitted .readError, .chunk b] rfl (by simp [Act.ends]) rfl rfl id (fun _ => rfl) id
    · exact h
  | work =>
    simp only [step, work]
    split
    · rename_i hm
      split
      · exact h.plain [] rfl (by simp) rfl rfl id (fun _ => rfl) id
      · split
        · exact h.plain [.authStarted _, .got _ _] rfl (by simp [Act.ends]) rfl rfl id (fun _ => rfl) id
        · split
          · obtain ⟨e, he, h3⟩ := offer_past cfg _ _ (emit Event.acceptError (State.push { s with msgs := some ⟨_, .between, _⟩ } (.got _ _)))
            rw [he]
            refine h.plain [.emitted e, .emitted .acceptError, .got _ _] rfl ?_ rfl rfl id (fun _ => rfl) id
            rcases h3 with ⟨_, _, _, _, rfl⟩ | ⟨rfl, _⟩ <;> simp [Act.ends]
          · exact h.plain [.got _ _] rfl (by simp [Act.ends]) rfl rfl id (fun _ => rfl) id
    · rename_i reader q m r uuid hm
      split
      · exact h
      · exact h.plain [] rfl (by simp) rfl rfl id (fun _ => rfl) id
      · obtain ⟨e, he, h3⟩ := offer_past cfg q m { s with msgs := some ⟨reader, .between, uuid⟩ }
        rw [he]
        refine h.plain [.emitted e] rfl ?_ rfl rfl id (fun _ => rfl) id
        rcases h3 with ⟨_, _, _, _, rfl⟩ | ⟨rfl, _⟩ <;> simp [Act.ends]
      · obtain ⟨e, he, h3⟩ := offer_past cfg q m (emit .acceptError { s with msgs := some ⟨reader, .between, uuid⟩ })
        rw [he]
        refine h.plain [.emitted e, .emitted .acceptError] rfl ?_ rfl rfl id (fun _ => rfl) id
        rcases h3 with ⟨_, _, _, _, rfl⟩ | ⟨rfl, _⟩ <;> simp [Act.ends]
    · exact h
  | authMessage =>
    simp only [step, authMessage]
    split
    · rename_i reader uuid x xs hm hq
      have hs : ∀ y, y ∈ xs → y ∈ s.authQueue := fun y hy => by rw [hq]; exact List.mem_cons_of_mem _ hy
      split
      · split
        · exact h.plain [.emitted .connected] rfl (by simp [Act.ends]) rfl rfl id (fun _ => rfl) (hs _)
        · exact h.fall [] [] (x := .messagesEnded false) rfl (.inr rfl) (by simp)
            (by simp [endMsgs, State.push]) (by simp)
      · exact h.fall [] [.emitted .authError] (x := .messagesEnded false) rfl (.inr rfl)
          (by simp [Act.ends]) (by simp [endMsgs, State.push]) (by simp [hq])
      · split
        · exact h.plain [] rfl (by simp) rfl rfl id (fun _ => rfl) (hs _)
        · exact h.fall [] [] (x := .messagesEnded false) rfl (.inr rfl) (by simp)
            (by simp [endMsgs, State.push]) (by simp)
    · exact h
  | auth n =>
    have key : ∀ r, Stays (endAuth n r s) := by
      intro r
      unfold endAuth
      simp only
      split
      · refine h.quiet [.authEnded n r] rfl (by simp [Act.ends]) rfl rfl id id ?_ (by simp)
        intro k
        simp only [State.push, List.mem_append, List.mem_singleton, AuthMsg.setUuid.injEq] at k
        rcases k with k | rfl
        · exact .inl k
        · exact .inr ⟨n, by simp⟩
      · exact h.plain [.authEnded n r] rfl (by simp [Act.ends]) rfl rfl id id id
    simp only [step, auth]
    split <;> (try split) <;>
      first
      | exact key _
      | exact h
      | exact h.plain [] rfl (by simp) rfl rfl id id id
  | disconnected =>
    simp only [step]
    split
    · exact h.plain [] rfl (by simp) rfl rfl id (fun _ => rfl) id
    · exact h
  | failure =>
    simp only [step]
    split
    · exact h.plain [.emitted .transportError] rfl (by simp [Act.ends]) rfl rfl id id id
    · exact h
  | eventsEnd => exact hi.elim
  | cancel => exact hi.elim
  | shutdown => exact hi.elim
  | closed ok => exact hi.elim
  | apiStops =>
    simp only [step]
    split
    · rename_i hc
      simp only [Bool.and_eq_true] at hc
      have hf : Fell s.past := by
        rcases h.fell with k | k
        · rw [k.cancelled] at hc; simp at hc
        · exact k
      refine ⟨.inr (hf.append [.apiEnded true]), fun k => ?_, fun k => ?_⟩
      · obtain ⟨n, k⟩ := h.sets k; exact ⟨n, List.mem_cons_of_mem _ k⟩
      · obtain ⟨n, k⟩ := h.told (by simpa [endApi, State.push] using k); exact ⟨n, List.mem_cons_of_mem _ k⟩
    · exact h
  | messagesStop =>
    simp only [step]
    split
    · rename_i hc _
      have hf : Fell s.past := by
        rcases h.fell with k | k
        · rw [k.cancelled] at hc; simp at hc
        · exact k
      refine ⟨.inr (hf.append [.messagesEnded true]), fun k => ?_, fun k => ?_⟩
      · simp [endMsgs, State.push] at k
      · obtain ⟨n, k⟩ := h.told (by simpa [endMsgs, State.push] using k); exact ⟨n, List.mem_cons_of_mem _ k⟩
    · exact h
  | finish =>
    simp only [step]
    split
    · exact h.plain [.emitted (.shutdown _)] rfl (by simp [Act.ends]) rfl rfl id id id
    · exact h

theorem stays_run (cfg : Cfg P) (is : List (Input P)) (hi : ∀ i ∈ is, i.Steady) : Stays (run cfg is .new) := by
  have : ∀ s : State P, Stays s → Stays (run cfg is s) := by
    induction is with
    | nil => exact fun s h => h
    | cons i is ih =>
      intro s h
      exact ih (fun j hj => hi j (List.mem_cons_of_mem _ hj)) _ (stays_step h i (hi i List.mem_cons_self))
  exact this _ ⟨.inl ⟨rfl, rfl, rfl, rfl, by simp [State.new]⟩, by simp [State.new], by simp [State.new]⟩

theorem Ends.at {cfg : Cfg P} {a b : List (Act P)} {x : Act P} (h : Ends cfg (a ++ x :: b)) :
    (x = .apiEnded false → (∃ ok, .messagesEnded ok ∈ b) ∨ Late b) ∧
      (x = .messagesEnded false → .emitted .authError ∈ b ∨
        ∃ n w, .authEnded n (some w) ∈ b ∧ cfg.parseUuid w = none) := by
  induction a with
  | nil => exact ⟨h.1, h.2.1⟩
  | cons y a ih => exact ih h.2.2

/-- A client that nobody stops is up, or there is a reason. -/
theorem up_run (cfg : Cfg P) (is : List (Input P)) (hp : ∀ i ∈ is, i.Patient) (hs : ∀ i ∈ is, i.Steady)
    (hf : Few (run cfg is .new).past) :
    let s := run cfg is .new
    Up s ∨ .panicked ∈ s.past ∨ Late s.past ∨ (∃ n, .authEnded n none ∈ s.past) ∨
      ∃ n w, .authEnded n (some w) ∈ s.past ∧ cfg.parseUuid w = none := by
  intro s
  have h1 := stays_run cfg is hs
  have h2 := (alive_run cfg is hp hf).ends
  rcases h1.fell with k | ⟨a, x, b, k1, k2, k3⟩
  · exact .inl k
  · rcases h2 with h2 | h2
    · exact .inr (.inl h2)
    · rw [k1] at h2
      have mono : ∀ y, y ∈ b → y ∈ s.past := fun y hy => by
        show y ∈ (run cfg is .new).past
        rw [k1]; exact List.mem_append_right _ (List.mem_cons_of_mem _ hy)
      rcases k2 with rfl | rfl
      · rcases h2.at.1 rfl with ⟨ok, e⟩ | ⟨n, q, m, e1, e2, e3⟩
        · exact absurd trivial (k3 _ e)
        · exact .inr (.inr (.inl ⟨n, q, m, mono _ e1, mono _ e2, mono _ e3⟩))
      · rcases h2.at.2 rfl with e | ⟨n, w, e1, e2⟩
        · obtain ⟨n, e⟩ := h1.told (mono _ e)
          exact .inr (.inr (.inr (.inl ⟨n, e⟩)))
        · exact .inr (.inr (.inr (.inr ⟨n, w, mono _ e1, e2⟩)))

end Verif.Client
