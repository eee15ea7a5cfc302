import Verif.Proofs.RustClientStays
set_option autoImplicit false
/-! No call of a Rust client is lost. -/
namespace Verif.Client

open Verif

variable {P : Type}

/-- A call is under way or has ended. -/
def Kept (s : State P) : Prop :=
  ∀ n job body, .called n job body ∈ s.past → (s.calls.lookup n).isSome = true ∨ ∃ r, .ended n r ∈ s.past

theorem Kept.of {s s' : State P} (h : Kept s) (xs : List (Act P)) (h1 : s'.past = xs ++ s.past)
    (h2 : ∀ n job body, .called n job body ∈ xs → (s'.calls.lookup n).isSome = true ∨ ∃ r, .ended n r ∈ xs)
    (h3 : ∀ n, (s.calls.lookup n).isSome = true →
      (s'.calls.lookup n).isSome = true ∨ ∃ r, .ended n r ∈ xs) : Kept s' := by
  intro n job body k
  rw [h1] at k ⊢
  have lift : (s'.calls.lookup n).isSome = true ∨ (∃ r, .ended n r ∈ xs) →
      (s'.calls.lookup n).isSome = true ∨ ∃ r, .ended n r ∈ xs ++ s.past := by
    rintro (e | ⟨r, e⟩)
    · exact .inl e
    · exact .inr ⟨r, List.mem_append_left _ e⟩
  rcases List.mem_append.1 k with k | k
  · exact lift (h2 n job body k)
  · rcases h n job body k with e | ⟨r, e⟩
    · exact lift (h3 n e)
    · exact .inr ⟨r, List.mem_append_right _ e⟩

theorem Kept.plain {s s' : State P} (h : Kept s) (xs : List (Act P)) (h1 : s'.past = xs ++ s.past)
    (h2 : ∀ x ∈ xs, ∀ n job body, x ≠ .called n job body)
    (h3 : ∀ n, (s.calls.lookup n).isSome = true → (s'.calls.lookup n).isSome = true) : Kept s' :=
  h.of xs h1 (fun n job body k => absurd rfl (h2 _ k n job body)) (fun n k => .inl (h3 n k))

theorem some_setCall {s : State P} {n m : Nat} {c : Call P} (h : (s.calls.lookup m).isSome = true) :
    ((s.setCall n c).calls.lookup m).isSome = true := by
  simp only [State.setCall]
  rw [lookup_mapSet]
  split
  · rename_i e; subst e; simpa using h
  · exact h

theorem kept_endCall {s : State P} (h : Kept s) (n : Nat) (r : Result P) : Kept (s.endCall n r) := by
  refine h.of [.ended n r] rfl (by simp) (fun m hm => ?_)
  by_cases e : m = n
  · subst e; exact .inr ⟨r, by simp⟩
  · refine .inl ?_
    simp only [State.endCall, State.dropCall, State.push]
    rw [lookup_filterNe, if_neg e]
    exact hm

theorem some_endApi {s : State P} {ok : Bool} {m : Nat} (h : (s.calls.lookup m).isSome = true) :
    ((endApi ok s).calls.lookup m).isSome = true := by
  simp only [endApi, State.push]
  rw [lookup_mapVal (f := fun n (c : Call P) => c.orphan (s.authQueue.contains (.getUuid n)))]
  simpa using h

theorem some_endMsgs {s : State P} {ok : Bool} {m : Nat} (h : (s.calls.lookup m).isSome = true) :
    ((endMsgs ok s).calls.lookup m).isSome = true := by
  simp only [endMsgs, State.push]
  rw [lookup_mapVal (f := fun n (c : Call P) => c.unheard (s.authQueue.contains (.getUuid n)))]
  simpa using h

theorem kept_step {cfg : Cfg P} {s : State P} (h : Kept s) (i : Input P) (hi : ∀ n, i ≠ .abandon n) :
    Kept (step cfg s i) := by
  cases i with
  | call job body =>
    simp only [step, call]
    split
    · refine h.of [.ended _ .failed, .called _ job body] rfl ?_ (fun n k => .inl k)
      intro n j b k
      simp only [List.mem_cons, reduceCtorEq, Act.called.injEq, List.not_mem_nil, or_false, false_or] at k
      obtain ⟨rfl, _⟩ := k
      exact .inr ⟨.failed, by simp⟩
    · refine h.of [.called _ job body] rfl ?_ ?_
      · intro n j b k
        simp only [List.mem_cons, Act.called.injEq, List.not_mem_nil, or_false] at k
        obtain ⟨rfl, _⟩ := k
        refine .inl ?_
        simp only [State.command, State.push]
        rw [lookup_snoc]
        split
        · assumption
        · simp
      · intro n k
        refine .inl ?_
        simp only [State.command, State.push]
        rw [lookup_snoc]
        split
        · assumption
        · exact absurd k (by assumption)
  | proceed n =>
    simp only [step, proceed]
    split
    · exact h
    · split <;> (try split) <;> (try split) <;>
        first
        | exact h
        | exact kept_endCall h _ _
        | exact h.plain [] rfl (by simp) (fun _ => some_setCall)
  | timeout n =>
    simp only [step, timeout]
    split
    · exact kept_endCall h _ _
    · exact h
  | abandon n => exact absurd rfl (hi n)
  | api sends =>
    simp only [step, apiStep]
    split
    · rename_i a c cs ha hq
      cases c with
      | request who q o =>
        simp only [command]
        split
        · exact h.plain [.apiEnded false] rfl (by simp) (fun _ => some_endApi (s := { s with queue := cs }))
        · split
          · exact h.plain [.sent who q o] rfl (by simp) (fun _ k => k)
          · exact h.plain [.apiEnded false] rfl (by simp)
              (fun _ => some_endApi (s := { s with queue := cs, api := some _ }))
      | accept q m =>
        simp only [command]
        split
        · exact h.plain [] rfl (by simp) (fun _ k => k)
        · split
          · rename_i t hd
            unfold deliver at hd
            split at hd <;> split at hd <;> cases hd
            · exact h.plain [.delivered _ _ _] rfl (by simp)
                (fun _ => some_setCall (s := { s with queue := cs, api := some _ }))
            · exact h.plain [.delivered _ _ _] rfl (by simp) (fun _ k => k)
            · exact h.plain [.delivered _ _ _] rfl (by simp) (fun _ k => k)
          · exact h.plain [.apiEnded false] rfl (by simp)
              (fun _ => some_endApi (s := { s with queue := cs, api := some _ }))
      | uuid n =>
        simp only [command]
        split
        · exact h.plain [] rfl (by simp) (fun _ k => k)
        · exact h.plain [.apiEnded false] rfl (by simp) (fun _ => some_endApi (s := { s with queue := cs }))
      | sequence n =>
        simp only [command]
        split
        · exact h.plain [.numbered _ _] rfl (by simp)
            (fun _ => some_setCall (s := { s with queue := cs, api := some _ }))
        · exact h.plain [.apiEnded false] rfl (by simp)
            (fun _ => some_endApi (s := { s with queue := cs, api := some _ }))
    · exact h
  | received b =>
    simp only [step, received]
    split
    · split
      · exact h.plain [.chunk b] rfl (by simp) (fun _ k => k)
      · exact h.plain [.panicked, .messagesEnded false, .apiEnded false, .chunk b] rfl (by simp)
          (fun _ k => some_endMsgs (ok := false) (s := endApi false (s.push (.chunk b)))
            (some_endApi (s := s.push (.chunk b)) k))
      · exact h.plain [.emitted .readError, .chunk b] rfl (by simp) (fun _ k => k)
    · exact h
  | work =>
    simp only [step, work]
    split
    · split
      · exact h.plain [] rfl (by simp) (fun _ k => k)
      · split
        · exact h.plain [.authStarted _, .got _ _] rfl (by simp) (fun _ k => k)
        · split
          · obtain ⟨e, he, h3⟩ := offer_past cfg _ _ (emit Event.acceptError (State.push { s with msgs := some ⟨_, .between, _⟩ } (.got _ _)))
            rw [he]
            exact h.plain [.emitted e, .emitted .acceptError, .got _ _] rfl (by simp) (fun _ k => k)
          · exact h.plain [.got _ _] rfl (by simp) (fun _ k => k)
    · rename_i reader q m r uuid hm
      split
      · exact h
      · exact h.plain [] rfl (by simp) (fun _ k => k)
      · obtain ⟨e, he, h3⟩ := offer_past cfg q m { s with msgs := some ⟨reader, .between, uuid⟩ }
        rw [he]
        exact h.plain [.emitted e] rfl (by simp) (fun _ k => k)
      · obtain ⟨e, he, h3⟩ := offer_past cfg q m (emit .acceptError { s with msgs := some ⟨reader, .between, uuid⟩ })
        rw [he]
        exact h.plain [.emitted e, .emitted .acceptError] rfl (by simp) (fun _ k => k)
    · exact h
  | authMessage =>
    simp only [step, authMessage]
    split
    · rename_i reader uuid x xs hm hq
      split
      · split
        · exact h.plain [.emitted .connected] rfl (by simp) (fun _ k => k)
        · exact h.plain [.messagesEnded false] rfl (by simp)
            (fun _ k => some_endMsgs (s := { s with authQueue := xs }) k)
      · exact h.plain [.messagesEnded false, .emitted .authError] rfl (by simp)
          (fun _ k => some_endMsgs (s := emit .authError { s with authQueue := xs }) k)
      · split
        · exact h.plain [] rfl (by simp) (fun _ => some_setCall (s := { s with authQueue := xs }))
        · exact h.plain [.messagesEnded false] rfl (by simp)
            (fun _ k => some_endMsgs (s := { s with authQueue := xs }) k)
    · exact h
  | auth n =>
    have key : ∀ r, Kept (endAuth n r s) := by
      intro r
      unfold endAuth
      simp only
      split
      · exact h.plain [.authEnded n r] rfl (by simp) (fun _ k => k)
      · exact h.plain [.authEnded n r] rfl (by simp) (fun _ k => k)
    simp only [step, auth]
    split <;> (try split) <;>
      first
      | exact key _
      | exact h
      | exact h.plain [] rfl (by simp) (fun _ k => k)
  | disconnected =>
    simp only [step]
    split
    · exact h.plain [] rfl (by simp) (fun _ k => k)
    · exact h
  | failure =>
    simp only [step]
    split
    · exact h.plain [.emitted .transportError] rfl (by simp) (fun _ k => k)
    · exact h
  | eventsEnd =>
    simp only [step]
    split
    · exact h.plain [.messagesEnded true] rfl (by simp) (fun _ k => some_endMsgs k)
    · exact h
  | cancel => exact h.plain [] rfl (by simp) (fun _ k => k)
  | shutdown =>
    simp only [step]
    split
    · exact h
    · exact h.plain [] rfl (by simp) (fun _ k => k)
  | closed ok =>
    simp only [step]
    split
    · cases ok
      · exact h.plain [.emitted .disconnected, .emitted .transportError] rfl (by simp) (fun _ k => k)
      · exact h.plain [.emitted .disconnected] rfl (by simp) (fun _ k => k)
    · exact h
  | apiStops =>
    simp only [step]
    split
    · exact h.plain [.apiEnded true] rfl (by simp) (fun _ k => some_endApi k)
    · exact h
  | messagesStop =>
    simp only [step]
    split
    · exact h.plain [.messagesEnded true] rfl (by simp) (fun _ k => some_endMsgs k)
    · exact h
  | finish =>
    simp only [step]
    split
    · exact h.plain [.emitted (.shutdown _)] rfl (by simp) (fun _ k => k)
    · exact h

theorem kept_run (cfg : Cfg P) (is : List (Input P)) (hi : ∀ n, .abandon n ∉ is) : Kept (run cfg is .new) := by
  have : ∀ s : State P, Kept s → Kept (run cfg is s) := by
    induction is with
    | nil => exact fun s h => h
    | cons i is ih =>
      intro s h
      exact ih (fun n hn => hi n (List.mem_cons_of_mem _ hn)) _
        (kept_step h i (fun n e => hi n (by simp [e])))
  exact this _ (fun n job body k => by simp [State.new] at k)

/-- When both tasks have ended, a call ends when it goes on. -/
theorem ends_proceed {cfg : Cfg P} {s : State P} (h : Inv cfg s) (ha : s.api = none) (hm : s.msgs = none)
    {n : Nat} (hn : (s.calls.lookup n).isSome = true) : ∃ r, .ended n r ∈ (proceed cfg n s).past := by
  obtain ⟨c, hc⟩ := Option.isSome_iff_exists.1 hn
  obtain ⟨_, _, h3⟩ := h.calls n c hc
  have hq := h.dead ha
  have haq := h.silent hm
  have hp : s.pend = [] := by simp [State.pend, ha]
  unfold proceed
  rw [hc]
  simp only
  cases e : c.phase with
  | sequence r =>
    cases r with
    | waiting => rw [e, hq] at h3; exact absurd h3.2.2 (by simp)
    | ready q => simp only [ha]; exact ⟨_, List.mem_cons_self⟩
    | closed => exact ⟨_, List.mem_cons_self⟩
  | uuid q r =>
    cases r with
    | waiting => rw [e, hq, haq] at h3; exact absurd h3.2.2 (by simp)
    | ready q =>
      simp only [ha]
      split <;> exact ⟨_, List.mem_cons_self⟩
    | closed => exact ⟨_, List.mem_cons_self⟩
  | response q r =>
    cases r with
    | waiting => rw [e, hq, hp] at h3; exact absurd h3.2 (by simp)
    | ready q => exact ⟨_, List.mem_cons_self⟩
    | closed => exact ⟨_, List.mem_cons_self⟩

/-! ### Histories -/

theorem Lawful.at {cfg : Cfg P} {a b : List (Act P)} {x : Act P} (h : Lawful cfg (a ++ x :: b)) :
    Allowed cfg b x := by
  induction a with
  | nil => exact h.1
  | cons y a ih => exact ih h.2

theorem Lawful.tail {cfg : Cfg P} {a b : List (Act P)} (h : Lawful cfg (a ++ b)) : Lawful cfg b := by
  induction a with
  | nil => exact h
  | cons y a ih => exact ih h.2

theorem Raised.at {a b : List (Act P)} {x : Act P} (h : Raised (a ++ x :: b)) : x.raises → Unmatched b := by
  induction a with
  | nil => exact h.1
  | cons y a ih => exact ih h.2

theorem Handled.pre {B : List Ref} {x : Act P} {h : List (Act P)} {st : Status P} (k : Handled B (x :: h) st) :
    ∃ st, Handled B h st := by
  cases k <;> exact ⟨_, by assumption⟩

theorem Handled.tail {B : List Ref} {a b : List (Act P)} {st : Status P} (k : Handled B (a ++ b) st) :
    ∃ st, Handled B b st := by
  induction a generalizing st with
  | nil => exact ⟨st, k⟩
  | cons y a ih =>
    obtain ⟨_, k⟩ := k.pre
    exact ih k

/-- The message that is open was looked at last. -/
theorem Handled.newest {B : List Ref} {h : List (Act P)} {st : Status P} (k : Handled B h st) :
    (∀ q m, st = .open_ q m → ∃ a b, h = a ++ .got q m :: b ∧ ∀ x ∈ a, ¬ x.handles) ∧
    ∀ q m, st = .refused q m → ∃ a b, h = a ++ .got q m :: b ∧ .emitted .acceptError ∈ a ∧
      ∀ x ∈ a, x.handles → x = .emitted .acceptError := by
  induction k with
  | nil => exact ⟨by simp, by simp⟩
  | @other a h st k1 hx ih =>
    refine ⟨fun q m e => ?_, fun q m e => ?_⟩
    · obtain ⟨c, d, e1, e2⟩ := ih.1 q m e
      refine ⟨a :: c, d, by rw [e1]; rfl, fun x hm => ?_⟩
      rcases List.mem_cons.1 hm with rfl | hm
      · exact hx
      · exact e2 x hm
    · obtain ⟨c, d, e1, e2, e3⟩ := ih.2 q m e
      refine ⟨a :: c, d, by rw [e1]; rfl, List.mem_cons_of_mem _ e2, fun x hm => ?_⟩
      rcases List.mem_cons.1 hm with rfl | hm
      · exact fun h => absurd h hx
      · exact e3 x hm
  | @got h q m _ _ =>
    refine ⟨fun q' m' e => ?_, by simp⟩
    cases e
    exact ⟨[], h, rfl, by simp⟩
  | delivered => exact ⟨by simp, by simp⟩
  | started => exact ⟨by simp, by simp⟩
  | failed k1 ih =>
    refine ⟨by simp, fun q' m' e => ?_⟩
    cases e
    obtain ⟨c, d, e1, e2⟩ := ih.1 _ _ rfl
    refine ⟨_ :: c, d, by rw [e1]; rfl, List.mem_cons_self, fun x hm => ?_⟩
    rcases List.mem_cons.1 hm with rfl | hm
    · exact fun _ => rfl
    · exact fun h => absurd h (e2 x hm)
  | broadcast => exact ⟨by simp, by simp⟩
  | unknown => exact ⟨by simp, by simp⟩

theorem Handled.fate {B : List Ref} {newer older : List (Act P)} {q : UInt32} {m : In P} {st : Status P}
    (k : Handled B (newer ++ .got q m :: older) st) :
    (st = .open_ q m ∧ ∀ x ∈ newer, ¬ x.handles) ∨
    (st = .refused q m ∧ ∀ x ∈ newer, x.handles → x = .emitted .acceptError) ∨
    ∃ a x b, newer = a ++ x :: b ∧ (∀ y ∈ b, y.handles → y = .emitted .acceptError) ∧ Done q m x := by
  induction newer generalizing st with
  | nil =>
    refine .inl ?_
    cases k with
    | other _ hx => exact absurd trivial hx
    | got _ _ _ => exact ⟨rfl, by simp⟩
  | cons y newer ih =>
    have ext : ∀ {st'}, Handled B (newer ++ .got q m :: older) st' → st' ≠ .open_ q m → st' ≠ .refused q m →
        ∃ a x b, y :: newer = a ++ x :: b ∧ (∀ y ∈ b, y.handles → y = .emitted .acceptError) ∧ Done q m x := by
      intro st' k' h1 h2
      rcases ih k' with ⟨e, _⟩ | ⟨e, _⟩ | ⟨a, x, b, e1, e2, e3⟩
      · exact absurd e h1
      · exact absurd e h2
      · exact ⟨y :: a, x, b, by rw [e1]; rfl, e2, e3⟩
    have fin : ∀ {st'}, Handled B (newer ++ .got q m :: older) st' →
        (st' = .open_ q m ∨ st' = .refused q m → Done q m y) →
        ∃ a x b, y :: newer = a ++ x :: b ∧ (∀ y ∈ b, y.handles → y = .emitted .acceptError) ∧ Done q m x := by
      intro st' k' hd
      rcases ih k' with ⟨e, e2⟩ | ⟨e, e2⟩ | ⟨a, x, b, e1, e2, e3⟩
      · exact ⟨[], y, newer, rfl, fun z hz hh => absurd hh (e2 z hz), hd (.inl e)⟩
      · exact ⟨[], y, newer, rfl, e2, hd (.inr e)⟩
      · exact ⟨y :: a, x, b, by rw [e1]; rfl, e2, e3⟩
    cases k with
    | other k' hx =>
      rcases ih k' with ⟨e, e2⟩ | ⟨e, e2⟩ | ⟨a, x, b, e1, e2, e3⟩
      · refine .inl ⟨e, fun z hz => ?_⟩
        rcases List.mem_cons.1 hz with rfl | hz
        · exact hx
        · exact e2 z hz
      · refine .inr (.inl ⟨e, fun z hz hh => ?_⟩)
        rcases List.mem_cons.1 hz with rfl | hz
        · exact absurd hh hx
        · exact e2 z hz hh
      · exact .inr (.inr ⟨y :: a, x, b, by rw [e1]; rfl, e2, e3⟩)
    | got q' m' k' => exact .inr (.inr (ext k' (by simp) (by simp)))
    | delivered who k' hc =>
      refine .inr (.inr (fin k' ?_))
      rintro (e | e)
      · cases e; exact .inl ⟨who, rfl⟩
      · cases e
    | started n k' =>
      refine .inr (.inr (fin k' ?_))
      rintro (e | e)
      · cases e; exact .inr (.inl ⟨rfl, n, rfl⟩)
      · cases e
    | failed k' =>
      rcases ih k' with ⟨e, e2⟩ | ⟨e, e2⟩ | ⟨a, x, b, e1, e2, e3⟩
      · cases e
        refine .inr (.inl ⟨rfl, fun z hz hh => ?_⟩)
        rcases List.mem_cons.1 hz with rfl | hz
        · rfl
        · exact absurd hh (e2 z hz)
      · cases e
      · exact .inr (.inr ⟨_ :: a, x, b, by rw [e1]; rfl, e2, e3⟩)
    | broadcast k' _ _ => exact .inr (.inr (fin k' (fun _ => .inr (.inr trivial))))
    | unknown k' _ _ _ => exact .inr (.inr (fin k' (fun _ => .inr (.inr trivial))))

/-- Who is answered asked before, and there is one number for a call. -/
theorem delivered_unique {cfg : Cfg P} {h : List (Act P)} (hl : Lawful cfg h) {n : Nat} {q q' : UInt32}
    {m m' : In P} (h1 : .delivered (.call n) q m ∈ h) (h2 : .delivered (.call n) q' m' ∈ h) :
    q = q' ∧ m = m' := by
  have hq : q = q' := by
    obtain ⟨_, k1⟩ := lawful_delivered hl h1
    obtain ⟨_, k2⟩ := lawful_delivered hl h2
    obtain ⟨_, _, _, _, _, n1, _⟩ := lawful_sent hl k1
    obtain ⟨_, _, _, _, _, n2, _⟩ := lawful_sent hl k2
    exact lawful_numbered hl n1 n2
  subst hq
  refine ⟨rfl, ?_⟩
  induction h with
  | nil => simp at h1
  | cons x h ih =>
    rcases List.mem_cons.1 h1 with rfl | k1 <;> rcases List.mem_cons.1 h2 with e | k2
    · cases e; rfl
    · exact absurd k2 (hl.1.2.1 _)
    · subst e; exact absurd k1 (hl.1.2.1 _)
    · exact ih hl.2 k1 k2

theorem called_unique {cfg : Cfg P} {h : List (Act P)} (hl : Lawful cfg h) {n : Nat} {j j' : Job}
    {b b' : P} (h1 : .called n j b ∈ h) (h2 : .called n j' b' ∈ h) : j = j' ∧ b = b' := by
  induction h with
  | nil => simp at h1
  | cons x h ih =>
    rcases List.mem_cons.1 h1 with rfl | k1 <;> rcases List.mem_cons.1 h2 with e | k2
    · cases e; exact ⟨rfl, rfl⟩
    · exact absurd k2 (hl.1 _ _)
    · subst e; exact absurd k1 (hl.1 _ _)
    · exact ih hl.2 k1 k2

theorem Shaken.append {n : Nat} {u : List Char} {h : List (Act P)} (k : Shaken n u h) (xs : List (Act P)) :
    Shaken n u (xs ++ h) := by
  obtain ⟨a, b, rfl, k⟩ := k
  exact ⟨xs ++ a, b, by simp, k⟩

theorem lawful_shaken {cfg : Cfg P} {h : List (Act P)} (hl : Lawful cfg h) {n : Nat} {u : List Char}
    (h1 : .authEnded n (some u) ∈ h) : Shaken n u h := by
  induction h with
  | nil => simp at h1
  | cons x h ih =>
    rcases List.mem_cons.1 h1 with rfl | k1
    · exact (hl.1.2.2 u rfl).append [_]
    · exact (ih hl.2 k1).append [x]

end Verif.Client
