import Verif.Proofs.RustClientShake
set_option autoImplicit false
/-! A handshake of a Rust client that got something else than its self key ends the task for messages. -/
namespace Verif.Client

open Verif

variable {P : Type}

structure Told (s : State P) : Prop where
  heard : ∀ k m, .delivered (.auth k) 0 m ∈ s.past → (∀ u, m ≠ .selfKey u) →
    s.auths.lookup k = some (.key (.ready m)) ∨ .authEnded k none ∈ s.past
  failed : ∀ k, .authEnded k none ∈ s.past → s.msgs.isSome = true → .setUuid none ∈ s.authQueue

theorem Told.quiet {s s' : State P} (h : Told s) (xs : List (Act P)) (h1 : s'.past = xs ++ s.past)
    (h2 : ∀ x ∈ xs, (∀ k m, x ≠ .delivered (.auth k) 0 m) ∧ ∀ n, x ≠ .authEnded n none)
    (h3 : ∀ k m, s.auths.lookup k = some (.key (.ready m)) → s'.auths.lookup k = some (.key (.ready m)))
    (h4 : s'.msgs.isSome = true → s.msgs.isSome = true ∧ (.setUuid none ∈ s.authQueue → .setUuid none ∈ s'.authQueue)) :
    Told s' := by
  refine ⟨?_, ?_⟩
  · intro k m hd hm
    rw [h1] at hd ⊢
    rcases List.mem_append.1 hd with hd | hd
    · exact absurd rfl ((h2 _ hd).1 k m)
    · exact (h.heard k m hd hm).imp (h3 k m) (List.mem_append_right _)
  · intro k hk hs
    rw [h1] at hk
    rcases List.mem_append.1 hk with hk | hk
    · exact absurd rfl ((h2 _ hk).2 k)
    · exact (h4 hs).2 (h.failed k hk (h4 hs).1)

theorem Told.same {s s' : State P} (h : Told s) (xs : List (Act P)) (h1 : s'.past = xs ++ s.past)
    (h2 : ∀ x ∈ xs, (∀ k m, x ≠ .delivered (.auth k) 0 m) ∧ ∀ n, x ≠ .authEnded n none)
    (h3 : s'.auths = s.auths) (h4 : s'.msgs.isSome = true → s.msgs.isSome = true) (h5 : s'.authQueue = s.authQueue) :
    Told s' :=
  h.quiet xs h1 h2 (fun _ _ k => h3 ▸ k) (fun k => ⟨h4 k, fun k => h5 ▸ k⟩)

theorem told_endApi {s : State P} (h : Told s) (ok : Bool) : Told (endApi ok s) := by
  refine h.quiet [.apiEnded ok] rfl (by simp) ?_ ?_
  · intro k m hk
    simp only [endApi, State.push]
    rw [lookup_mapVal s.auths (fun _ p => p.orphan), hk]
    rfl
  · intro k
    simp only [endApi, State.push, Option.isSome_map] at k
    exact ⟨k, id⟩

theorem told_endMsgs {s : State P} (h : Told s) (ok : Bool) : Told (endMsgs ok s) :=
  h.quiet [.messagesEnded ok] rfl (by simp) (fun _ _ k => k) (fun k => by cases k)

theorem told_endCall {s : State P} (h : Told s) (n : Nat) (r : Result P) : Told (s.endCall n r) :=
  h.same [.ended n r] rfl (by simp) rfl id rfl

theorem told_emit {s : State P} (h : Told s) (e : Event P) : Told (emit e s) :=
  h.same [.emitted e] rfl (by simp) rfl id rfl

theorem told_offer {cfg : Cfg P} {s : State P} (h : Told s) (q : UInt32) (m : In P) : Told (offer cfg q m s) := by
  obtain ⟨e, he, _⟩ := offer_past cfg q m s
  rw [he]
  exact h.same [.emitted e] rfl (by simp) rfl id rfl

theorem told_answer {s : State P} (h : Told s) (b : Bool) : Told (answerAccept b s) := by
  refine h.same [] rfl (by simp) rfl ?_ rfl
  intro k
  simpa [answerAccept] using k

theorem told_endAuth {s : State P} (h : Told s) {n : Nat} {r : Option (List Char)}
    (hr : ∀ m, s.auths.lookup n = some (.key (.ready m)) → (∀ u, m ≠ .selfKey u) → r = none) : Told (endAuth n r s) := by
  have key : ∀ t : State P, t.past = .authEnded n r :: s.past → t.auths = s.auths.filter (fun p => p.1 ≠ n) →
      (t.msgs.isSome = true → s.msgs.isSome = true ∧ t.authQueue = s.authQueue ++ [.setUuid r]) → Told t := by
    intro t h1 h2 h3
    refine ⟨?_, ?_⟩
    · intro k m hd hm
      rw [h1] at hd ⊢
      rcases h.heard k m (by simpa using hd) hm with hk | hk
      · by_cases e : k = n
        · subst e
          rw [hr m hk hm]
          exact .inr List.mem_cons_self
        · refine .inl ?_
          rw [h2, lookup_filterNe, if_neg e]
          exact hk
      · exact .inr (List.mem_cons_of_mem _ hk)
    · intro k hk hs
      obtain ⟨h4, h5⟩ := h3 hs
      rw [h5]
      rw [h1] at hk
      rcases List.mem_cons.1 hk with e | hk
      · cases e; simp
      · exact List.mem_append_left _ (h.failed k hk h4)
  unfold endAuth
  simp only
  split
  · rename_i hm
    exact key _ rfl rfl (fun _ => ⟨by rw [show s.msgs = some _ from hm]; rfl, rfl⟩)
  · rename_i hm
    refine key _ rfl rfl (fun k => ?_)
    rw [hm] at k; cases k

theorem told_deliver {s t : State P} (h : Told s) {who : Who} {q : UInt32} {m : In P}
    (hh : ∀ n u, who = .auth n → s.auths.lookup n = some (.hash u .waiting) → q ≠ 0)
    (hd : deliver who q m s = some t) : Told t := by
  unfold deliver at hd
  split at hd
  · split at hd <;> cases hd
    exact h.same [.delivered _ q m] rfl (by simp) rfl id rfl
  · rename_i n
    split at hd <;> cases hd
    · rename_i hl
      refine ⟨?_, ?_⟩
      · intro k m' hd hm
        simp only [State.push] at hd ⊢
        rw [lookup_mapSet, hl]
        rcases List.mem_cons.1 hd with e | hd
        · cases e
          exact .inl (by rw [if_pos rfl]; rfl)
        · rcases h.heard k m' hd hm with hk | hk
          · refine .inl ?_
            rw [if_neg (fun e => by rw [e, hl] at hk; cases hk)]
            exact hk
          · exact .inr (List.mem_cons_of_mem _ hk)
      · intro k hk hs
        exact h.failed k (by simpa [State.push] using hk) hs
    · rename_i u hl
      refine h.quiet [.delivered _ q m] rfl ?_ ?_ (fun k => ⟨k, id⟩)
      · intro x hx
        cases List.mem_singleton.1 hx
        refine ⟨fun k m' e => ?_, by simp⟩
        cases e
        exact hh n u rfl hl rfl
      · intro k m' hk
        simp only [State.push]
        rw [lookup_mapSet, if_neg (fun e => by rw [e, hl] at hk; cases hk)]
        exact hk

theorem told_api {cfg : Cfg P} {s : State P} (hi : Inv cfg s) (h : Told s) (sends : Bool) : Told (apiStep sends s) := by
  unfold apiStep
  split
  · rename_i a c cs ha hq
    have h0 : ∀ api, Told { s with queue := cs, api := some api } := fun api => h.same [] rfl (by simp) rfl id rfl
    have h0' : Told { s with queue := cs } := h.same [] rfl (by simp) rfl id rfl
    cases c with
    | request who q o =>
      simp only [command]
      split
      · exact told_endApi h0' _
      · split
        · exact (h0 _).same [.sent who q o] rfl (by simp) rfl id rfl
        · exact told_endApi (h0 _) _
    | accept q m =>
      simp only [command]
      split
      · exact told_answer h0' _
      · rename_i who hl
        split
        · rename_i hd
          refine told_answer (told_deliver (h0 _) ?_ hd) _
          rintro n u rfl hn rfl
          have hp : ((0 : UInt32), Who.auth n) ∈ s.pend := by
            simp only [State.pend, ha]
            exact lookup_pending hl
          exact (hi.pending _ _ hp).2 _ (hi.auths n _ hn).2.2.1
        · exact told_endApi (h0 _) _
    | uuid n =>
      simp only [command]
      split
      · exact h0'.quiet [] rfl (by simp) (fun _ _ k => k) (fun k => ⟨k, fun k => List.mem_append_left _ k⟩)
      · exact told_endApi h0' _
    | sequence n =>
      simp only [command]
      split
      · exact h0'.same [.numbered n _] rfl (by simp) rfl id rfl
      · exact told_endApi (h0 _) _
  · exact h

theorem told_work {cfg : Cfg P} {s : State P} (h : Told s) : Told (work cfg s) := by
  unfold work
  split
  · rename_i reader uuid hm
    have some_ : s.msgs.isSome = true := by rw [hm]; rfl
    split
    · exact h.same [] rfl (by simp) rfl (fun _ => some_) rfl
    · rename_i x r e
      have h0 : ∀ p, Told (({ s with msgs := p } : State P).push (.got x.header.sequence x.msg)) :=
        fun p => h.same [.got _ _] rfl (by simp) rfl (fun _ => some_) rfl
      simp only
      split
      · refine (h0 _).quiet [.authStarted _] rfl (by simp) ?_ (fun k => ⟨k, id⟩)
        intro k m hk
        simp only [State.push] at hk ⊢
        rw [lookup_snoc, if_pos (by rw [hk]; rfl)]
        exact hk
      · split
        · exact told_offer (told_emit (h0 _) _) _ _
        · exact (h0 (some ⟨r, .between, uuid⟩)).same [] rfl (by simp) rfl (fun _ => rfl) rfl
  · rename_i reader q m r uuid hm
    have some_ : s.msgs.isSome = true := by rw [hm]; rfl
    have h0 : Told { s with msgs := some ⟨reader, .between, uuid⟩ } := h.same [] rfl (by simp) rfl (fun _ => some_) rfl
    simp only
    split
    · exact h
    · exact h0
    · exact told_offer h0 _ _
    · exact told_offer (told_emit h0 _) _ _
  · exact h

theorem told_setAuth {s t : State P} (h : Told s) {n : Nat} {p : AuthPhase P}
    (hp : ∀ m, s.auths.lookup n = some (.key (.ready m)) → ∃ u, m = .selfKey u) (h1 : t.past = s.past)
    (h2 : t.msgs = s.msgs) (h4 : t.authQueue = s.authQueue)
    (h3 : t.auths = s.auths.map (fun x => if x.1 = n then (n, p) else x)) : Told t := by
  refine ⟨?_, ?_⟩
  · intro k m hd hm
    rw [h1] at hd ⊢
    refine (h.heard k m hd hm).imp_left (fun hk => ?_)
    rw [h3, lookup_mapSet]
    by_cases e : k = n
    · subst e
      obtain ⟨u, hu⟩ := hp m hk
      exact absurd hu (hm u)
    · rw [if_neg e]; exact hk
  · intro k hk hs
    rw [h1] at hk; rw [h2] at hs; rw [h4]
    exact h.failed k hk hs

theorem told_auth {cfg : Cfg P} {s : State P} (h : Told s) (n : Nat) : Told (auth cfg n s) := by
  unfold auth
  simp only
  split
  · rename_i hl
    split
    · exact told_setAuth h (fun m hm => by rw [hl] at hm; cases hm) rfl rfl rfl rfl
    · exact told_endAuth h (fun m hm => by rw [hl] at hm; cases hm)
  · rename_i u hl
    split
    · refine told_setAuth h (fun m hm => ?_) rfl rfl rfl rfl
      rw [hl] at hm; cases hm; exact ⟨u, rfl⟩
    · exact told_endAuth h (fun _ _ _ => rfl)
  · rename_i hl
    exact told_endAuth h (fun m hm => by rw [hl] at hm; cases hm)
  · exact h
  · exact h
  · exact told_endAuth h (fun _ _ _ => rfl)
  · exact h

theorem told_step {cfg : Cfg P} {s : State P} (hi : Inv cfg s) (h : Told s) (i : Input P) : Told (step cfg s i) := by
  cases i with
  | call job body =>
    simp only [step, call]
    split
    · exact h.same [.ended _ .failed, .called _ job body] rfl (by simp) rfl id rfl
    · exact h.same [.called _ job body] rfl (by simp) rfl id rfl
  | proceed n =>
    simp only [step, proceed]
    split
    · exact h
    · split <;> (try split) <;> (try split) <;>
        first
        | exact h
        | exact told_endCall h _ _
        | exact h.same [] rfl (by simp) rfl id rfl
  | timeout n =>
    simp only [step, timeout]
    split
    · exact told_endCall h _ _
    · exact h
  | abandon n => exact h.same [] rfl (by simp) rfl id rfl
  | api b => exact told_api hi h b
  | received b =>
    simp only [step, received]
    split
    · rename_i hm
      have some_ : s.msgs.isSome = true := by rw [hm]; rfl
      have h0 : Told (s.push (.chunk b)) := h.same [.chunk b] rfl (by simp) rfl id rfl
      split
      · exact h0.same [] rfl (by simp) rfl (fun _ => some_) rfl
      · exact (told_endMsgs (told_endApi h0 false) false).same [.panicked] rfl (by simp) rfl id rfl
      · exact h0.same [.emitted .readError] rfl (by simp) rfl (fun _ => some_) rfl
    · exact h
  | work => exact told_work h
  | authMessage =>
    simp only [step, authMessage]
    split
    · rename_i reader uuid x xs hm hq
      have some_ : s.msgs.isSome = true := by rw [hm]; rfl
      have h0 : x ≠ .setUuid none → Told { s with authQueue := xs } := by
        intro hx
        refine h.quiet [] rfl (by simp) (fun _ _ k => k) (fun k => ⟨k, fun k => ?_⟩)
        rw [hq] at k
        exact (List.mem_cons.1 k).resolve_left (Ne.symm hx)
      split
      · split
        · exact (h0 (by simp)).same [.emitted .connected] rfl (by simp) rfl (fun _ => some_) rfl
        · exact told_endMsgs (h0 (by simp)) _
      · exact h.quiet [.messagesEnded false, .emitted .authError] rfl (by simp) (fun _ _ k => k) (fun k => by cases k)
      · split
        · exact (h0 (by simp)).same [] rfl (by simp) rfl (fun _ => some_) rfl
        · exact told_endMsgs (h0 (by simp)) _
    · exact h
  | auth n => exact told_auth h n
  | disconnected =>
    simp only [step]
    split
    · rename_i hm
      exact h.same [] rfl (by simp) rfl (fun _ => by rw [hm]; rfl) rfl
    · exact h
  | failure =>
    simp only [step]
    split
    · exact h.same [.emitted .transportError] rfl (by simp) rfl id rfl
    · exact h
  | eventsEnd =>
    simp only [step]
    split
    · exact told_endMsgs h _
    · exact h
  | cancel => exact h.same [] rfl (by simp) rfl id rfl
  | shutdown =>
    simp only [step]
    split
    · exact h
    · exact h.same [] rfl (by simp) rfl id rfl
  | closed ok =>
    simp only [step]
    split
    · cases ok
      · exact h.same [.emitted .disconnected, .emitted .transportError] rfl (by simp) rfl id rfl
      · exact h.same [.emitted .disconnected] rfl (by simp) rfl id rfl
    · exact h
  | apiStops =>
    simp only [step]
    split
    · exact told_endApi h _
    · exact h
  | messagesStop =>
    simp only [step]
    split
    · exact told_endMsgs h _
    · exact h
  | finish =>
    simp only [step]
    split
    · exact h.same [.emitted (.shutdown _)] rfl (by simp) rfl id rfl
    · exact h

theorem told_run (cfg : Cfg P) (is : List (Input P)) : Told (run cfg is .new) := by
  have : ∀ s : State P, Inv cfg s → Asks s → Told s → Told (run cfg is s) := by
    induction is with
    | nil => exact fun s _ _ h => h
    | cons i is ih => exact fun s h1 h2 h3 => ih _ (inv_step h1 h2 i) (asks_step h2 i) (told_step h1 h3 i)
  exact this _ (inv_new cfg) (asks_idle rfl) ⟨by simp [State.new], by simp [State.new]⟩

/-- While the task for messages runs and nothing is left for it, no handshake got something else than its self
key, unless it has not looked yet. -/
theorem told_none {cfg : Cfg P} {is : List (Input P)} (hm : (run cfg is .new).msgs.isSome = true)
    (ha : (run cfg is .new).authQueue = []) {k : Nat} {ref : Flow.Ref} {p : P}
    (hd : .delivered (.auth k) 0 (.msg ref p) ∈ (run cfg is .new).past) :
    (run cfg is .new).auths.lookup k = some (.key (.ready (.msg ref p))) := by
  have h := told_run cfg is
  rcases h.heard k _ hd (by simp) with h1 | h1
  · exact h1
  · have := h.failed k h1 hm
    rw [ha] at this
    cases this

end Verif.Client
