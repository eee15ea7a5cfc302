import Verif.Proofs.RustClientAlive
set_option autoImplicit false
/-! Why a handshake of a Rust client fails. -/
namespace Verif.Client

open Verif

variable {P : Type}

theorem Broken.append {cfg : Cfg P} {n : Nat} {h : List (Act P)} (k : Broken cfg n h) (xs : List (Act P)) :
    Broken cfg n (xs ++ h) := by
  rcases k with k | k | ⟨ok, k⟩ | ⟨m, k1, k2⟩ | ⟨m, k1, k2⟩
  · exact .inl k
  · exact .inr (.inl k)
  · exact .inr (.inr (.inl ⟨ok, List.mem_append_right _ k⟩))
  · exact .inr (.inr (.inr (.inl ⟨m, List.mem_append_right _ k1, k2⟩)))
  · exact .inr (.inr (.inr (.inr ⟨m, List.mem_append_right _ k1, k2⟩)))

def AuthPhase.closed : AuthPhase P → Prop
  | .key .closed => True
  | .hash _ .closed => True
  | _ => False

structure Shakes (cfg : Cfg P) (s : State P) : Prop where
  gone : s.api = none → ∃ ok, .apiEnded ok ∈ s.past
  closed : ∀ n p, s.auths.lookup n = some p → p.closed → ∃ ok, .apiEnded ok ∈ s.past
  failed : ∀ n, .authEnded n none ∈ s.past → Broken cfg n s.past

/-- Steps after which no handshake failed, was closed, or is new. -/
theorem Shakes.quiet {cfg : Cfg P} {s s' : State P} (h : Shakes cfg s) (xs : List (Act P))
    (h1 : s'.past = xs ++ s.past) (h2 : ∀ x ∈ xs, ∀ n, x ≠ .authEnded n none)
    (h3 : s'.api = none → s.api = none ∨ ∃ ok, .apiEnded ok ∈ xs)
    (h4 : ∀ n p, s'.auths.lookup n = some p → p.closed →
      (∃ p, s.auths.lookup n = some p ∧ p.closed) ∨ ∃ ok, .apiEnded ok ∈ xs) : Shakes cfg s' := by
  refine ⟨?_, ?_, ?_⟩
  · intro k
    rw [h1]
    rcases h3 k with k | ⟨ok, k⟩
    · obtain ⟨ok, k⟩ := h.gone k; exact ⟨ok, List.mem_append_right _ k⟩
    · exact ⟨ok, List.mem_append_left _ k⟩
  · intro n p hp hc
    rw [h1]
    rcases h4 n p hp hc with ⟨p', hp', hc'⟩ | ⟨ok, k⟩
    · obtain ⟨ok, k⟩ := h.closed n p' hp' hc'; exact ⟨ok, List.mem_append_right _ k⟩
    · exact ⟨ok, List.mem_append_left _ k⟩
  · intro n hn
    rw [h1] at hn ⊢
    rcases List.mem_append.1 hn with hn | hn
    · exact absurd rfl (h2 _ hn n)
    · exact (h.failed n hn).append xs

theorem Shakes.same {cfg : Cfg P} {s s' : State P} (h : Shakes cfg s) (xs : List (Act P))
    (h1 : s'.past = xs ++ s.past) (h2 : ∀ x ∈ xs, ∀ n, x ≠ .authEnded n none)
    (h3 : s'.api = none → s.api = none) (h4 : s'.auths = s.auths) : Shakes cfg s' :=
  h.quiet xs h1 h2 (fun k => .inl (h3 k)) (fun _ p hp hc => .inl ⟨p, h4 ▸ hp, hc⟩)

theorem shakes_endApi {cfg : Cfg P} {s : State P} (h : Shakes cfg s) (ok : Bool) : Shakes cfg (endApi ok s) :=
  h.quiet [.apiEnded ok] rfl (by simp) (fun _ => .inr ⟨ok, by simp⟩) (fun _ _ _ _ => .inr ⟨ok, by simp⟩)

theorem shakes_endMsgs {cfg : Cfg P} {s : State P} (h : Shakes cfg s) (ok : Bool) : Shakes cfg (endMsgs ok s) :=
  h.same [.messagesEnded ok] rfl (by simp) id rfl

theorem shakes_endCall {cfg : Cfg P} {s : State P} (h : Shakes cfg s) (n : Nat) (r : Result P) :
    Shakes cfg (s.endCall n r) := h.same [.ended n r] rfl (by simp) id rfl

theorem shakes_emit {cfg : Cfg P} {s : State P} (h : Shakes cfg s) (e : Event P) : Shakes cfg (emit e s) :=
  h.same [.emitted e] rfl (by simp) id rfl

theorem shakes_offer {cfg : Cfg P} {s : State P} (h : Shakes cfg s) (q : UInt32) (m : In P) :
    Shakes cfg (offer cfg q m s) := by
  obtain ⟨e, he, _⟩ := offer_past cfg q m s
  rw [he]
  exact h.same [.emitted e] rfl (by simp) id rfl

theorem shakes_endAuth {cfg : Cfg P} {s : State P} (h : Shakes cfg s) {n : Nat} {r : Option (List Char)}
    (hr : r = none → Broken cfg n s.past) : Shakes cfg (endAuth n r s) := by
  have key : ∀ t : State P, t.past = .authEnded n r :: s.past → t.api = s.api →
      t.auths = s.auths.filter (fun p => p.1 ≠ n) → Shakes cfg t := by
    intro t h1 h2 h3
    refine ⟨?_, ?_, ?_⟩
    · intro k
      rw [h2] at k
      obtain ⟨ok, k⟩ := h.gone k
      exact ⟨ok, by rw [h1]; exact List.mem_cons_of_mem _ k⟩
    · intro m p hp hc
      rw [h3, lookup_filterNe] at hp
      split at hp
      · cases hp
      · obtain ⟨ok, k⟩ := h.closed m p hp hc
        exact ⟨ok, by rw [h1]; exact List.mem_cons_of_mem _ k⟩
    · intro m hm
      rw [h1] at hm ⊢
      rcases List.mem_cons.1 hm with e | hm
      · cases e; exact (hr rfl).append [_]
      · exact (h.failed m hm).append [_]
  unfold endAuth
  simp only
  split
  · exact key _ rfl rfl rfl
  · exact key _ rfl rfl rfl

theorem shakes_deliver {cfg : Cfg P} {s t : State P} (h : Shakes cfg s) {who : Who} {q : UInt32} {m : In P}
    (hd : deliver who q m s = some t) : Shakes cfg t := by
  unfold deliver at hd
  split at hd
  · split at hd <;> cases hd
    exact h.same [.delivered _ q m] rfl (by simp) id rfl
  · split at hd <;> cases hd
    all_goals
      rename_i hl
      refine h.quiet [.delivered _ q m] rfl (by simp) .inl ?_
      intro k p hp hc
      refine .inl ⟨p, ?_, hc⟩
      simp only [State.push] at hp
      rw [lookup_mapSet] at hp
      split at hp
      · rw [hl] at hp; cases hp; exact hc.elim
      · exact hp

theorem shakes_api {cfg : Cfg P} {s : State P} (h : Shakes cfg s) (sends : Bool) :
    Shakes cfg (apiStep sends s) := by
  unfold apiStep
  split
  · rename_i a c cs ha hq
    have h0 : ∀ api, Shakes cfg { s with queue := cs, api := some api } := fun api =>
      h.same [] rfl (by simp) (by simp) rfl
    have h0' : Shakes cfg { s with queue := cs } := h.same [] rfl (by simp) id rfl
    cases c with
    | request who q o =>
      simp only [command]
      split
      · exact shakes_endApi h0' _
      · split
        · exact (h0 _).same [.sent who q o] rfl (by simp) id rfl
        · exact shakes_endApi (h0 _) _
    | accept q m =>
      simp only [command]
      split
      · exact h0'.same [] rfl (by simp) id rfl
      · split
        · rename_i hd
          exact (shakes_deliver (h0 _) hd).same [] rfl (by simp) id rfl
        · exact shakes_endApi (h0 _) _
    | uuid n =>
      simp only [command]
      split
      · exact h0'.same [] rfl (by simp) id rfl
      · exact shakes_endApi h0' _
    | sequence n =>
      simp only [command]
      split
      · exact (h0 _).same [.numbered n _] rfl (by simp) id rfl
      · exact shakes_endApi (h0 _) _
  · exact h

theorem shakes_work {cfg : Cfg P} {s : State P} (h : Shakes cfg s) : Shakes cfg (work cfg s) := by
  unfold work
  split
  · split
    · exact h.same [] rfl (by simp) id rfl
    · rename_i x r e
      have h0 : ∀ p, Shakes cfg (({ s with msgs := p } : State P).push (.got x.header.sequence x.msg)) :=
        fun p => h.same [.got _ _] rfl (by simp) id rfl
      simp only
      split
      · refine (h0 _).quiet [.authStarted _] rfl (by simp) .inl ?_
        intro k p hp hc
        refine .inl ⟨p, ?_, hc⟩
        simp only [State.push] at hp
        rw [lookup_snoc] at hp
        split at hp
        · exact hp
        · split at hp
          · cases hp; exact hc.elim
          · cases hp
      · split
        · exact shakes_offer (shakes_emit (h0 _) _) _ _
        · exact (h0 _).same [] rfl (by simp) id rfl
  · rename_i reader q m r uuid hm
    have h0 : Shakes cfg { s with msgs := some ⟨reader, .between, uuid⟩ } := h.same [] rfl (by simp) id rfl
    simp only
    split
    · exact h
    · exact h0
    · exact shakes_offer h0 _ _
    · exact shakes_offer (shakes_emit h0 _) _ _
  · exact h

theorem shakes_setAuth {cfg : Cfg P} {s t : State P} (h : Shakes cfg s) {n : Nat} {p : AuthPhase P}
    (hp : ¬ p.closed) (h1 : t.past = s.past) (h2 : t.api = s.api)
    (h3 : t.auths = s.auths.map (fun x => if x.1 = n then (n, p) else x)) : Shakes cfg t := by
  refine h.quiet [] h1 (by simp) (fun k => .inl (h2 ▸ k)) ?_
  intro k p' hp' hc
  refine .inl ⟨p', ?_, hc⟩
  rw [h3, lookup_mapSet] at hp'
  split at hp'
  · cases e : s.auths.lookup n with
    | none => rw [e] at hp'; cases hp'
    | some y => rw [e] at hp'; cases hp'; exact absurd hc hp
  · exact hp'

theorem shakes_auth {cfg : Cfg P} {s : State P} (hi : Inv cfg s) (h : Shakes cfg s) (n : Nat) :
    Shakes cfg (auth cfg n s) := by
  have sends : ∀ o, (s.api.isSome && cfg.packs o) ≠ true → cfg.packs o = false ∨ ∃ ok, .apiEnded ok ∈ s.past := by
    intro o ho
    cases e : s.api with
    | none => exact .inr (h.gone e)
    | some a => rw [e] at ho; exact .inl (by simpa using ho)
  unfold auth
  simp only
  split
  · split
    · exact shakes_setAuth h (by simp [AuthPhase.closed]) rfl rfl rfl
    · rename_i hs
      refine shakes_endAuth h (fun _ => ?_)
      rcases sends _ hs with k | k
      · exact .inl k
      · exact .inr (.inr (.inl k))
  · split
    · exact shakes_setAuth h (by simp [AuthPhase.closed]) rfl rfl rfl
    · rename_i hs
      refine shakes_endAuth h (fun _ => ?_)
      rcases sends _ hs with k | k
      · exact .inr (.inl k)
      · exact .inr (.inr (.inl k))
  · exact shakes_endAuth h (fun k => by cases k)
  · exact h
  · exact h
  · rename_i p h1 h2 h3 h4 h5 hl
    refine shakes_endAuth h (fun _ => ?_)
    have hok := (hi.auths n p hl).2.2
    cases p with
    | start => exact absurd rfl h1
    | key r =>
      cases r with
      | waiting => exact absurd rfl h4
      | closed => exact .inr (.inr (.inl (h.closed n _ hl trivial)))
      | ready m =>
        exact .inr (.inr (.inr (.inl ⟨m, hok.2, fun u e => h2 u (by rw [e])⟩)))
    | hash u r =>
      cases r with
      | waiting => exact absurd rfl (h5 u)
      | closed => exact .inr (.inr (.inl (h.closed n _ hl trivial)))
      | ready m =>
        obtain ⟨newer, older, e, _⟩ := hok
        exact .inr (.inr (.inr (.inr ⟨m, by rw [e]; simp, fun e => h3 u (by rw [e])⟩)))
  · exact h

theorem shakes_step {cfg : Cfg P} {s : State P} (hi : Inv cfg s) (h : Shakes cfg s) (i : Input P) :
    Shakes cfg (step cfg s i) := by
  cases i with
  | call job body =>
    simp only [step, call]
    split
    · exact h.same [.ended _ .failed, .called _ job body] rfl (by simp) id rfl
    · exact h.same [.called _ job body] rfl (by simp) id rfl
  | proceed n =>
    simp only [step, proceed]
    split
    · exact h
    · split <;> (try split) <;> (try split) <;>
        first
        | exact h
        | exact shakes_endCall h _ _
        | exact h.same [] rfl (by simp) id rfl
  | timeout n =>
    simp only [step, timeout]
    split
    · exact shakes_endCall h _ _
    · exact h
  | abandon n => exact h.same [] rfl (by simp) id rfl
  | api b => exact shakes_api h b
  | received b =>
    simp only [step, received]
    split
    · have h0 : Shakes cfg (s.push (.chunk b)) := h.same [.chunk b] rfl (by simp) id rfl
      split
      · exact h0.same [] rfl (by simp) id rfl
      · exact (shakes_endMsgs (shakes_endApi h0 false) false).same [.panicked] rfl (by simp) id rfl
      · exact h0.same [.emitted .readError] rfl (by simp) id rfl
    · exact h
  | work => exact shakes_work h
  | authMessage =>
    simp only [step, authMessage]
    split
    · rename_i reader uuid x xs hm hq
      have h0 : Shakes cfg { s with authQueue := xs } := h.same [] rfl (by simp) id rfl
      split
      · split
        · exact h0.same [.emitted .connected] rfl (by simp) id rfl
        · exact shakes_endMsgs h0 _
      · exact shakes_endMsgs (s := emit .authError _) (h0.same [.emitted .authError] rfl (by simp) id rfl) _
      · split
        · exact h0.same [] rfl (by simp) id rfl
        · exact shakes_endMsgs h0 _
    · exact h
  | auth n => exact shakes_auth hi h n
  | disconnected =>
    simp only [step]
    split
    · exact h.same [] rfl (by simp) id rfl
    · exact h
  | failure =>
    simp only [step]
    split
    · exact h.same [.emitted .transportError] rfl (by simp) id rfl
    · exact h
  | eventsEnd =>
    simp only [step]
    split
    · exact shakes_endMsgs h _
    · exact h
  | cancel => exact h.same [] rfl (by simp) id rfl
  | shutdown =>
    simp only [step]
    split
    · exact h
    · exact h.same [] rfl (by simp) id rfl
  | closed ok =>
    simp only [step]
    split
    · cases ok
      · exact h.same [.emitted .disconnected, .emitted .transportError] rfl (by simp) id rfl
      · exact h.same [.emitted .disconnected] rfl (by simp) id rfl
    · exact h
  | apiStops =>
    simp only [step]
    split
    · exact shakes_endApi h _
    · exact h
  | messagesStop =>
    simp only [step]
    split
    · exact shakes_endMsgs h _
    · exact h
  | finish =>
    simp only [step]
    split
    · exact h.same [.emitted (.shutdown _)] rfl (by simp) id rfl
    · exact h

theorem shakes_run (cfg : Cfg P) (is : List (Input P)) : Shakes cfg (run cfg is .new) := by
  have : ∀ s : State P, Inv cfg s → Asks s → Shakes cfg s → Shakes cfg (run cfg is s) := by
    induction is with
    | nil => exact fun s _ _ h => h
    | cons i is ih => exact fun s h1 h2 h3 => ih _ (inv_step h1 h2 i) (asks_step h2 i) (shakes_step h1 h3 i)
  exact this _ (inv_new cfg) (asks_idle rfl) ⟨by simp [State.new], by simp [State.new], by simp [State.new]⟩

end Verif.Client
