import Verif.Proofs.RustClientStep
set_option autoImplicit false
/-! The tasks of a Rust client end, and a response is handed over. -/
namespace Verif.Client

open Verif

variable {P : Type}

theorem status_orphan (o : Option (Msgs P)) :
    status (o.map (fun m => { m with place := m.place.orphan })) = status o := by
  match o with
  | none => rfl
  | some ⟨_, .idle, _⟩ => rfl
  | some ⟨_, .between, _⟩ => rfl
  | some ⟨_, .accepting _ _ .waiting, _⟩ => rfl
  | some ⟨_, .accepting _ _ (.ready true), _⟩ => rfl
  | some ⟨_, .accepting _ _ (.ready false), _⟩ => rfl
  | some ⟨_, .accepting _ _ .closed, _⟩ => rfl

theorem asking_orphan (o : Option (Msgs P)) :
    asking (o.map (fun m => { m with place := m.place.orphan })) = [] := by
  match o with
  | none => rfl
  | some ⟨_, .idle, _⟩ => rfl
  | some ⟨_, .between, _⟩ => rfl
  | some ⟨_, .accepting _ _ .waiting, _⟩ => rfl
  | some ⟨_, .accepting _ _ (.ready true), _⟩ => rfl
  | some ⟨_, .accepting _ _ (.ready false), _⟩ => rfl
  | some ⟨_, .accepting _ _ .closed, _⟩ => rfl

/-- The task for commands ends; what it held may have changed before. -/
theorem inv_endApi {cfg : Cfg P} {s s' : State P} (h : Inv cfg s) (ok : Bool)
    (e1 : s'.calls = s.calls) (e2 : s'.auths = s.auths) (e3 : s'.msgs = s.msgs)
    (e4 : s'.authQueue = s.authQueue) (e5 : s'.next = s.next) (e6 : s'.past = s.past) :
    Inv cfg (endApi ok s') := by
  have hl : Lawful cfg (endApi ok s').past := by
    show Lawful cfg (.apiEnded ok :: s'.past)
    rw [e6]
    exact ⟨trivial, h.lawful⟩
  refine ⟨hl, ?_, ?_, ?_, ?_, ?_, ?_, ?_, ?_, ?_, ?_, fun _ => rfl, ?_, ?_, ?_⟩
  · show Handled _ (.apiEnded ok :: s'.past) (status (s'.msgs.map _))
    rw [status_orphan, e3, e6]
    exact .other h.handled (by simp [Act.handles])
  · have := h.fresh
    simp only [endApi, State.push, e5, e6]
    grind
  · intro n c hc
    simp only [endApi, State.push, e1, e4] at hc
    rw [lookup_mapVal s.calls (fun n c => c.orphan (s.authQueue.contains (.getUuid n)))] at hc
    cases hd : s.calls.lookup n with
    | none => rw [hd] at hc; cases hc
    | some d =>
      rw [hd] at hc
      simp only [Option.map_some, Option.some.injEq] at hc
      subst hc
      obtain ⟨k1, k2, k3⟩ := h.calls n d hd
      obtain ⟨job, body, ph⟩ := d
      have hun : (∀ q, Unasked s.queue s.past (.call n) q) →
          ∀ q, Unasked (endApi ok s').queue (endApi ok s').past (.call n) q := by
        simp only [endApi, State.push, Unasked, e6]; grind
      have hp : (endApi ok s').past = .apiEnded ok :: s.past := by simp [endApi, State.push, e6]
      have ha : (endApi ok s').authQueue = s.authQueue := by simp [endApi, State.push, e4]
      refine ⟨?_, ?_, ?_⟩
      · rw [hp]
        refine List.mem_cons_of_mem _ ?_
        unfold Call.orphan
        split <;> (try split) <;> exact k1
      · rw [hp]; grind
      · unfold Call.orphan
        match ph, k3 with
        | .sequence .waiting, _ => exact trivial
        | .sequence (.ready q), k =>
          simp only [Reply.close]
          exact ⟨by rw [hp]; exact List.mem_cons_of_mem _ k.1, hun k.2⟩
        | .sequence .closed, _ => exact trivial
        | .uuid q .waiting, k =>
          simp only
          split
          · rename_i hg
            refine ⟨by rw [hp]; exact List.mem_cons_of_mem _ k.1, hun k.2.1, .inr ?_⟩
            rw [ha]
            simpa using hg
          · exact trivial
        | .uuid q (.ready u), k =>
          have : PhaseOK cfg (endApi ok s').queue (endApi ok s').authQueue (endApi ok s').pend
              (endApi ok s').past n (.uuid q (.ready u)) :=
            ⟨by rw [hp]; exact List.mem_cons_of_mem _ k.1, hun k.2.1, fun v hv => by
              rw [hp]; exact (k.2.2 v hv).cons _⟩
          simp only
          split
          · exact this
          · exact this
        | .uuid q .closed, _ =>
          simp only
          split <;> exact trivial
        | .response q .waiting, k => exact (by rw [hp]; exact List.mem_cons_of_mem _ k.1 : _ ∈ (endApi ok s').past)
        | .response q (.ready m), k =>
          exact ⟨by rw [hp]; exact List.mem_cons_of_mem _ k.1, by rw [hp]; exact List.mem_cons_of_mem _ k.2⟩
        | .response q .closed, k => exact (by rw [hp]; exact List.mem_cons_of_mem _ k : _ ∈ (endApi ok s').past)
  · intro n p hc
    simp only [endApi, State.push, e2] at hc
    rw [lookup_mapVal s.auths (fun n p => p.orphan)] at hc
    cases hd : s.auths.lookup n with
    | none => rw [hd] at hc; cases hc
    | some d =>
      rw [hd] at hc
      simp only [Option.map_some, Option.some.injEq] at hc
      subst hc
      obtain ⟨k1, k2, k3⟩ := h.auths n d hd
      have hun : ∀ q, Unasked s.queue s.past (.auth n) q →
          Unasked (endApi ok s').queue (endApi ok s').past (.auth n) q := by
        simp only [endApi, State.push, Unasked, e6]; grind
      have hp : (endApi ok s').past = .apiEnded ok :: s.past := by simp [endApi, State.push, e6]
      refine ⟨by rw [hp]; exact List.mem_cons_of_mem _ k1, by rw [hp]; grind, ?_⟩
      unfold AuthPhase.orphan
      match d, k3 with
      | .start, k => exact fun q => hun q (k q)
      | .key .waiting, _ => exact trivial
      | .key (.ready m), k => exact ⟨hun _ k.1, by rw [hp]; exact List.mem_cons_of_mem _ k.2⟩
      | .key .closed, _ => exact trivial
      | .hash u .waiting, _ => exact trivial
      | .hash u (.ready m), k =>
        obtain ⟨a, b, k1, k2⟩ := k
        exact ⟨.apiEnded ok :: a, b, by rw [hp, k1]; rfl, k2⟩
      | .hash u .closed, _ => exact trivial
  · intro w q o hm
    simp [endApi, State.push] at hm
  · simp [endApi, State.push]
  · simp only [endApi, State.push, asking_orphan]
    rfl
  · simp [endApi, State.push, State.pend]
  · intro q w hm
    simp [endApi, State.push, State.pend] at hm
  · intro ha
    simp [endApi, State.push] at ha
  · have := h.assigned
    simp only [endApi, State.push, e4, e6]
    grind
  · intro m u hm hu
    simp only [endApi, State.push, e3, e6] at hm ⊢
    cases e : s.msgs with
    | none => rw [e] at hm; cases hm
    | some m' =>
      rw [e] at hm
      simp only [Option.map_some, Option.some.injEq] at hm
      subst hm
      exact (h.uuid m' u e hu).cons _
  · intro hn
    simp only [endApi, State.push, e3, e4] at hn ⊢
    exact h.silent (by simpa using hn)

/-- The task for messages ends while it is idle. -/
theorem inv_endMsgs {cfg : Cfg P} {s : State P} (h : Inv cfg s) (ok : Bool)
    (h1 : status s.msgs = .free) (h2 : asking s.msgs = []) : Inv cfg (endMsgs ok s) := by
  have hp : (endMsgs ok s).past = .messagesEnded ok :: s.past := rfl
  have hq : (endMsgs ok s).queue = s.queue := rfl
  have hpe : (endMsgs ok s).pend = s.pend := rfl
  refine ⟨⟨trivial, h.lawful⟩, ?_, ?_, ?_, ?_, ?_, h.once, ?_, h.keys, ?_, ?_, h.dead, ?_, ?_, ?_⟩
  · have := h.handled
    rw [h1] at this
    exact .other this (by simp [Act.handles])
  · have := h.fresh
    simp only [endMsgs, State.push]
    grind
  · intro n c hc
    simp only [endMsgs, State.push] at hc
    rw [lookup_mapVal s.calls (fun n c => c.unheard (s.authQueue.contains (.getUuid n)))] at hc
    cases hd : s.calls.lookup n with
    | none => rw [hd] at hc; cases hc
    | some d =>
      rw [hd] at hc
      simp only [Option.map_some, Option.some.injEq] at hc
      have k := h.calls n d hd
      have hm : ∀ c', (∀ q, c'.phase = .uuid q .waiting → .getUuid n ∉ s.authQueue) →
          CallOK cfg s.queue s.authQueue s.pend s.past n c' →
          CallOK cfg (endMsgs ok s).queue (endMsgs ok s).authQueue (endMsgs ok s).pend (endMsgs ok s).past n c' := by
        intro c' hc' k
        refine k.mono (fun x hx => List.mem_cons_of_mem _ hx) ?_ ?_ ?_ (fun _ => id) ?_ (fun _ _ => id)
        · rw [hp]; grind
        · rw [hp]; grind
        · rw [hp, hq]; simp only [Unasked]; grind
        · intro q hq' hh
          have := hc' q hq'
          exact .inl (hh.resolve_right this)
      obtain ⟨job, body, ph⟩ := d
      subst hc
      unfold Call.unheard
      cases ph with
      | sequence r => exact hm _ (by simp) k
      | response q r => exact hm _ (by simp) k
      | uuid q r =>
        simp only
        split
        · cases r with
          | waiting => exact hm _ (by simp [Reply.close]) ⟨k.1, k.2.1, trivial⟩
          | ready u => exact hm _ (by simp [Reply.close]) k
          | closed => exact hm _ (by simp [Reply.close]) k
        · rename_i hg
          exact hm _ (fun _ _ => by simpa using hg) k
  · intro n p hc
    refine (h.auths n p hc).mono ⟨[_], rfl⟩ ?_ ?_ (fun _ => id)
    · rw [hp]; grind
    · rw [hp, hq]; simp only [Unasked]; grind
  · intro w q o hm
    have := h.requests w q o hm
    refine ⟨this.1.cons _, ?_⟩
    rw [hp]; grind
  · have := h.accepts
    rw [h2] at this
    exact this
  · have := h.pending
    rw [hp, hpe]; grind
  · have := h.waits
    rw [hp, hpe]
    show s.api.isSome → _
    grind
  · intro u hu; simp [endMsgs, State.push] at hu
  · intro m u hm; simp [endMsgs, State.push] at hm
  · exact fun _ => rfl

theorem nodup_filter_fst {l : List (UInt32 × Who)} (h : (l.map Prod.fst).Nodup) (q : UInt32) :
    ((l.filter (fun p => p.1 ≠ q)).map Prod.fst).Nodup :=
  h.sublist (List.filter_sublist.map _)

theorem pend_unique {l : List (UInt32 × Who)} (h : (l.map Prod.fst).Nodup) {q : UInt32} {a b : Who}
    (ha : (q, a) ∈ l) (hb : (q, b) ∈ l) : a = b := by
  induction l with
  | nil => simp at ha
  | cons x l ih =>
    simp only [List.map_cons, List.nodup_cons, List.mem_map] at h
    rcases List.mem_cons.1 ha with rfl | ha'
    · rcases List.mem_cons.1 hb with e | hb'
      · cases e; rfl
      · exact absurd ⟨_, hb', rfl⟩ h.1
    · rcases List.mem_cons.1 hb with rfl | hb'
      · exact absurd ⟨_, ha', rfl⟩ h.1
      · exact ih h.2 ha' hb'

/-- A response is handed over; the message is taken from the channel before. -/
theorem inv_deliver {cfg : Cfg P} {s t u : State P} (h : Inv cfg s) (hn : Asks s) {a : Api} {cs : List (Cmd P)}
    {who : Who} {q : UInt32} {m : In P} (ha : s.api = some a) (hq : s.queue = .accept q m :: cs)
    (hl : a.pending.lookup q = some who)
    (ht : t = { s with queue := cs, api := some { a with pending := a.pending.filter (fun p => p.1 ≠ q) } })
    (hd : deliver who q m t = some u) : Inv cfg (answerAccept true u) := by
  have hpend : s.pend = a.pending := by simp [State.pend, ha]
  have hmem : (q, who) ∈ s.pend := by rw [hpend]; exact lookup_pending hl
  obtain ⟨⟨o, hsent⟩, hnd⟩ := h.pending q who hmem
  have hacc := h.accepts
  rw [hq] at hacc
  simp only [List.filterMap_cons, Cmd.acceptOf] at hacc
  obtain ⟨reader, uuid, hms⟩ : ∃ reader uuid, s.msgs = some ⟨reader, .accepting q m .waiting, uuid⟩ := by
    unfold asking at hacc
    split at hacc
    · rename_i hm
      simp only [List.cons.injEq, Prod.mk.injEq] at hacc
      obtain ⟨⟨rfl, rfl⟩, _⟩ := hacc
      exact ⟨_, _, by assumption⟩
    · cases hacc
  have hcs : cs.filterMap Cmd.acceptOf = [] := by
    rw [hms] at hacc
    simpa [asking] using hacc
  have hst : Handled cfg.broadcasts s.past (.open_ q m) := by
    have := h.handled; rw [hms] at this; exact this
  have hothers : ∀ w o, w ≠ who → .sent w q o ∈ s.past → ∃ m, .delivered w q m ∈ s.past := by
    intro w o hw ho
    rcases h.waits (by rw [ha]; rfl) w q o ho with k | k
    · exact k
    · exact absurd (pend_unique h.keys k hmem) hw
  -- what is common to both kinds
  have key : ∀ calls auths,
      (∀ n c, calls.lookup n = some c → (who ≠ .call n ∧ s.calls.lookup n = some c) ∨
        CallOK cfg cs s.authQueue (a.pending.filter (fun p => p.1 ≠ q)) (.delivered who q m :: s.past) n c) →
      (∀ n p, auths.lookup n = some p → (who ≠ .auth n ∧ s.auths.lookup n = some p) ∨
        AuthOK cs (a.pending.filter (fun p => p.1 ≠ q)) (.delivered who q m :: s.past) n p) →
      u = { t with calls := calls, auths := auths, past := .delivered who q m :: s.past } →
      Inv cfg (answerAccept true u) := by
    intro calls auths hcalls hauths hu
    subst ht
    subst hu
    unfold answerAccept
    simp only [hms, Option.map_some]
    have hreq : ∀ w q' o, Cmd.request w q' o ∈ s.queue → Cmd.request w q' o ∈ cs := by
      intro w q' o hm
      rw [hq] at hm
      simpa using hm
    have hreq' : ∀ c, c ∈ cs → c ∈ s.queue := by
      intro c hc; rw [hq]; exact List.mem_cons_of_mem _ hc
    have hpe : ∀ x, x ∈ a.pending → x.1 ≠ q → x ∈ a.pending.filter (fun p => p.1 ≠ q) := by
      intro x hx hx'; simp [List.mem_filter, hx, hx']
    have hwho : ∀ w q', (q', w) ∈ s.pend → w ≠ who → q' ≠ q := by
      rintro w q' hm hw rfl
      exact hw (pend_unique h.keys hm hmem)
    refine ⟨⟨⟨⟨o, hsent⟩, hnd, hothers⟩, h.lawful⟩, .delivered who hst (hn _ _ _ _ _ hms), ?_, ?_, ?_, ?_, ?_, ?_, ?_, ?_, ?_, ?_, ?_, ?_, ?_⟩
    · have := h.fresh
      simp only; grind
    · intro n c hc
      rcases hcalls n c hc with ⟨hn, hc⟩ | hc
      · refine (h.calls n c hc).mono (fun x hx => List.mem_cons_of_mem _ hx) ?_ ?_ ?_ ?_ ?_ ?_
        · simp only; grind
        · simp only; grind
        · simp only [Unasked]; grind
        · simp only [hq]; grind
        · simp only [hq]; grind
        · intro q' _ hh
          rcases hh with ⟨o, ho⟩ | hh
          · exact .inl ⟨o, hreq _ _ _ ho⟩
          · refine .inr (hpe _ (hpend ▸ hh) (hwho _ _ hh (Ne.symm hn)))
      · exact hc
    · intro n p hp
      rcases hauths n p hp with ⟨hn, hp⟩ | hp
      · refine (h.auths n p hp).mono ⟨[_], rfl⟩ ?_ ?_ ?_
        · simp only; grind
        · simp only [Unasked]; grind
        · intro q' hh
          rcases hh with ⟨o, ho⟩ | hh
          · exact .inl ⟨o, hreq _ _ _ ho⟩
          · refine .inr (hpe _ (hpend ▸ hh) (hwho _ _ hh (Ne.symm hn)))
      · exact hp
    · intro w q' o' hm
      have := h.requests w q' o' (hreq' _ hm)
      refine ⟨this.1.cons _, ?_⟩
      simp only; grind
    · have := h.once
      rw [hq] at this
      simpa [List.filterMap_cons, Cmd.requestOf] using this
    · simp only [asking]; exact hcs
    · exact nodup_filter_fst (hpend ▸ h.keys) q
    · intro q' w hm
      have hm' : (q', w) ∈ a.pending ∧ q' ≠ q := by simpa [State.pend, List.mem_filter] using hm
      have := h.pending q' w (hpend ▸ hm'.1)
      simp only; grind
    · intro _ w q' o' hm
      have hm : .sent w q' o' ∈ s.past := by simpa using hm
      rcases h.waits (by simp [ha]) w q' o' hm with ⟨m', k⟩ | k
      · exact .inl ⟨m', List.mem_cons_of_mem _ k⟩
      · by_cases hqq : q' = q
        · subst hqq
          obtain rfl := pend_unique h.keys k hmem
          exact .inl ⟨m, by simp⟩
        · exact .inr (hpe _ (hpend ▸ k) hqq)
    · simp
    · have := h.assigned
      simp only; grind
    · intro m' u' hm hu'
      simp only [Option.some.injEq] at hm
      subst hm
      exact (h.uuid _ u' hms hu').cons _
    · simp
  cases who with
  | call n =>
    simp only [deliver] at hd
    split at hd
    · rename_i job body q' hc
      have hc : s.calls.lookup n = some ⟨job, body, .response q' .waiting⟩ := by subst ht; exact hc
      cases hd
      have k := h.calls n _ hc
      have hqq : q' = q := by
        obtain ⟨_, _, _, _, _, hn, _⟩ := lawful_sent h.lawful hsent
        exact lawful_numbered h.lawful k.2.2.1 hn
      subst hqq
      refine key (t.setCall n ⟨job, body, .response q' (.ready m)⟩).calls s.auths ?_ ?_ (by subst ht; rfl)
      · intro n' c' hc'
        rcases lookup_setCall.1 hc' with ⟨rfl, rfl, _⟩ | ⟨hne, hc'⟩
        · exact .inr ⟨List.mem_cons_of_mem _ k.1, by have := k.2.1; grind, List.mem_cons_of_mem _ k.2.2.1, by simp⟩
        · exact .inl ⟨by simpa using fun e => hne e.symm, by subst ht; exact hc'⟩
      · exact fun n' p hp => .inl ⟨by simp, hp⟩
    · cases hd
  | auth n =>
    simp only [deliver] at hd
    have hcau := lawful_sent h.lawful hsent
    split at hd
    · rename_i hp
      have hp : s.auths.lookup n = some (.key .waiting) := by subst ht; exact hp
      cases hd
      have k := h.auths n _ hp
      have hqq : q = 0 := by
        rcases hcau.2 with ⟨e, _⟩ | ⟨e, _⟩
        · exact e
        · subst e; exact absurd hsent (k.2.2.1.2 _)
      subst hqq
      refine key s.calls (s.auths.map (fun p => if p.1 = n then (n, .key (.ready m)) else p)) ?_ ?_
        (by subst ht; rfl)
      · exact fun n' c' hc' => .inl ⟨by simp, hc'⟩
      · intro n' p' hp'
        rw [lookup_mapSet] at hp'
        by_cases hn : n' = n
        · subst hn
          rw [hp] at hp'
          simp at hp'
          subst hp'
          refine .inr ⟨List.mem_cons_of_mem _ k.1, by have := k.2.1; grind, ?_, by simp⟩
          have := k.2.2.1
          rw [hq] at this
          simp only [Unasked] at *; grind
        · rw [if_neg hn] at hp'
          exact .inl ⟨by simpa using fun e => hn e.symm, hp'⟩
    · rename_i uu hp
      have hp : s.auths.lookup n = some (.hash uu .waiting) := by subst ht; exact hp
      cases hd
      have k := h.auths n _ hp
      have hqq : q = 1 := by
        rcases hcau.2 with ⟨e, _⟩ | ⟨e, _⟩
        · subst e; exact absurd k.2.2.1 (hnd _)
        · exact e
      subst hqq
      refine key s.calls (s.auths.map (fun p => if p.1 = n then (n, .hash uu (.ready m)) else p)) ?_ ?_
        (by subst ht; rfl)
      · exact fun n' c' hc' => .inl ⟨by simp, hc'⟩
      · intro n' p' hp'
        rw [lookup_mapSet] at hp'
        by_cases hn : n' = n
        · subst hn
          rw [hp] at hp'
          simp at hp'
          subst hp'
          exact .inr ⟨List.mem_cons_of_mem _ k.1, by have := k.2.1; grind, [], _, rfl, k.2.2.1⟩
        · rw [if_neg hn] at hp'
          exact .inl ⟨by simpa using fun e => hn e.symm, hp'⟩
    · cases hd

end Verif.Client
