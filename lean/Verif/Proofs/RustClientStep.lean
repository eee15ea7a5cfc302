import Verif.Proofs.RustClientInv
set_option autoImplicit false
/-! Every step of a Rust client keeps the invariant. -/
namespace Verif.Client

open Verif

variable {P : Type}

theorem PhaseOK.mono {cfg : Cfg P} {queue queue' : List (Cmd P)} {aq aq' : List AuthMsg}
    {pend pend' : List (UInt32 × Who)} {past past' : List (Act P)} {n : Nat} {ph : Phase P}
    (h : PhaseOK cfg queue aq pend past n ph)
    (hsub : ∀ x ∈ past, x ∈ past')
    (hnum : ∀ q, .numbered n q ∈ past' → .numbered n q ∈ past)
    (hask : ∀ q, Unasked queue past (.call n) q → Unasked queue' past' (.call n) q)
    (hseq : ph = .sequence .waiting → .sequence n ∈ queue → .sequence n ∈ queue')
    (huu : ∀ q, ph = .uuid q .waiting → .uuid n ∈ queue ∨ .getUuid n ∈ aq → .uuid n ∈ queue' ∨ .getUuid n ∈ aq')
    (hreq : ∀ q, ph = .response q .waiting → (∃ o, .request (.call n) q o ∈ queue) ∨ (q, .call n) ∈ pend →
      (∃ o, .request (.call n) q o ∈ queue') ∨ (q, .call n) ∈ pend') :
    PhaseOK cfg queue' aq' pend' past' n ph := by
  have hass : ∀ v, Assigned cfg v past → Assigned cfg v past' := by
    rintro v ⟨k, w, h1, h2⟩
    exact ⟨k, w, hsub _ h1, h2⟩
  match ph, h with
  | .sequence .waiting, h => exact ⟨fun q hq => h.1 q (hnum q hq), fun q => hask q (h.2.1 q), hseq rfl h.2.2⟩
  | .sequence (.ready q), h => exact ⟨hsub _ h.1, fun q => hask q (h.2 q)⟩
  | .sequence .closed, _ => exact trivial
  | .uuid q .waiting, h => exact ⟨hsub _ h.1, fun q => hask q (h.2.1 q), huu q rfl h.2.2⟩
  | .uuid q (.ready u), h => exact ⟨hsub _ h.1, fun q => hask q (h.2.1 q), fun v hv => hass v (h.2.2 v hv)⟩
  | .uuid q .closed, _ => exact trivial
  | .response q .waiting, h => exact ⟨hsub _ h.1, hreq q rfl h.2⟩
  | .response q (.ready m), h => exact ⟨hsub _ h.1, hsub _ h.2⟩
  | .response q .closed, h => exact hsub _ h

theorem CallOK.mono {cfg : Cfg P} {queue queue' : List (Cmd P)} {aq aq' : List AuthMsg}
    {pend pend' : List (UInt32 × Who)} {past past' : List (Act P)} {n : Nat} {c : Call P}
    (h : CallOK cfg queue aq pend past n c)
    (hsub : ∀ x ∈ past, x ∈ past')
    (hend : ∀ r, .ended n r ∈ past' → .ended n r ∈ past)
    (hnum : ∀ q, .numbered n q ∈ past' → .numbered n q ∈ past)
    (hask : ∀ q, Unasked queue past (.call n) q → Unasked queue' past' (.call n) q)
    (hseq : c.phase = .sequence .waiting → .sequence n ∈ queue → .sequence n ∈ queue')
    (huu : ∀ q, c.phase = .uuid q .waiting → .uuid n ∈ queue ∨ .getUuid n ∈ aq →
      .uuid n ∈ queue' ∨ .getUuid n ∈ aq')
    (hreq : ∀ q, c.phase = .response q .waiting →
      (∃ o, .request (.call n) q o ∈ queue) ∨ (q, .call n) ∈ pend →
      (∃ o, .request (.call n) q o ∈ queue') ∨ (q, .call n) ∈ pend') :
    CallOK cfg queue' aq' pend' past' n c :=
  ⟨hsub _ h.1, fun r hr => h.2.1 r (hend r hr), h.2.2.mono hsub hnum hask hseq huu hreq⟩

theorem AuthOK.mono {queue queue' : List (Cmd P)}
    {pend pend' : List (UInt32 × Who)} {past past' : List (Act P)} {n : Nat} {p : AuthPhase P}
    (h : AuthOK queue pend past n p)
    (hsub : ∃ xs, past' = xs ++ past)
    (hend : ∀ r, .authEnded n r ∈ past' → .authEnded n r ∈ past)
    (hask : ∀ q, Unasked queue past (.auth n) q → Unasked queue' past' (.auth n) q)
    (hreq : ∀ q, (∃ o, .request (.auth n) q o ∈ queue) ∨ (q, .auth n) ∈ pend →
      (∃ o, .request (.auth n) q o ∈ queue') ∨ (q, .auth n) ∈ pend') :
    AuthOK queue' pend' past' n p := by
  obtain ⟨xs, rfl⟩ := hsub
  refine ⟨List.mem_append_right _ h.1, fun r hr => h.2.1 r (hend r hr), ?_⟩
  have h := h.2.2
  match p, h with
  | .start, h => exact fun q => hask q (h q)
  | .key .waiting, h => exact ⟨hask _ h.1, hreq _ h.2⟩
  | .key (.ready m), h => exact ⟨hask _ h.1, List.mem_append_right _ h.2⟩
  | .key .closed, _ => exact trivial
  | .hash u .waiting, h => exact ⟨List.mem_append_right _ h.1, hreq _ h.2⟩
  | .hash u (.ready m), h =>
    obtain ⟨a, b, rfl, h2⟩ := h
    exact ⟨xs ++ a, b, by simp, h2⟩
  | .hash u .closed, _ => exact trivial

/-- Acts that nothing but the handling of messages depends on. -/
def Act.plain : Act P → Prop
  | .called .. => False
  | .ended .. => False
  | .numbered .. => False
  | .sent .. => False
  | .delivered .. => False
  | .authStarted _ => False
  | .authEnded .. => False
  | _ => True

/-- Steps that change nothing but the task for messages and add plain acts. -/
theorem Inv.quiet {cfg : Cfg P} {s s' : State P} (h : Inv cfg s)
    (e1 : s'.calls = s.calls) (e2 : s'.auths = s.auths) (e3 : s'.queue = s.queue)
    (e4 : s'.api = s.api) (e5 : s'.next = s.next) (xs : List (Act P)) (e6 : s'.past = xs ++ s.past)
    (hp : ∀ x ∈ xs, x.plain) (hl : Lawful cfg s'.past)
    (hh : Handled cfg.broadcasts s'.past (status s'.msgs)) (ha : asking s'.msgs = asking s.msgs)
    (hw : ∀ n c q, s.calls.lookup n = some c → c.phase = .uuid q .waiting →
      .getUuid n ∈ s.authQueue → .getUuid n ∈ s'.authQueue)
    (hs : ∀ u, .setUuid (some u) ∈ s'.authQueue → .setUuid (some u) ∈ s.authQueue)
    (hu : ∀ m u, s'.msgs = some m → m.uuid = some u → Assigned cfg u s'.past)
    (hn : s'.msgs = none → s'.authQueue = []) : Inv cfg s' := by
  have hpend : s'.pend = s.pend := by simp [State.pend, e4]
  have hno : ∀ x : Act P, ¬ x.plain → x ∈ s'.past → x ∈ s.past := by
    intro x hx hm
    rw [e6] at hm
    rcases List.mem_append.1 hm with hm | hm
    · exact absurd (hp x hm) hx
    · exact hm
  have hyes : ∀ x ∈ s.past, x ∈ s'.past := by
    intro x hx; rw [e6]; exact List.mem_append_right _ hx
  have hun : ∀ w q, Unasked s.queue s.past w q → Unasked s'.queue s'.past w q := by
    intro w q hu
    rw [e3]
    exact ⟨hu.1, fun o ho => hu.2 o (hno _ (by simp [Act.plain]) ho)⟩
  have hcause : ∀ w q o, Cause cfg w q o s.past → Cause cfg w q o s'.past := by
    intro w q o hc
    rw [e6]
    clear e6 hno hyes hun hl hh hp hu
    induction xs with
    | nil => exact hc
    | cons x xs ih => exact ih.cons x
  refine ⟨hl, hh, ?_, ?_, ?_, ?_, ?_, ?_, ?_, ?_, ?_, ?_, ?_, hu, hn⟩
  · intro n hn
    rw [e5] at hn
    obtain ⟨h1, h2⟩ := h.fresh n hn
    exact ⟨fun j b hm => h1 j b (hno _ (by simp [Act.plain]) hm), fun hm => h2 (hno _ (by simp [Act.plain]) hm)⟩
  · intro n c hc
    rw [e1] at hc
    refine (h.calls n c hc).mono hyes (fun r => hno _ (by simp [Act.plain])) (fun r => hno _ (by simp [Act.plain]))
      (fun q => hun _ q) (by rw [e3]; exact fun _ => id) ?_ (by rw [e3, hpend]; exact fun q _ => id)
    intro q hq hm
    rw [e3]
    rcases hm with hm | hm
    · exact .inl hm
    · exact .inr (hw n c q hc hq hm)
  · intro n p hn
    rw [e2] at hn
    exact (h.auths n p hn).mono ⟨xs, e6⟩ (fun r => hno _ (by simp [Act.plain])) (fun q => hun _ q)
      (by rw [e3, hpend]; exact fun q => id)
  · intro w q o hm
    rw [e3] at hm
    exact ⟨hcause _ _ _ (h.requests w q o hm).1,
      fun o ho => (h.requests _ _ _ hm).2 o (hno _ (by simp [Act.plain]) ho)⟩
  · rw [e3]; exact h.once
  · rw [e3, ha]; exact h.accepts
  · rw [hpend]; exact h.keys
  · intro q w hm
    rw [hpend] at hm
    obtain ⟨⟨o, ho⟩, h2⟩ := h.pending q w hm
    exact ⟨⟨o, hyes _ ho⟩, fun m hm => h2 m (hno _ (by simp [Act.plain]) hm)⟩
  · intro ha w q o hm
    rw [e4] at ha
    rw [hpend]
    rcases h.waits ha w q o (hno _ (by simp [Act.plain]) hm) with ⟨m, hm⟩ | hm
    · exact .inl ⟨m, hyes _ hm⟩
    · exact .inr hm
  · rw [e4, e3]; exact h.dead
  · intro u hu
    obtain ⟨n, hn⟩ := h.assigned u (hs u hu)
    exact ⟨n, hyes _ hn⟩

theorem lookup_dropCall {s : State P} {n m : Nat} {c : Call P} :
    (s.dropCall n).calls.lookup m = some c ↔ m ≠ n ∧ s.calls.lookup m = some c := by
  unfold State.dropCall
  rw [lookup_filterNe]
  by_cases h : m = n <;> simp [h]

theorem lookup_setCall {s : State P} {n m : Nat} {c d : Call P} :
    (s.setCall n c).calls.lookup m = some d ↔
      (m = n ∧ d = c ∧ (s.calls.lookup n).isSome) ∨ (m ≠ n ∧ s.calls.lookup m = some d) := by
  unfold State.setCall
  rw [lookup_mapSet]
  by_cases h : m = n
  · cases hn : s.calls.lookup n <;> simp [h, eq_comm]
  · simp [h]

theorem inv_dropCall {cfg : Cfg P} {s : State P} (h : Inv cfg s) (n : Nat) : Inv cfg (s.dropCall n) :=
  { h with calls := fun m c hc => h.calls m c (lookup_dropCall.1 hc).2 }

theorem inv_endCall {cfg : Cfg P} {s : State P} (h : Inv cfg s) {n : Nat} {r : Result P}
    (ha : Allowed cfg s.past (.ended n r)) : Inv cfg (s.endCall n r) := by
  refine ⟨⟨ha, h.lawful⟩, .other h.handled (by simp [Act.handles]), ?_, ?_, ?_, ?_, h.once, h.accepts, h.keys,
    ?_, ?_, h.dead, ?_, ?_, h.silent⟩
  · have := h.fresh
    simp only [State.endCall, State.push, State.dropCall]
    grind
  · intro m c hc
    obtain ⟨hne, hc⟩ := lookup_dropCall.1 hc
    refine (h.calls m c hc).mono (fun x hx => List.mem_cons_of_mem _ hx) ?_ ?_ ?_ (fun _ => id) (fun _ _ => id)
      (fun _ _ => id)
    · simp only [State.endCall, State.push, State.dropCall]; grind
    · simp only [State.endCall, State.push, State.dropCall]; grind
    · simp only [State.endCall, State.push, State.dropCall, Unasked]; grind
  · intro m c hc
    refine (h.auths m c hc).mono ⟨[_], rfl⟩ ?_ ?_ (fun _ => id)
    · simp only [State.endCall, State.push, State.dropCall]; grind
    · simp only [State.endCall, State.push, State.dropCall, Unasked]; grind
  · intro w q o hm
    refine ⟨(h.requests w q o hm).1.cons _, ?_⟩
    have := h.requests w q o hm
    simp only [State.endCall, State.push, State.dropCall]; grind
  · have := h.pending
    simp only [State.endCall, State.push, State.dropCall, State.pend] at *; grind
  · have := h.waits
    simp only [State.endCall, State.push, State.dropCall, State.pend] at *; grind
  · have := h.assigned
    simp only [State.endCall, State.push, State.dropCall] at *; grind
  · exact fun m u h1 h2 => (h.uuid m u h1 h2).cons _
theorem lawful_numbered_called {cfg : Cfg P} {n : Nat} {q : UInt32} {l : List (Act P)} (hl : Lawful cfg l)
    (hm : .numbered n q ∈ l) : ∃ job body, .called n job body ∈ l := by
  induction l with
  | nil => simp at hm
  | cons a l ih =>
    rcases List.mem_cons.1 hm with rfl | hm
    · obtain ⟨j, b, hj⟩ := hl.1.1; exact ⟨j, b, List.mem_cons_of_mem _ hj⟩
    · obtain ⟨j, b, hj⟩ := ih hl.2 hm; exact ⟨j, b, List.mem_cons_of_mem _ hj⟩

theorem lawful_ended_called {cfg : Cfg P} {n : Nat} {r : Result P} {l : List (Act P)} (hl : Lawful cfg l)
    (hm : .ended n r ∈ l) : ∃ job body, .called n job body ∈ l := by
  induction l with
  | nil => simp at hm
  | cons a l ih =>
    rcases List.mem_cons.1 hm with rfl | hm
    · obtain ⟨j, b, hj, _⟩ := hl.1.2; exact ⟨j, b, List.mem_cons_of_mem _ hj⟩
    · obtain ⟨j, b, hj⟩ := ih hl.2 hm; exact ⟨j, b, List.mem_cons_of_mem _ hj⟩

/-- The calls change. -/
theorem Inv.setCalls {cfg : Cfg P} {s : State P} (h : Inv cfg s) {calls : List (Nat × Call P)}
    (hc : ∀ n c, calls.lookup n = some c → s.calls.lookup n = some c ∨
      CallOK cfg s.queue s.authQueue s.pend s.past n c) : Inv cfg { s with calls := calls } :=
  { h with calls := fun n c hn => (hc n c hn).elim (h.calls n c) id }

theorem inv_setCall {cfg : Cfg P} {s : State P} (h : Inv cfg s) {n : Nat} {c : Call P}
    (hc : CallOK cfg s.queue s.authQueue s.pend s.past n c) : Inv cfg (s.setCall n c) := by
  refine h.setCalls (calls := (s.setCall n c).calls) fun m d hd => ?_
  rcases lookup_setCall.1 hd with ⟨rfl, rfl, _⟩ | ⟨_, hd⟩
  · exact .inr hc
  · exact .inl hd

/-- A command that is no request and no message is put into the channel. -/
theorem inv_command {cfg : Cfg P} {s : State P} (h : Inv cfg s) (ha : s.api.isSome) {c : Cmd P}
    (h1 : c.requestOf = none) (h2 : c.acceptOf = none) : Inv cfg (s.command c) := by
  have hr : ∀ w q o, c ≠ .request w q o := by rintro w q o rfl; cases h1
  refine ⟨h.lawful, h.handled, h.fresh, ?_, ?_, ?_, ?_, ?_, h.keys, h.pending, h.waits, ?_, h.assigned,
    h.uuid, h.silent⟩
  · intro m d hd
    refine (h.calls m d hd).mono (fun _ => id) (fun _ => id) (fun _ => id) ?_ ?_ ?_ ?_
    · simp only [State.command, Unasked]; grind
    · simp only [State.command]; grind
    · simp only [State.command]; grind
    · simp only [State.command]; exact fun q _ hq => hq.imp (fun ⟨o, ho⟩ => ⟨o, List.mem_append_left _ ho⟩) id
  · intro m p hp
    refine (h.auths m p hp).mono ⟨[], rfl⟩ (fun _ => id) ?_ ?_
    · simp only [State.command, Unasked]; grind
    · simp only [State.command]; exact fun q hq => hq.imp (fun ⟨o, ho⟩ => ⟨o, List.mem_append_left _ ho⟩) id
  · intro w q o hm
    rcases List.mem_append.1 hm with hm | hm
    · exact h.requests w q o hm
    · exact absurd (List.mem_singleton.1 hm).symm (hr w q o)
  · simpa [State.command, List.filterMap_append, List.filterMap_cons, h1] using h.once
  · simpa [State.command, List.filterMap_append, List.filterMap_cons, h2] using h.accepts
  · intro hn
    exact absurd (show s.api = none from hn) (by intro e; simp [e] at ha)

/-- A request is put into the channel. -/
theorem inv_ask {cfg : Cfg P} {s s' : State P} (h : Inv cfg s) (ha : s.api.isSome) {who : Who} {q : UInt32}
    {o : Out P} (hcause : Cause cfg who q o s.past) (hun : Unasked s.queue s.past who q)
    (e1 : s' = { s with calls := s'.calls, auths := s'.auths, queue := s.queue ++ [.request who q o] })
    (hc : ∀ n c, s'.calls.lookup n = some c → (who ≠ .call n ∧ s.calls.lookup n = some c) ∨
      CallOK cfg s'.queue s.authQueue s.pend s.past n c)
    (hp : ∀ n p, s'.auths.lookup n = some p → (who ≠ .auth n ∧ s.auths.lookup n = some p) ∨
      AuthOK s'.queue s.pend s.past n p) : Inv cfg s' := by
  have eq : s'.queue = s.queue ++ [.request who q o] := by rw [e1]
  rw [e1]
  refine ⟨h.lawful, h.handled, h.fresh, ?_, ?_, ?_, ?_, ?_, h.keys, h.pending, h.waits, ?_, h.assigned,
    h.uuid, h.silent⟩
  · intro m d hd
    rcases hc m d hd with ⟨hne, hd⟩ | hd
    · refine (h.calls m d hd).mono (fun _ => id) (fun _ => id) (fun _ => id) ?_ ?_ ?_ ?_
      · simp only [Unasked]; grind
      · simp only; grind
      · simp only; grind
      · simp only; exact fun q _ hq => hq.imp (fun ⟨o, ho⟩ => ⟨o, List.mem_append_left _ ho⟩) id
    · rw [eq] at hd; exact hd
  · intro m p hm
    rcases hp m p hm with ⟨hne, hd⟩ | hd
    · refine (h.auths m p hd).mono ⟨[], rfl⟩ (fun _ => id) ?_ ?_
      · simp only [Unasked]; grind
      · simp only; exact fun q hq => hq.imp (fun ⟨o, ho⟩ => ⟨o, List.mem_append_left _ ho⟩) id
    · rw [eq] at hd; exact hd
  · intro w q' o' hm
    rcases List.mem_append.1 hm with hm | hm
    · exact h.requests w q' o' hm
    · cases List.mem_singleton.1 hm
      exact ⟨hcause, hun.2⟩
  · simp only [List.filterMap_append, List.filterMap_cons, Cmd.requestOf, List.filterMap_nil]
    refine List.nodup_append.2 ⟨h.once, by simp, ?_⟩
    rintro a ha b hb rfl
    simp only [List.mem_singleton] at hb
    subst hb
    obtain ⟨c, hc1, hc2⟩ := List.mem_filterMap.1 ha
    cases c <;> simp [Cmd.requestOf] at hc2
    obtain ⟨rfl, rfl⟩ := hc2
    exact hun.1 _ hc1
  · simpa [List.filterMap_append, List.filterMap_cons, Cmd.acceptOf] using h.accepts
  · intro hn
    exact absurd (show s.api = none from hn) (by intro e; simp [e] at ha)

theorem inv_call {cfg : Cfg P} {s : State P} (h : Inv cfg s) (job : Job) (body : P) :
    Inv cfg (call job body s) := by
  have hf := h.fresh s.next (Nat.le_refl _)
  have hcalls : s.calls.lookup s.next = none := by
    cases e : s.calls.lookup s.next with
    | none => rfl
    | some c => exact absurd (h.calls _ _ e).1 (hf.1 _ _)
  have hnum : ∀ q, .numbered s.next q ∉ s.past := by
    intro q hm
    obtain ⟨j, b, hj⟩ := lawful_numbered_called h.lawful hm
    exact hf.1 _ _ hj
  have hend : ∀ r, .ended s.next r ∉ s.past := by
    intro q hm
    obtain ⟨j, b, hj⟩ := lawful_ended_called h.lawful hm
    exact hf.1 _ _ hj
  have hun : ∀ q, Unasked s.queue s.past (.call s.next) q := by
    intro q
    refine ⟨fun o ho => ?_, fun o ho => ?_⟩
    · obtain ⟨⟨j, b, u, ref, hj, _⟩, _⟩ := h.requests _ _ _ ho
      exact hf.1 _ _ hj
    · obtain ⟨j, b, u, ref, hj, _⟩ := lawful_sent h.lawful ho
      exact hf.1 _ _ hj
  -- the state after noting the call
  have h1 : Inv cfg (({ s with next := s.next + 1 } : State P).push (.called s.next job body)) := by
    refine ⟨⟨fun j b => hf.1 j b, h.lawful⟩, .other h.handled (by simp [Act.handles]), ?_, ?_, ?_, ?_, h.once,
      h.accepts, h.keys, ?_, ?_, h.dead, ?_, ?_, h.silent⟩
    · have := h.fresh
      simp only [State.push]
      grind
    · intro m c hc
      refine (h.calls m c hc).mono (fun x hx => List.mem_cons_of_mem _ hx) ?_ ?_ ?_ (fun _ => id)
        (fun _ _ => id) (fun _ _ => id)
      · simp only [State.push]; grind
      · simp only [State.push]; grind
      · simp only [State.push, Unasked]; grind
    · intro m c hc
      refine (h.auths m c hc).mono ⟨[_], rfl⟩ ?_ ?_ (fun _ => id)
      · simp only [State.push]; grind
      · simp only [State.push, Unasked]; grind
    · intro w q o hm
      refine ⟨(h.requests w q o hm).1.cons _, ?_⟩
      have := h.requests w q o hm
      simp only [State.push]; grind
    · have := h.pending
      simp only [State.push, State.pend] at *; grind
    · have := h.waits
      simp only [State.push, State.pend] at *; grind
    · have := h.assigned
      simp only [State.push] at *; grind
    · exact fun m u h1 h2 => (h.uuid m u h1 h2).cons _
  unfold call
  simp only
  generalize hs1 : ({ s with next := s.next + 1 } : State P).push (.called s.next job body) = s1 at h1
  have ep : s1.past = .called s.next job body :: s.past := by rw [← hs1]; rfl
  have ec : s1.calls = s.calls := by rw [← hs1]; rfl
  have eq : s1.queue = s.queue := by rw [← hs1]; rfl
  cases ha : s1.api with
  | none =>
    have : Inv cfg (s1.endCall s.next .failed) := by
      refine inv_endCall h1 ⟨?_, job, body, by simp [ep], .inl rfl⟩
      rw [ep]; grind
    have e : s1.dropCall s.next = s1 := by
      unfold State.dropCall
      congr 1
      apply List.filter_eq_self.2
      intro p hp
      rw [ec] at hp
      clear h1 hnum hend hun hf h ha hs1 ep ec eq this
      revert hcalls hp
      generalize s.calls = l
      intro hcalls hp
      induction l with
      | nil => simp at hp
      | cons x l ih =>
        obtain ⟨a, b⟩ := x
        rw [lookup_cons_if] at hcalls
        grind
    unfold State.endCall at this
    rwa [e] at this
  | some a =>
    have h2 := inv_command h1 (c := .sequence s.next) (by simp [ha]) rfl rfl
    simp only
    rw [← ha]
    refine h2.setCalls (calls := s1.calls ++ [(s.next, ⟨job, body, .sequence .waiting⟩)]) fun m c hc => ?_
    rw [lookup_snoc] at hc
    by_cases hm : m = s.next
    · subst hm
      rw [ec, hcalls] at hc
      simp at hc
      subst hc
      refine .inr ⟨?_, ?_, ?_, ?_, ?_⟩
      · show _ ∈ s1.past
        simp [ep]
      · show ∀ r, _ ∉ s1.past
        rw [ep]; grind
      · show ∀ r, _ ∉ s1.past
        rw [ep]; grind
      · intro q; have := hun q; simp only [State.command, eq, ep, Unasked] at *; grind
      · simp [State.command]
    · left
      show s1.calls.lookup m = some c
      grind

theorem job_asks (job : Job) : job.Asks job.ref := by cases job <;> rfl

theorem conclude_reports (job : Job) (m : In P) : Reports job m (conclude job m) := by
  cases job with
  | beacon ref =>
    cases m <;> simp only [conclude]
    case beacon e =>
      cases e
      · exact .confirmed
      · exact .refused
    all_goals exact .noConfirmation (by simp)
  | request r =>
    cases m <;> simp only [conclude]
    case msg ref body =>
      cases e : r.actions.find? (fun a => a.response = some ref) with
      | some a =>
        obtain ⟨h1, as, bs, h2, h3⟩ := List.find?_eq_some_iff_append.1 e
        exact .action h2 (by simpa using h1) (fun b hb => by simpa using h3 b hb)
      | none =>
        have h1 : ∀ b ∈ r.actions, b.response ≠ some ref := by
          simpa using List.find?_eq_none.1 e
        simp only
        split
        · rename_i h; exact .error h1 h
        · rename_i h; exact .wrong h1 h
    all_goals exact .internal (by simp)

theorem inv_timeout {cfg : Cfg P} {s : State P} (h : Inv cfg s) (n : Nat) : Inv cfg (timeout n s) := by
  unfold timeout
  split
  · rename_i r body q rp hc
    have k := h.calls _ _ hc
    refine inv_endCall h ⟨k.2.1, _, _, k.1, .inr (.inl ⟨rfl, ⟨q, ?_⟩, r, rfl⟩)⟩
    have k := k.2.2
    cases rp
    · exact k.1
    · exact k.1
    · exact k
  · exact h

theorem inv_proceed {cfg : Cfg P} {s : State P} (h : Inv cfg s) (n : Nat) : Inv cfg (proceed cfg n s) := by
  unfold proceed
  cases hc : s.calls.lookup n with
  | none => exact h
  | some c =>
    have k := h.calls _ _ hc
    have hfail : Inv cfg (s.endCall n .failed) := inv_endCall h ⟨k.2.1, _, _, k.1, .inl rfl⟩
    obtain ⟨job, body, ph⟩ := c
    obtain ⟨k1, k2, k3⟩ := k
    simp only
    split
    · rename_i q
      cases ha : s.api with
      | none => exact hfail
      | some a =>
        have h1 := inv_command h (c := .uuid n) (by simp [ha]) rfl rfl
        refine inv_setCall h1 (n := n) (c := ⟨job, body, .uuid q .waiting⟩) ⟨k1, k2, k3.1, ?_, ?_⟩
        · intro q; have := k3.2 q; simp only [State.command, Unasked] at *; grind
        · simp [State.command]
    · rename_i q u
      split
      · cases ha : s.api with
        | none => exact hfail
        | some a =>
          refine inv_ask (who := .call n) (q := q) (o := .msg u job.ref body) h (by simp [ha])
            ⟨job, body, u, job.ref, k1, k3.1, job_asks job, rfl, k3.2.2⟩ (k3.2.1 q) rfl ?_ ?_
          · intro m d hd
            rcases lookup_setCall.1 hd with ⟨rfl, rfl, _⟩ | ⟨hne, hd⟩
            · exact .inr ⟨k1, k2, k3.1, .inl ⟨.msg u job.ref body, by simp [State.command]⟩⟩
            · exact .inl ⟨by simpa using fun e => hne e.symm, hd⟩
          · intro m p hp
            exact .inl ⟨by simp, hp⟩
      · exact hfail
    · rename_i q m
      exact inv_endCall h ⟨k2, _, _, k1, .inr (.inr ⟨q, m, k3.2, conclude_reports job m⟩)⟩
    · exact hfail
    · exact hfail
    · exact hfail
    · exact h
end Verif.Client
