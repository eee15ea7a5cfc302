import Verif.Proofs.RustClientEnd
set_option autoImplicit false
/-! Every step of a Rust client keeps the invariant. -/
namespace Verif.Client

open Verif

variable {P : Type}

/-- The first command is taken and nothing waits for it. -/
theorem inv_popped {cfg : Cfg P} {s : State P} (h : Inv cfg s) {c : Cmd P} {cs : List (Cmd P)}
    (hq : s.queue = c :: cs) {calls : List (Nat × Call P)} {aq : List AuthMsg} {seq : UInt32} {a : Api}
    (ha : s.api = some a) (h1 : c.requestOf = none) (h2 : c.acceptOf = none)
    {xs : List (Act P)} (hxs : ∀ x ∈ xs, ∃ n q, x = .numbered n q)
    (hlaw : Lawful cfg (xs ++ s.past))
    (hcalls : ∀ n d, calls.lookup n = some d → CallOK cfg cs aq s.pend (xs ++ s.past) n d)
    (haq : ∀ u, .setUuid (some u) ∈ aq → .setUuid (some u) ∈ s.authQueue)
    (hsil : s.msgs = none → aq = []) :
    Inv cfg { s with queue := cs, calls := calls, authQueue := aq, api := some { a with sequence := seq },
                     past := xs ++ s.past } := by
  have hpend : s.pend = a.pending := by simp [State.pend, ha]
  have hsub : ∀ x ∈ cs, x ∈ s.queue := by intro x hx; rw [hq]; exact List.mem_cons_of_mem _ hx
  have hno : ∀ x : Act P, (∀ n q, x ≠ .numbered n q) → x ∈ xs ++ s.past → x ∈ s.past := by
    intro x hx hm
    rcases List.mem_append.1 hm with hm | hm
    · obtain ⟨n, q, rfl⟩ := hxs x hm; exact absurd rfl (hx n q)
    · exact hm
  have hyes : ∀ x ∈ s.past, x ∈ xs ++ s.past := fun x hx => List.mem_append_right _ hx
  have hcause : ∀ w q o, Cause cfg w q o s.past → Cause cfg w q o (xs ++ s.past) := by
    intro w q o hc
    clear hxs hlaw hcalls hno hyes
    induction xs with
    | nil => exact hc
    | cons x xs ih => exact ih.cons x
  have hass : ∀ u, Assigned cfg u s.past → Assigned cfg u (xs ++ s.past) := by
    rintro u ⟨n, w, k1, k2⟩; exact ⟨n, w, hyes _ k1, k2⟩
  refine ⟨hlaw, ?_, ?_, fun n d hd => hpend ▸ hcalls n d hd, ?_, ?_, ?_, ?_, ?_, ?_, ?_, ?_, ?_, ?_, hsil⟩
  · clear hlaw hcalls hno hyes hcause hass
    induction xs with
    | nil => exact h.handled
    | cons x xs ih =>
      obtain ⟨n, q, rfl⟩ := hxs x (by simp)
      exact .other (ih (fun y hy => hxs y (List.mem_cons_of_mem _ hy))) (by simp [Act.handles])
  · intro n hn
    obtain ⟨k1, k2⟩ := h.fresh n hn
    exact ⟨fun j b hm => k1 j b (hno _ (by simp) hm), fun hm => k2 (hno _ (by simp) hm)⟩
  · intro n p hp
    refine (h.auths n p hp).mono ⟨xs, rfl⟩ (fun r => hno _ (by simp)) ?_ ?_
    · exact fun q k => ⟨fun o ho => k.1 o (hsub _ ho), fun o ho => k.2 o (hno _ (by simp) ho)⟩
    · intro q k
      rcases k with ⟨o, ho⟩ | k
      · rw [hq] at ho
        rcases List.mem_cons.1 ho with rfl | ho
        · cases h1
        · exact .inl ⟨o, ho⟩
      · exact .inr (hpend ▸ k)
  · intro w q o hm
    have := h.requests w q o (hsub _ hm)
    exact ⟨hcause _ _ _ this.1, fun o ho => this.2 o (hno _ (by simp) ho)⟩
  · have := h.once
    rw [hq] at this
    simpa [List.filterMap_cons, h1] using this
  · have := h.accepts
    rw [hq] at this
    simpa [List.filterMap_cons, h2] using this
  · exact hpend ▸ h.keys
  · intro q w hm
    obtain ⟨⟨o, ho⟩, k⟩ := h.pending q w (hpend ▸ hm)
    exact ⟨⟨o, hyes _ ho⟩, fun m hm => k m (hno _ (by simp) hm)⟩
  · intro _ w q o hm
    rcases h.waits (by simp [ha]) w q o (hno _ (by simp) hm) with ⟨m, k⟩ | k
    · exact .inl ⟨m, hyes _ k⟩
    · exact .inr (hpend ▸ k)
  · simp
  · intro u hu
    obtain ⟨n, hn⟩ := h.assigned u (haq u hu)
    exact ⟨n, hyes _ hn⟩
  · exact fun m u hm hu => hass u (h.uuid m u hm hu)

/-- The calls when a command is taken that they do not wait for. -/
theorem calls_popped {cfg : Cfg P} {s : State P} (h : Inv cfg s) {c : Cmd P} {cs : List (Cmd P)}
    (hq : s.queue = c :: cs) {n : Nat} {d : Call P} (hd : s.calls.lookup n = some d)
    (h1 : c.requestOf = none) (h2 : c = .sequence n → d.phase ≠ .sequence .waiting)
    (h3 : c ≠ .uuid n) : CallOK cfg cs s.authQueue s.pend s.past n d := by
  refine (h.calls n d hd).mono (fun _ => id) (fun _ => id) (fun _ => id) ?_ ?_ ?_ ?_
  · rw [hq]; simp only [Unasked]; grind
  · rw [hq]; grind
  · rw [hq]; grind
  · intro q _ k
    rcases k with ⟨o, ho⟩ | k
    · rw [hq] at ho
      rcases List.mem_cons.1 ho with rfl | ho
      · cases h1
      · exact .inl ⟨o, ho⟩
    · exact .inr k

theorem inv_apiStep {cfg : Cfg P} {s : State P} (h : Inv cfg s) (hn : Asks s) (sends : Bool) :
    Inv cfg (apiStep sends s) := by
  unfold apiStep
  split
  · rename_i a c cs ha hq
    have hpend : s.pend = a.pending := by simp [State.pend, ha]
    have hsub : ∀ x ∈ cs, x ∈ s.queue := by intro x hx; rw [hq]; exact List.mem_cons_of_mem _ hx
    have es : ({ s with queue := cs, api := some a } : State P) = { s with queue := cs } := by rw [← ha]
    cases c with
    | request who q o =>
      simp only [command]
      split
      · exact inv_endApi h false rfl rfl rfl rfl rfl rfl
      · rename_i hl
        have hl : a.pending.lookup q = none := by
          cases e : a.pending.lookup q with
          | none => rfl
          | some w => simp only [e, Option.isSome_some, not_true_eq_false] at hl
        split
        · obtain ⟨hcause, hns⟩ := h.requests who q o (by rw [hq]; simp)
          have honce := h.once
          rw [hq] at honce
          simp only [List.filterMap_cons, Cmd.requestOf, List.nodup_cons] at honce
          have hnc : ∀ o, Cmd.request who q o ∉ cs := by
            intro o ho
            exact honce.1 (List.mem_filterMap.2 ⟨_, ho, rfl⟩)
          have hndel : ∀ m, .delivered who q m ∉ s.past := by
            intro m hm
            obtain ⟨o, ho⟩ := lawful_delivered h.lawful hm
            exact hns _ ho
          have hreq : ∀ w q', ((∃ o, Cmd.request w q' o ∈ s.queue) ∨ (q', w) ∈ s.pend) →
              (∃ o, Cmd.request w q' o ∈ cs) ∨ (q', w) ∈ (q, who) :: a.pending := by
            intro w q' k
            rcases k with ⟨o', ho⟩ | k
            · rw [hq] at ho
              rcases List.mem_cons.1 ho with e | ho
              · cases e; exact .inr (by simp)
              · exact .inl ⟨o', ho⟩
            · exact .inr (List.mem_cons_of_mem _ (hpend ▸ k))
          have hun : ∀ w q', Unasked s.queue s.past w q' → Unasked cs (.sent who q o :: s.past) w q' := by
            intro w q' k
            refine ⟨fun o' ho => k.1 o' (hsub _ ho), fun o' ho => ?_⟩
            rcases List.mem_cons.1 ho with e | ho
            · cases e; exact k.1 o (by rw [hq]; simp)
            · exact k.2 _ ho
          have hfree : ∀ w o, .sent w q o ∈ s.past → ∃ m, .delivered w q m ∈ s.past := by
            intro w o ho
            rcases h.waits (by rw [ha]; rfl) w q o ho with k | k
            · exact k
            · exact absurd (hpend ▸ k) (lookup_pending_none hl w)
          refine ⟨⟨⟨hcause, hns, hfree⟩, h.lawful⟩, .other h.handled (by simp [Act.handles]), ?_, ?_, ?_, ?_, honce.2,
            ?_, ?_, ?_, ?_, by simp [State.push], ?_, ?_, h.silent⟩
          · have := h.fresh
            simp only [State.push]; grind
          · intro n d hd
            refine (h.calls n d hd).mono (fun x hx => List.mem_cons_of_mem _ hx) ?_ ?_ (hun _) ?_ ?_
              (fun q' _ => hreq _ q')
            · simp only [State.push]; grind
            · simp only [State.push]; grind
            · simp only [State.push, hq]; grind
            · simp only [State.push, hq]; grind
          · intro n p hp
            refine (h.auths n p hp).mono ⟨[_], rfl⟩ ?_ (hun _) (hreq _)
            simp only [State.push]; grind
          · intro w q' o' hm
            have hm : Cmd.request w q' o' ∈ cs := hm
            have := h.requests w q' o' (hsub _ hm)
            refine ⟨this.1.cons _, fun o'' ho => ?_⟩
            rcases List.mem_cons.1 ho with e | ho
            · cases e; exact hnc _ hm
            · exact this.2 _ ho
          · have := h.accepts
            rw [hq] at this
            simpa [List.filterMap_cons, Cmd.acceptOf, State.push] using this
          · simp only [State.pend, State.push, List.map_cons, List.nodup_cons]
            refine ⟨?_, hpend ▸ h.keys⟩
            intro hm
            obtain ⟨⟨q', w⟩, k1, k2⟩ := List.mem_map.1 hm
            simp only at k2
            subst k2
            exact lookup_pending_none hl w k1
          · intro q' w hm
            simp only [State.pend, State.push] at hm
            rcases List.mem_cons.1 hm with e | hm
            · cases e
              exact ⟨⟨o, by simp [State.push]⟩, fun m hm => hndel m (by simpa [State.push] using hm)⟩
            · have := h.pending q' w (hpend ▸ hm)
              simp only [State.push]; grind
          · intro _ w q' o' hm
            rcases List.mem_cons.1 hm with e | hm
            · cases e; exact .inr (by simp [State.pend, State.push])
            · rcases h.waits (by simp [ha]) w q' o' hm with ⟨m, k⟩ | k
              · exact .inl ⟨m, List.mem_cons_of_mem _ k⟩
              · exact .inr (List.mem_cons_of_mem _ (hpend ▸ k))
          · have := h.assigned
            simp only [State.push]; grind
          · exact fun m u h1 h2 => (h.uuid m u h1 h2).cons _
        · exact inv_endApi h false rfl rfl rfl rfl rfl rfl
    | accept q m =>
      simp only [command]
      split
      · rename_i hl
        -- nobody waits
        have hacc := h.accepts
        rw [hq] at hacc
        simp only [List.filterMap_cons, Cmd.acceptOf] at hacc
        obtain ⟨reader, uuid, hms⟩ : ∃ reader uuid, s.msgs = some ⟨reader, .accepting q m .waiting, uuid⟩ := by
          unfold asking at hacc
          split at hacc
          · simp only [List.cons.injEq, Prod.mk.injEq] at hacc
            obtain ⟨⟨rfl, rfl⟩, _⟩ := hacc
            exact ⟨_, _, by assumption⟩
          · cases hacc
        have hcs : cs.filterMap Cmd.acceptOf = [] := by
          rw [hms] at hacc
          simpa [asking] using hacc
        have hst : Handled cfg.broadcasts s.past (.open_ q m) := by
          have := h.handled; rw [hms] at this; exact this
        unfold answerAccept
        simp only [hms, Option.map_some]
        have hreq : ∀ w q' o, Cmd.request w q' o ∈ s.queue → Cmd.request w q' o ∈ cs := by
          intro w q' o hm
          rw [hq] at hm
          simpa using hm
        refine ⟨h.lawful, hst, h.fresh, ?_, ?_, ?_, ?_, ?_, h.keys, h.pending, h.waits, ?_, h.assigned, ?_, ?_⟩
        · intro n d hd
          refine (h.calls n d hd).mono (fun _ => id) (fun _ => id) (fun _ => id) ?_ ?_ ?_ ?_
          · simp only [Unasked, hq]; grind
          · simp only [hq]; grind
          · simp only [hq]; grind
          · exact fun q' _ k => k.imp (fun ⟨o, ho⟩ => ⟨o, hreq _ _ _ ho⟩) id
        · intro n p hp
          refine (h.auths n p hp).mono ⟨[], rfl⟩ (fun _ => id) ?_ ?_
          · simp only [Unasked, hq]; grind
          · exact fun q' k => k.imp (fun ⟨o, ho⟩ => ⟨o, hreq _ _ _ ho⟩) id
        · intro w q' o' hm
          exact h.requests w q' o' (hsub _ hm)
        · have := h.once
          rw [hq] at this
          simpa [List.filterMap_cons, Cmd.requestOf] using this
        · simp only [asking]; exact hcs
        · simp [ha]
        · intro m' u' hm hu'
          simp only [Option.some.injEq] at hm
          subst hm
          exact h.uuid _ u' hms hu'
        · simp
      · rename_i who hl
        split
        · rename_i u hd
          exact inv_deliver h hn ha hq hl rfl hd
        · exact inv_endApi h false rfl rfl rfl rfl rfl rfl
    | uuid n =>
      simp only [command]
      split
      · rename_i ms hms
        have := inv_popped h hq (calls := s.calls) (aq := s.authQueue ++ [.getUuid n]) (seq := a.sequence)
          (xs := []) ha rfl rfl (by simp) h.lawful ?_ (by simp) (by simp [hms])
        · simpa [← ha] using this
        · intro m d hd
          refine (h.calls m d hd).mono (fun _ => id) (fun _ => id) (fun _ => id) ?_ ?_ ?_ ?_
          · rw [hq]; simp only [Unasked, List.nil_append]; grind
          · rw [hq]; grind
          · rw [hq]; grind
          · intro q _ k
            rcases k with ⟨o, ho⟩ | k
            · rw [hq] at ho
              exact .inl ⟨o, by simpa using ho⟩
            · exact .inr k
      · exact inv_endApi h false rfl rfl rfl rfl rfl rfl
    | sequence n =>
      simp only [command]
      split
      · rename_i job body hc
        have k := h.calls n _ hc
        have := inv_popped h hq (calls := (s.setCall n ⟨job, body, .sequence (.ready (nextSequence a.sequence))⟩).calls)
          (aq := s.authQueue) (seq := nextSequence a.sequence)
          (xs := [.numbered n (nextSequence a.sequence)]) ha rfl rfl (by simp)
          ⟨⟨⟨_, _, k.1⟩, k.2.2.1⟩, h.lawful⟩ ?_ (by simp) h.silent
        · exact this
        · intro m d hd
          rcases lookup_setCall.1 hd with ⟨rfl, rfl, _⟩ | ⟨hne, hd⟩
          · refine ⟨List.mem_cons_of_mem _ k.1, by have := k.2.1; grind, by simp, ?_⟩
            have := k.2.2.2.1
            intro q
            have := this q
            rw [hq] at this
            simp only [Unasked] at *; grind
          · refine (calls_popped h hq hd rfl (by rintro e; cases e; exact absurd rfl hne) (by simp)).mono
              (fun x hx => List.mem_cons_of_mem _ hx) ?_ ?_ ?_ (fun _ => id) (fun _ _ => id) (fun _ _ => id)
            · grind
            · grind
            · simp only [Unasked]; grind
      · exact inv_endApi h false rfl rfl rfl rfl rfl rfl
  · exact h

theorem offer_past (cfg : Cfg P) (q : UInt32) (m : In P) (s : State P) :
    ∃ e, offer cfg q m s = s.push (.emitted e) ∧
      ((∃ ref body, m = .msg ref body ∧ ref ∈ cfg.broadcasts ∧ e = .broadcast ref body) ∨
        (e = .unknown q ∧ ∀ ref body, m = .msg ref body → ref ∉ cfg.broadcasts)) := by
  unfold offer
  split
  · rename_i ref body
    split
    · rename_i h; exact ⟨_, rfl, .inl ⟨_, _, rfl, h, rfl⟩⟩
    · rename_i h; exact ⟨_, rfl, .inr ⟨rfl, by rintro _ _ e; cases e; exact h⟩⟩
  · rename_i h; exact ⟨_, rfl, .inr ⟨rfl, fun ref body e => absurd e (h ref body)⟩⟩

theorem handled_offer {cfg : Cfg P} {q : UInt32} {m : In P} {h : List (Act P)} {st : Status P}
    (hh : Handled cfg.broadcasts h st) (hst : st = .open_ q m ∨ st = .refused q m) (hm : m ≠ .confirmation)
    {e : Event P} (he : (∃ ref body, m = .msg ref body ∧ ref ∈ cfg.broadcasts ∧ e = .broadcast ref body) ∨
        (e = .unknown q ∧ ∀ ref body, m = .msg ref body → ref ∉ cfg.broadcasts)) :
    Handled cfg.broadcasts (.emitted e :: h) .free := by
  rcases he with ⟨ref, body, rfl, h1, rfl⟩ | ⟨rfl, h1⟩
  · exact .broadcast hh hst h1
  · exact .unknown hh hst hm h1

theorem allowed_event {cfg : Cfg P} {h : List (Act P)} {e : Event P} (he : e ≠ .connected) :
    Allowed cfg h (.emitted e) := by
  cases e <;> first | exact trivial | exact absurd rfl he

theorem offer_notConnected {cfg : Cfg P} {q : UInt32} {m : In P}
    {e : Event P} (he : (∃ ref body, m = .msg ref body ∧ ref ∈ cfg.broadcasts ∧ e = .broadcast ref body) ∨
        (e = .unknown q ∧ ∀ ref body, m = .msg ref body → ref ∉ cfg.broadcasts)) : e ≠ .connected := by
  rcases he with ⟨_, _, _, _, rfl⟩ | ⟨rfl, _⟩ <;> simp

theorem inv_received {cfg : Cfg P} {s : State P} (h : Inv cfg s) (bytes : Bytes) :
    Inv cfg (received cfg bytes s) := by
  unfold received
  split
  · rename_i reader uuid hms
    have hh := h.handled
    rw [hms] at hh
    have hh : Handled cfg.broadcasts (.chunk bytes :: s.past) .free := .other hh (by simp [Act.handles])
    have hu : ∀ v, uuid = some v → Assigned cfg v s.past := fun v hv => h.uuid _ v hms hv
    simp only
    split
    · refine h.quiet rfl rfl rfl rfl rfl [.chunk bytes] rfl (by simp [Act.plain]) ⟨trivial, h.lawful⟩ hh
        (by rw [hms]; rfl) (fun _ _ _ _ _ => id) (fun _ => id) ?_ (by simp)
      intro m u hm hu'
      cases hm
      exact (hu u hu').cons _
    · have h1 : Inv cfg (s.push (.chunk bytes)) := by
        refine h.quiet rfl rfl rfl rfl rfl [.chunk bytes] rfl (by simp [Act.plain]) ⟨trivial, h.lawful⟩ ?_ rfl
          (fun _ _ _ _ _ => id) (fun _ => id) ?_ h.silent
        · simp only [State.push, hms]; exact hh
        · intro m u hm hu'; exact (h.uuid m u hm hu').cons _
      have h2 := inv_endApi (s' := s.push (.chunk bytes)) h1 false rfl rfl rfl rfl rfl rfl
      have h3 := inv_endMsgs h2 false (by simp only [endApi, State.push, status_orphan, hms]; rfl)
        (by simp only [endApi, State.push, asking_orphan])
      exact h3.quiet rfl rfl rfl rfl rfl [.panicked] rfl (by simp [Act.plain]) ⟨trivial, h3.lawful⟩
        (.other h3.handled (by simp [Act.handles])) rfl (fun _ _ _ _ _ => id) (fun _ => id)
        (fun m u hm => by cases hm) (fun _ => rfl)
    · refine h.quiet rfl rfl rfl rfl rfl [.emitted .readError, .chunk bytes] rfl (by simp [Act.plain])
        ⟨trivial, trivial, h.lawful⟩ (.other hh (by simp [Act.handles]))
        (by rw [hms]; rfl) (fun _ _ _ _ _ => id) (fun _ => id) ?_ (by simp [emit, State.push])
      intro m u hm hu'
      cases hm
      exact ((hu u hu').cons _).cons _
  · exact h

theorem inv_work {cfg : Cfg P} {s : State P} (h : Inv cfg s) (hn : Asks s) : Inv cfg (work cfg s) := by
  unfold work
  split
  · rename_i reader uuid hms
    have hh := h.handled
    rw [hms] at hh
    have hh : Handled cfg.broadcasts s.past .free := hh
    have hu : ∀ v, uuid = some v → Assigned cfg v s.past := fun v hv => h.uuid _ v hms hv
    split
    · refine h.quiet rfl rfl rfl rfl rfl [] rfl (by simp) h.lawful hh
        (by rw [hms]; rfl) (fun _ _ _ _ _ => id) (fun _ => id) ?_ (by simp)
      intro m u hm hu'
      cases hm
      exact hu u hu'
    · rename_i x r hx
      simp only
      split
      · -- a handshake starts
        rename_i hxm
        have hf := h.fresh s.next (Nat.le_refl _)
        have hun : ∀ q, Unasked s.queue s.past (.auth s.next) q := by
          intro q
          refine ⟨fun o ho => ?_, fun o ho => ?_⟩
          · exact hf.2 (h.requests _ _ _ ho).1.1
          · exact hf.2 (lawful_sent h.lawful ho).1
        have hnone : s.auths.lookup s.next = none := by
          cases e : s.auths.lookup s.next with
          | none => rfl
          | some c => exact absurd (h.auths _ _ e).1 hf.2
        have hne : ∀ r, .authEnded s.next r ∉ s.past := by
          intro r hm
          have : ∀ l : List (Act P), Lawful cfg l → .authEnded s.next r ∈ l → .authStarted s.next ∈ l := by
            intro l hl hm
            induction l with
            | nil => simp at hm
            | cons a l ih =>
              rcases List.mem_cons.1 hm with rfl | hm
              · exact List.mem_cons_of_mem _ hl.1.2.1
              · exact List.mem_cons_of_mem _ (ih hl.2 hm)
          exact hf.2 (this _ h.lawful hm)
        refine ⟨⟨by simpa [Allowed, State.push] using hf.2, trivial, h.lawful⟩, ?_, ?_, ?_, ?_, ?_, h.once, ?_, h.keys,
          ?_, ?_, h.dead, ?_, ?_, by simp [State.push]⟩
        · rw [hxm]; exact .started (q := x.header.sequence) _ (.got _ _ hh)
        · have := h.fresh
          simp only [State.push]; grind
        · intro n c hc
          refine (h.calls n c hc).mono ?_ ?_ ?_ ?_ (fun _ => id) (fun _ _ => id) (fun _ _ => id)
          · simp only [State.push]; grind
          · simp only [State.push]; grind
          · simp only [State.push]; grind
          · simp only [State.push, Unasked]; grind
        · intro n p hp
          simp only [State.push, lookup_snoc] at hp
          by_cases hn : n = s.next
          · subst hn
            rw [hnone] at hp
            simp at hp
            subst hp
            refine ⟨by simp [State.push], by simpa [State.push] using hne, ?_⟩
            intro q
            have := hun q
            simp only [State.push, Unasked] at *; grind
          · have hp : s.auths.lookup n = some p := by grind
            refine (h.auths n p hp).mono ⟨[_, _], rfl⟩ ?_ ?_ (fun _ => id)
            · simp only [State.push]; grind
            · simp only [State.push, Unasked]; grind
        · intro w q o hm
          have := h.requests w q o hm
          refine ⟨(this.1.cons _).cons _, ?_⟩
          simp only [State.push]; grind
        · have := h.accepts
          rw [hms] at this
          exact this
        · have := h.pending
          simp only [State.push, State.pend] at *; grind
        · have := h.waits
          simp only [State.push, State.pend] at *; grind
        · have := h.assigned
          simp only [State.push]; grind
        · intro m u hm hu'
          cases hm
          exact ((hu u hu').cons _).cons _
      · rename_i hxm
        simp only [State.push]
        cases ha : s.api with
        | none =>
          simp only
          obtain ⟨e, he, hev⟩ := offer_past cfg x.header.sequence x.msg
            (emit .acceptError ({ s with msgs := some ⟨r, .between, uuid⟩, past := .got x.header.sequence x.msg :: s.past, api := none } : State P))
          rw [he]
          refine h.quiet rfl rfl rfl (by simp [State.push, emit, ha]) rfl [.emitted e, .emitted .acceptError, .got x.header.sequence x.msg] rfl
            (by simp [Act.plain]) ⟨allowed_event (offer_notConnected hev), trivial, trivial, h.lawful⟩ ?_
            (by rw [hms]; rfl) (fun _ _ _ _ _ => id) (fun _ => id) ?_ (by simp [emit, State.push])
          · exact handled_offer (.failed (.got _ _ hh)) (.inr rfl) hxm hev
          · intro m u hm hu'
            cases hm
            exact (((hu u hu').cons _).cons _).cons _
        | some a =>
          simp only [State.command]
          have hnr : Cmd.requestOf (.accept x.header.sequence x.msg : Cmd P) = none := rfl
          refine ⟨⟨trivial, h.lawful⟩, .got _ _ hh, ?_, ?_, ?_, ?_, ?_, ?_, ?_, ?_, ?_, by simp, ?_, ?_, by simp⟩
          · have := h.fresh
            simp only; grind
          · intro n c hc
            refine (h.calls n c hc).mono (fun x hx => List.mem_cons_of_mem _ hx) ?_ ?_ ?_ ?_ ?_ ?_
            · simp only; grind
            · simp only; grind
            · simp only [Unasked]; grind
            · simp only; grind
            · simp only; grind
            · intro q _ k
              exact k.imp (fun ⟨o, ho⟩ => ⟨o, List.mem_append_left _ ho⟩) (by simp [State.pend, ha])
          · intro n p hp
            refine (h.auths n p hp).mono ⟨[_], rfl⟩ ?_ ?_ ?_
            · simp only; grind
            · simp only [Unasked]; grind
            · intro q k
              exact k.imp (fun ⟨o, ho⟩ => ⟨o, List.mem_append_left _ ho⟩) (by simp [State.pend, ha])
          · intro w q o hm
            have hm : Cmd.request w q o ∈ s.queue := by simpa using hm
            have := h.requests w q o hm
            refine ⟨this.1.cons _, ?_⟩
            simp only; grind
          · simpa [List.filterMap_append, List.filterMap_cons, Cmd.requestOf] using h.once
          · have := h.accepts
            rw [hms] at this
            simp only [List.filterMap_append, List.filterMap_cons, Cmd.acceptOf, this]
            rfl
          · have := h.keys; simpa [State.pend, ha] using this
          · have := h.pending
            simp only [State.pend, ha] at *; grind
          · have := h.waits
            simp only [State.pend, ha] at *; grind
          · have := h.assigned
            simp only; grind
          · intro m u hm hu'
            cases hm
            exact (hu u hu').cons _
  · rename_i reader q m rp uuid hms
    have hh := h.handled
    have ha := h.accepts
    rw [hms] at hh ha
    have hu : ∀ v, uuid = some v → Assigned cfg v s.past := fun v hv => h.uuid _ v hms hv
    have hcm : m ≠ .confirmation := hn _ _ _ _ _ hms
    split
    · exact h
    · refine h.quiet rfl rfl rfl rfl rfl [] rfl (by simp) h.lawful hh
        (by rw [hms]; rfl) (fun _ _ _ _ _ => id) (fun _ => id) ?_ (by simp)
      intro m u hm hu'
      cases hm
      exact hu u hu'
    · obtain ⟨e, he, hev⟩ := offer_past cfg q m ({ s with msgs := some ⟨reader, .between, uuid⟩ } : State P)
      rw [he]
      refine h.quiet rfl rfl rfl rfl rfl [.emitted e] rfl
        (by simp [Act.plain]) ⟨allowed_event (offer_notConnected hev), h.lawful⟩ ?_
        (by rw [hms]; rfl) (fun _ _ _ _ _ => id) (fun _ => id) ?_ (by simp [State.push])
      · exact handled_offer hh (.inl rfl) hcm hev
      · intro m u hm hu'
        cases hm
        exact (hu u hu').cons _
    · obtain ⟨e, he, hev⟩ := offer_past cfg q m
        (emit .acceptError ({ s with msgs := some ⟨reader, .between, uuid⟩ } : State P))
      rw [he]
      refine h.quiet rfl rfl rfl rfl rfl [.emitted e, .emitted .acceptError] rfl
        (by simp [Act.plain]) ⟨allowed_event (offer_notConnected hev), trivial, h.lawful⟩ ?_
        (by rw [hms]; rfl) (fun _ _ _ _ _ => id) (fun _ => id) ?_ (by simp [emit, State.push])
      · exact handled_offer (.failed hh) (.inr rfl) hcm hev
      · intro m u hm hu'
        cases hm
        exact ((hu u hu').cons _).cons _
  · exact h

theorem inv_authMessage {cfg : Cfg P} {s : State P} (h : Inv cfg s) : Inv cfg (authMessage cfg s) := by
  unfold authMessage
  split
  · rename_i reader uuid x xs hms hq
    have hh := h.handled
    rw [hms] at hh
    have hu : ∀ v, uuid = some v → Assigned cfg v s.past := fun v hv => h.uuid _ v hms hv
    -- taking a message nobody waits for
    have hpop : (∀ n c q, s.calls.lookup n = some c → c.phase = .uuid q .waiting → x ≠ .getUuid n) →
        ∀ ys : List (Act P), (∀ y ∈ ys, y.plain) → Lawful cfg (ys ++ s.past) →
        Handled cfg.broadcasts (ys ++ s.past) .free →
        Inv cfg { s with authQueue := xs, past := ys ++ s.past } := by
      intro hx ys h1 h2 h3
      refine h.quiet rfl rfl rfl rfl rfl ys rfl h1 h2 (by simp only [hms]; exact h3) rfl ?_ ?_ ?_ (by simp [hms])
      · intro n c q hc hp hm
        rw [hq] at hm
        rcases List.mem_cons.1 hm with e | hm
        · exact absurd e.symm (hx n c q hc hp)
        · exact hm
      · intro u hu; rw [hq]; exact List.mem_cons_of_mem _ hu
      · intro m u hm hu
        obtain ⟨n, w, k1, k2⟩ := h.uuid m u hm hu
        exact ⟨n, w, List.mem_append_right _ k1, k2⟩
    have hst : status s.msgs = .free := by rw [hms]; rfl
    have has : asking s.msgs = [] := by rw [hms]; rfl
    simp only
    split
    · rename_i u
      split
      · rename_i v hv
        obtain ⟨k, hk⟩ := h.assigned u (by rw [hq]; simp)
        have hass : Assigned cfg v s.past := ⟨k, u, hk, hv⟩
        refine h.quiet rfl rfl rfl rfl rfl [.emitted .connected] rfl (by simp [Act.plain]) ⟨⟨v, hass⟩, h.lawful⟩
          (.other hh (by simp [Act.handles])) (by rw [hms]; rfl) ?_ ?_ ?_ (by simp [emit, State.push])
        · intro n c q _ _ hm
          rw [hq] at hm
          simpa [emit, State.push] using hm
        · intro w hw; rw [hq]; exact List.mem_cons_of_mem _ hw
        · intro m w hm hw
          cases hm
          cases hw
          exact hass.cons _
      · have h1 := hpop (by simp) [] (by simp) h.lawful hh
        exact inv_endMsgs h1 false hst has
    · have h1 := hpop (by simp) [.emitted .authError] (by simp [Act.plain]) ⟨trivial, h.lawful⟩
        (.other hh (by simp [Act.handles]))
      exact inv_endMsgs h1 false hst has
    · rename_i n
      split
      · rename_i job body q hc
        have hc : s.calls.lookup n = some ⟨job, body, .uuid q .waiting⟩ := hc
        have k := h.calls n _ hc
        have h1 : Inv cfg (s.setCall n ⟨job, body, .uuid q (.ready uuid)⟩) :=
          inv_setCall h ⟨k.1, k.2.1, k.2.2.1, k.2.2.2.1, hu⟩
        refine h1.quiet rfl rfl rfl rfl rfl [] rfl (by simp) h.lawful hh
          has.symm ?_ ?_ ?_ (by simp)
        · intro n' c' q' hc' hp' hm
          have hm : .getUuid n' ∈ s.authQueue := hm
          rw [hq] at hm
          rcases List.mem_cons.1 hm with e | hm
          · cases e
            rcases lookup_setCall.1 hc' with ⟨_, rfl, _⟩ | ⟨hne, _⟩
            · cases hp'
            · exact absurd rfl hne
          · exact hm
        · intro w hw
          show _ ∈ s.authQueue
          rw [hq]; exact List.mem_cons_of_mem _ hw
        · intro m u hm hu'
          cases hm
          exact hu u hu'
      · rename_i hc
        have h1 := hpop (by
          intro n' c q hc' hp e
          cases e
          obtain ⟨job, body, ph⟩ := c
          simp only at hp
          subst hp
          exact hc job body q hc') [] (by simp) h.lawful hh
        exact inv_endMsgs h1 false hst has
  · exact h

theorem inv_endAuth {cfg : Cfg P} {s : State P} (h : Inv cfg s) {n : Nat} {r : Option (List Char)}
    (ha : Allowed cfg s.past (.authEnded n r)) : Inv cfg (endAuth n r s) := by
  have h1 : Inv cfg (({ s with auths := s.auths.filter (fun p => p.1 ≠ n) } : State P).push (.authEnded n r)) := by
    refine ⟨⟨ha, h.lawful⟩, .other h.handled (by simp [Act.handles]), ?_, ?_, ?_, ?_, h.once, h.accepts, h.keys,
      ?_, ?_, h.dead, ?_, ?_, h.silent⟩
    · have := h.fresh
      simp only [State.push]; grind
    · intro m c hc
      refine (h.calls m c hc).mono (fun x hx => List.mem_cons_of_mem _ hx) ?_ ?_ ?_ (fun _ => id)
        (fun _ _ => id) (fun _ _ => id)
      · simp only [State.push]; grind
      · simp only [State.push]; grind
      · simp only [State.push, Unasked]; grind
    · intro m c hc
      simp only [State.push, lookup_filterNe] at hc
      have hne : m ≠ n := by grind
      rw [if_neg hne] at hc
      refine (h.auths m c hc).mono ⟨[_], rfl⟩ ?_ ?_ (fun _ => id)
      · simp only [State.push]; grind
      · simp only [State.push, Unasked]; grind
    · intro w q o hm
      refine ⟨(h.requests w q o hm).1.cons _, ?_⟩
      have := h.requests w q o hm
      simp only [State.push]; grind
    · have := h.pending
      simp only [State.push, State.pend] at *; grind
    · have := h.waits
      simp only [State.push, State.pend] at *; grind
    · have := h.assigned
      simp only [State.push] at *; grind
    · exact fun m u h1 h2 => (h.uuid m u h1 h2).cons _
  unfold endAuth
  simp only
  split
  · rename_i m hm
    have hm : s.msgs = some m := hm
    exact { h1 with
      calls := fun n' c hc => (h1.calls n' c hc).mono (fun _ => id) (fun _ => id) (fun _ => id) (fun _ => id)
        (fun _ => id) (fun q _ k => k.imp id (fun k => List.mem_append_left _ k)) (fun _ _ => id)
      assigned := fun u hu => by
        rcases List.mem_append.1 hu with hu | hu
        · exact h1.assigned u hu
        · cases List.mem_singleton.1 hu
          exact ⟨n, by simp [State.push]⟩
      silent := fun e => by
        have e : s.msgs = none := e
        rw [hm] at e; cases e }
  · exact h1

theorem inv_auth {cfg : Cfg P} {s : State P} (h : Inv cfg s) (n : Nat) : Inv cfg (auth cfg n s) := by
  have hend : ∀ p, s.auths.lookup n = some p → Inv cfg (endAuth n none s) := by
    intro p hp
    have k := h.auths n p hp
    exact inv_endAuth h ⟨k.2.1, k.1, by simp⟩
  have hset : ∀ p q o p', s.auths.lookup n = some p → s.api.isSome → Cause cfg (.auth n) q o s.past →
      Unasked s.queue s.past (.auth n) q →
      AuthOK (s.queue ++ [.request (.auth n) q o]) s.pend s.past n p' →
      Inv cfg (({ s with auths := s.auths.map (fun x => if x.1 = n then (n, p') else x) } : State P).command
        (.request (.auth n) q o)) := by
    intro p q o p' hp ha hc hu hok
    refine inv_ask h ha hc hu rfl ?_ ?_
    · exact fun m c hm => .inl ⟨by simp, hm⟩
    · intro m p'' hm
      simp only [State.command, lookup_mapSet] at hm
      by_cases hn : m = n
      · subst hn
        rw [hp] at hm
        simp at hm
        subst hm
        exact .inr hok
      · rw [if_neg hn] at hm
        exact .inl ⟨by simpa using fun e => hn e.symm, hm⟩
  unfold auth
  simp only
  split
  · rename_i hp
    have k := h.auths n _ hp
    split
    · rename_i hg
      refine hset _ 0 .selfKey _ hp (by simp_all) ⟨k.1, .inl ⟨rfl, rfl⟩⟩ (k.2.2 0) ⟨k.1, k.2.1, ?_, .inl ⟨.selfKey, by simp⟩⟩
      have := k.2.2 1
      simp only [Unasked] at *; grind
    · exact hend _ hp
  · rename_i u hp
    have k := h.auths n _ hp
    split
    · rename_i hg
      exact hset _ 1 .hash _ hp (by simp_all) ⟨k.1, .inr ⟨rfl, rfl, u, k.2.2.2⟩⟩ k.2.2.1
        ⟨k.1, k.2.1, k.2.2.2, .inl ⟨.hash, by simp⟩⟩
    · exact hend _ hp
  · rename_i u hp
    have k := h.auths n _ hp
    refine inv_endAuth h ⟨k.2.1, k.1, ?_⟩
    rintro v e
    cases e
    exact k.2.2
  · exact h
  · exact h
  · rename_i hp
    exact hend _ hp
  · exact h

theorem inv_step {cfg : Cfg P} {s : State P} (h : Inv cfg s) (hn : Asks s) (i : Input P) :
    Inv cfg (step cfg s i) := by
  have hflag : ∀ {t : State P} {e : Event P}, Inv cfg t → e ≠ .connected → (Act.emitted e : Act P).plain →
      ¬ (Act.emitted e : Act P).handles → Inv cfg (emit e t) := by
    intro t e ht h1 h2 h3
    exact ht.quiet rfl rfl rfl rfl rfl [.emitted e] rfl (by simpa using h2) ⟨allowed_event h1, ht.lawful⟩
      (.other ht.handled h3) rfl (fun _ _ _ _ _ => id) (fun _ => id)
      (fun m u hm hu => (ht.uuid m u hm hu).cons _) ht.silent
  cases i with
  | call job body => exact inv_call h job body
  | proceed n => exact inv_proceed h n
  | timeout n => exact inv_timeout h n
  | abandon n => exact inv_dropCall h n
  | api sends => exact inv_apiStep h hn sends
  | received bytes => exact inv_received h bytes
  | work => exact inv_work h hn
  | authMessage => exact inv_authMessage h
  | auth n => exact inv_auth h n
  | disconnected =>
    simp only [step]
    split
    · rename_i hms
      have hh := h.handled
      rw [hms] at hh
      refine h.quiet rfl rfl rfl rfl rfl [] rfl (by simp) h.lawful hh (by rw [hms]; rfl)
        (fun _ _ _ _ _ => id) (fun _ => id) ?_ (by simp)
      intro m u hm hu
      cases hm
      cases hu
    · exact h
  | failure =>
    simp only [step]
    split
    · exact hflag h (by simp) trivial (by simp [Act.handles])
    · exact h
  | eventsEnd =>
    simp only [step]
    split
    · rename_i hms
      exact inv_endMsgs h true (by rw [hms]; rfl) (by rw [hms]; rfl)
    · exact h
  | cancel => exact { h with }
  | shutdown =>
    simp only [step]
    split
    · exact h
    · exact { h with }
  | closed ok =>
    simp only [step]
    split
    · have h1 : Inv cfg (if ok then s else emit .transportError s) := by
        split
        · exact h
        · exact hflag h (by simp) trivial (by simp [Act.handles])
      exact hflag { h1 with } (by simp) trivial (by simp [Act.handles])
    · exact h
  | apiStops =>
    simp only [step]
    split
    · exact inv_endApi h true rfl rfl rfl rfl rfl rfl
    · exact h
  | messagesStop =>
    simp only [step]
    split
    · rename_i hms
      exact inv_endMsgs h true (by rw [hms]; rfl) (by rw [hms]; rfl)
    · exact h
  | finish =>
    simp only [step]
    split
    · exact hflag { h with } (by simp) trivial (by simp [Act.handles])
    · exact h

theorem asks_of_msgs {s s' : State P} (h : Asks s) (e : s'.msgs = s.msgs) : Asks s' := by
  intro a b c d f hf
  rw [e] at hf
  exact h a b c d f hf

theorem asks_orphan {s : State P} (h : Asks s) (ok : Bool) : Asks (endApi ok s) := by
  intro reader q m rp uuid hm
  simp only [endApi, State.push] at hm
  match e : s.msgs, hm with
  | some ⟨r, .accepting q' m' rp', u⟩, hm =>
    simp only [Option.map_some, Place.orphan, Option.some.injEq, Msgs.mk.injEq, Place.accepting.injEq] at hm
    obtain ⟨_, ⟨_, rfl, _⟩, _⟩ := hm
    exact h _ _ _ _ _ e
  | some ⟨r, .idle, u⟩, hm => simp [Place.orphan] at hm
  | some ⟨r, .between, u⟩, hm => simp [Place.orphan] at hm

theorem asks_answer {s : State P} (h : Asks s) (b : Bool) : Asks (answerAccept b s) := by
  intro reader q m rp uuid hm
  simp only [answerAccept] at hm
  match e : s.msgs, hm with
  | some ⟨r, .accepting q' m' rp', u⟩, hm =>
    cases rp' <;>
    · simp only [Option.map_some, Option.some.injEq, Msgs.mk.injEq, Place.accepting.injEq] at hm
      obtain ⟨_, ⟨_, rfl, _⟩, _⟩ := hm
      exact h _ _ _ _ _ e
  | some ⟨r, .idle, u⟩, hm => simp at hm
  | some ⟨r, .between, u⟩, hm => simp at hm

theorem deliver_msgs {who : Who} {q : UInt32} {m : In P} {s u : State P} (h : deliver who q m s = some u) :
    u.msgs = s.msgs := by
  unfold deliver at h
  split at h <;> split at h <;> cases h <;> rfl

theorem asks_none {s : State P} (e : s.msgs = none) : Asks s := by
  intro a b c d f hf; rw [e] at hf; cases hf

theorem asks_idle {s : State P} {r : Rust.Reader (In P)} {u : Option (List Char)}
    (e : s.msgs = some ⟨r, .idle, u⟩) : Asks s := by
  intro a b c d f hf; rw [e] at hf; cases hf

theorem asks_between {s : State P} {r : Rust.Reader (In P)} {u : Option (List Char)}
    (e : s.msgs = some ⟨r, .between, u⟩) : Asks s := by
  intro a b c d f hf; rw [e] at hf; cases hf

theorem offer_msgs (cfg : Cfg P) (q : UInt32) (m : In P) (s : State P) : (offer cfg q m s).msgs = s.msgs := by
  obtain ⟨e, he, _⟩ := offer_past cfg q m s
  rw [he]; rfl

theorem asks_step {cfg : Cfg P} {s : State P} (h : Asks s) (i : Input P) : Asks (step cfg s i) := by
  cases i with
  | call job body =>
    refine asks_of_msgs h ?_
    simp only [step, call]
    split <;> rfl
  | proceed n =>
    refine asks_of_msgs h ?_
    simp only [step, proceed]
    split
    · rfl
    · split <;> (try split) <;> (try split) <;> rfl
  | timeout n =>
    refine asks_of_msgs h ?_
    simp only [step, timeout]
    split <;> rfl
  | abandon n => exact asks_of_msgs h rfl
  | api sends =>
    simp only [step, apiStep]
    split
    · rename_i a c cs ha hq
      have h0 : ∀ api, Asks ({ s with queue := cs, api := api } : State P) := fun _ => asks_of_msgs h rfl
      cases c with
      | request who q o =>
        simp only [command]
        split
        · exact asks_orphan (h0 _) _
        · split
          · exact asks_of_msgs h rfl
          · exact asks_orphan (h0 _) _
      | accept q m =>
        simp only [command]
        split
        · exact asks_answer (h0 _) _
        · split
          · rename_i u hd
            exact asks_answer (asks_of_msgs (h0 _) (deliver_msgs hd)) _
          · exact asks_orphan (h0 _) _
      | uuid n =>
        simp only [command]
        split
        · exact asks_of_msgs h rfl
        · exact asks_orphan (h0 _) _
      | sequence n =>
        simp only [command]
        split
        · exact asks_of_msgs h rfl
        · exact asks_orphan (h0 _) _
    · exact h
  | received bytes =>
    simp only [step, received]
    split
    · split
      · exact asks_between rfl
      · exact asks_none rfl
      · exact asks_idle rfl
    · exact h
  | work =>
    simp only [step, work]
    split
    · split
      · exact asks_idle rfl
      · split
        · exact asks_between rfl
        · rename_i hx
          split
          · exact asks_between (offer_msgs _ _ _ _)
          · intro a b c d f hf
            simp only [State.command, State.push, Option.some.injEq, Msgs.mk.injEq, Place.accepting.injEq] at hf
            obtain ⟨_, ⟨_, rfl, _⟩, _⟩ := hf
            exact hx
    · split
      · exact h
      · exact asks_between rfl
      · exact asks_between (offer_msgs _ _ _ _)
      · exact asks_between (offer_msgs _ _ _ _)
    · exact h
  | authMessage =>
    simp only [step, authMessage]
    split
    · rename_i hms hq
      split
      · split
        · exact asks_idle rfl
        · exact asks_none rfl
      · exact asks_none rfl
      · split
        · exact asks_idle rfl
        · exact asks_none rfl
    · exact h
  | auth n =>
    refine asks_of_msgs h ?_
    have he : ∀ r, (endAuth n r s).msgs = s.msgs := by
      intro r; unfold endAuth; simp only; split <;> rfl
    simp only [step, auth]
    split <;> (try split) <;> first | rfl | exact he _
  | disconnected =>
    simp only [step]
    split
    · exact asks_idle rfl
    · exact h
  | failure =>
    simp only [step]
    split
    · exact asks_of_msgs h rfl
    · exact h
  | eventsEnd =>
    simp only [step]
    split
    · exact asks_none rfl
    · exact h
  | cancel => exact asks_of_msgs h rfl
  | shutdown =>
    simp only [step]
    split
    · exact h
    · exact asks_of_msgs h rfl
  | closed ok =>
    simp only [step]
    split
    · refine asks_of_msgs h ?_
      cases ok <;> rfl
    · exact h
  | apiStops =>
    simp only [step]
    split
    · exact asks_orphan h _
    · exact h
  | messagesStop =>
    simp only [step]
    split
    · exact asks_none rfl
    · exact h
  | finish =>
    simp only [step]
    split
    · exact asks_of_msgs h rfl
    · exact h

theorem inv_run (cfg : Cfg P) (is : List (Input P)) : Inv cfg (run cfg is .new) ∧ Asks (run cfg is .new) := by
  have : ∀ s, Inv cfg s → Asks s → Inv cfg (run cfg is s) ∧ Asks (run cfg is s) := by
    induction is with
    | nil => exact fun s h1 h2 => ⟨h1, h2⟩
    | cons i is ih => exact fun s h1 h2 => ih _ (inv_step h1 h2 i) (asks_step h2 i)
  exact this _ (inv_new cfg) (asks_idle rfl)

end Verif.Client
