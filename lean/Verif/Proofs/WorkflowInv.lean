import Verif.Proofs.WorkflowDecls
set_option autoImplicit false
/-!
What holds for every accepted workflow, however it is written.
-/
namespace Verif.Flow

open Verif Verif.Flow
open Verif.Prot (Name Sound Known)

/-- An invariant of the rounds holds at the end. -/
theorem accepted_inv {I : PState → Prop} {pr : Prot.Store} {text : List Char} {s : Store}
    {pr2 : Prot.Store} (h0 : I (PState.init pr))
    (hstep : ∀ p p2 t o, onTok p t o = some p2 → I p → I p2)
    (h : Parses pr text (.accepted s pr2)) :
    ∃ p, I p ∧ p.store = s ∧ p.protocol = pr2 ∧ s.validate = true := by
  obtain ⟨n, hn⟩ := h
  have : ∀ n p c, I p → loop n p c = some (.accepted s pr2) →
      ∃ p, I p ∧ p.store = s ∧ p.protocol = pr2 ∧ s.validate = true := by
    intro n
    induction n with
    | zero => intro p c _ h; simp [loop] at h
    | succ n ih =>
      intro p c hp h
      rw [loop, step] at h
      cases hl : lex c with
      | none => rw [hl] at h; simp at h
      | some x =>
        obtain ⟨t, o⟩ := x
        rw [hl] at h
        simp only at h
        split at h
        · rename_i p2 c2 hh
          split at hh
          · simp at hh
          · cases ho : onTok p t o with
            | none => rw [ho] at hh; simp at hh
            | some p3 =>
              rw [ho] at hh
              simp only at hh
              split at hh
              · simp at hh
              · injection hh with h1 h2
                subst h1
                exact ih _ _ (hstep _ _ _ _ ho hp) h
        · rename_i o2 hh
          simp only [Option.some.injEq] at h
          subst h
          split at hh
          · injection hh with hh
            split at hh
            · rename_i hv
              injection hh with h1 h2
              exact ⟨p, hp, h1, h2, h1 ▸ hv⟩
            · simp at hh
          · split at hh
            · simp at hh
            · split at hh <;> simp at hh
  exact this n _ _ h0 hn

/-! ### Closing -/

theorem Request.close_closed {r r2 : Request} {pr : Prot.Store} (h : r.close pr = some r2) :
    r2.closed = true := by
  unfold Request.close at h
  repeat' split at h
  all_goals first | with_reducible exact absurd h.symm (Option.some_ne_none _) | (injection h with h; rw [← h])

theorem Request.next_closed {r r2 : Request} {pr : Prot.Store} {t : Tok} (hc : r.closed = false)
    (h : r.next pr t = some r2) : r2.closed = false ∨ ∃ r0 : Request, r0.close pr = some r2 := by
  cases t <;> simp only [Request.next, Request.onWord, Request.onSemicolon] at h <;>
    repeat' split at h
  all_goals first
    | with_reducible exact absurd h.symm (Option.some_ne_none _)
    | with_reducible exact .inr ⟨_, h⟩
    | (injection h with h; subst h; exact .inl hc)

theorem Event.next_closed {e e2 : Event} {pr : Prot.Store} {t : Tok} (hc : e.closed = false)
    (h : e.next pr t = some e2) : e2.closed = false ∨ ∃ e0 : Event, e0.close pr = some e2 := by
  cases t <;> simp only [Event.next] at h <;> repeat' split at h
  all_goals first
    | with_reducible exact absurd h.symm (Option.some_ne_none _)
    | with_reducible exact .inr ⟨_, h⟩
    | (injection h with h; subst h; exact .inl hc)

theorem Beacons.next_closed {b b2 : Beacons} {pr : Prot.Store} {t : Tok} (hc : b.closed = false)
    (h : b.next pr t = some b2) : b2.closed = false ∨ ∃ b0 : Beacons, b0.close pr = some b2 := by
  cases t <;> simp only [Beacons.next] at h <;> repeat' split at h
  all_goals first
    | with_reducible exact absurd h.symm (Option.some_ne_none _)
    | with_reducible exact .inr ⟨_, h⟩
    | (injection h with h; subst h; exact .inl hc)

theorem Config.onWord_closed {c c2 : Config} {w : Name} (hc : c.closed = false)
    (h : c.onWord w = some c2) : c2.closed = false := by
  unfold Config.onWord at h
  repeat' split at h
  all_goals first
    | with_reducible exact absurd h.symm (Option.some_ne_none _)
    | (injection h with h; subst h; exact hc)

theorem Config.onSemicolon_closed {c c2 : Config} (hc : c.closed = false)
    (h : c.onSemicolon = some c2) : c2.closed = false := by
  unfold Config.onSemicolon at h
  repeat' split at h
  all_goals first
    | with_reducible exact absurd h.symm (Option.some_ne_none _)
    | (injection h with h; subst h; exact hc)

theorem Config.next_closed {c c2 : Config} {pr pr2 : Prot.Store} {t : Tok} (hc : c.closed = false)
    (h : c.next pr t = some (c2, pr2)) :
    (c2.closed = false ∧ pr2 = pr) ∨ c.close pr = some (c2, pr2) := by
  cases t with
  | cls => exact .inr h
  | word w =>
    simp only [Config.next] at h
    split at h
    · cases hw : c.onWord w with
      | none => rw [hw] at h; simp at h
      | some x =>
        rw [hw] at h
        simp only [Option.map_some, Option.some.injEq, Prod.mk.injEq] at h
        exact .inl ⟨h.1 ▸ Config.onWord_closed hc hw, h.2.symm⟩
    · simp at h
  | semicolon =>
    simp only [Config.next] at h
    split at h
    · cases hw : c.onSemicolon with
      | none => rw [hw] at h; simp at h
      | some x =>
        rw [hw] at h
        simp only [Option.map_some, Option.some.injEq, Prod.mk.injEq] at h
        exact .inl ⟨h.1 ▸ Config.onSemicolon_closed hc hw, h.2.symm⟩
    · simp at h
  | _ =>
    simp only [Config.next] at h
    try split at h
    all_goals first
      | with_reducible exact absurd h.symm (Option.some_ne_none _)
      | (simp only [Option.some.injEq, Prod.mk.injEq] at h
         exact .inl ⟨h.1 ▸ hc, h.2.symm⟩)

theorem Config.close_closed {c c2 : Config} {pr pr2 : Prot.Store}
    (h : c.close pr = some (c2, pr2)) : c2.closed = true := by
  unfold Config.close at h
  split at h
  · exact nomatch h
  · split at h
    · exact nomatch h
    · split at h
      · exact nomatch h
      · split at h
        · exact nomatch h
        · injection h with h
          injection h with h _
          rw [← h]

/-- An opened entity is not closed. -/
def Pending : Option Entity → Prop
  | none => True
  | some (.config c) => c.closed = false
  | some (.request r) => r.closed = false
  | some (.beacons b) => b.closed = false
  | some (.event e) => e.closed = false

theorem pending_open {w : Name} {e : Entity} (h : openEntity w = some e) : Pending (some e) := by
  unfold openEntity at h
  repeat' split at h
  all_goals first
    | with_reducible exact absurd h.symm (Option.some_ne_none _)
    | (injection h with h; subst h; rfl)

/-- The ways a token can change store and protocol. -/
inductive Change (st : Store) (pr : Prot.Store) : Store → Prot.Store → Prop where
  | same : Change st pr st pr
  | request {r r0 : Request} {st2 : Store} : r0.close pr = some r → st.addRequest r = some st2 →
      Change st pr st2 pr
  | event {e e0 : Event} {st2 : Store} : e0.close pr = some e → st.addEvent e = some st2 →
      Change st pr st2 pr
  | beacons {b b0 : Beacons} {st2 : Store} : b0.close pr = some b →
      st.addBeacons b.beacons = some st2 → Change st pr st2 pr
  | config {c c0 : Config} {st2 : Store} {pr2 : Prot.Store} : c0.close pr = some (c, pr2) →
      st.setConfig c = some st2 → Change st pr st2 pr2

theorem feed_change {p p2 : PState} {e : Entity} {t : Tok} (hp : Pending (some e))
    (h : feed p e t = some p2) :
    Pending p2.opened ∧ Change p.store p.protocol p2.store p2.protocol := by
  cases e with
  | config c =>
    simp only [feed] at h
    cases hn : c.next p.protocol t with
    | none => rw [hn] at h; simp at h
    | some x =>
      obtain ⟨c2, pr2⟩ := x
      rw [hn] at h
      simp only [keep] at h
      rcases Config.next_closed hp hn with ⟨h1, h2⟩ | h1
      · simp only [h1, Bool.false_eq_true, if_false, Option.some.injEq] at h
        subst h
        refine ⟨h1, ?_⟩
        rw [h2]
        exact .same
      · have hcl : c2.closed = true := Config.close_closed h1
        simp only [hcl, if_true] at h
        cases hs : p.store.setConfig c2 with
        | none => rw [hs] at h; simp at h
        | some st2 =>
          rw [hs] at h
          simp only [Option.map_some, Option.some.injEq] at h
          subst h
          exact ⟨trivial, .config h1 hs⟩
  | request c =>
    simp only [feed] at h
    cases hn : c.next p.protocol t with
    | none => rw [hn] at h; simp at h
    | some c2 =>
      rw [hn] at h
      simp only [keep] at h
      by_cases hcl : c2.closed = true
      · rcases Request.next_closed hp hn with h1 | ⟨r0, h1⟩
        · rw [h1] at hcl; simp at hcl
        simp only [hcl, if_true] at h
        cases hs : p.store.addRequest c2 with
        | none => rw [hs] at h; simp at h
        | some st2 =>
          rw [hs] at h
          simp only [Option.map_some, Option.some.injEq] at h
          subst h
          exact ⟨trivial, .request h1 hs⟩
      · rw [if_neg hcl] at h
        simp only [Option.some.injEq] at h
        subst h
        exact ⟨Bool.eq_false_iff.2 hcl, .same⟩
  | event c =>
    simp only [feed] at h
    cases hn : c.next p.protocol t with
    | none => rw [hn] at h; simp at h
    | some c2 =>
      rw [hn] at h
      simp only [keep] at h
      by_cases hcl : c2.closed = true
      · rcases Event.next_closed hp hn with h1 | ⟨r0, h1⟩
        · rw [h1] at hcl; simp at hcl
        simp only [hcl, if_true] at h
        cases hs : p.store.addEvent c2 with
        | none => rw [hs] at h; simp at h
        | some st2 =>
          rw [hs] at h
          simp only [Option.map_some, Option.some.injEq] at h
          subst h
          exact ⟨trivial, .event h1 hs⟩
      · rw [if_neg hcl] at h
        simp only [Option.some.injEq] at h
        subst h
        exact ⟨Bool.eq_false_iff.2 hcl, .same⟩
  | beacons c =>
    simp only [feed] at h
    cases hn : c.next p.protocol t with
    | none => rw [hn] at h; simp at h
    | some c2 =>
      rw [hn] at h
      simp only [keep] at h
      by_cases hcl : c2.closed = true
      · rcases Beacons.next_closed hp hn with h1 | ⟨r0, h1⟩
        · rw [h1] at hcl; simp at hcl
        simp only [hcl, if_true] at h
        cases hs : p.store.addBeacons c2.beacons with
        | none => rw [hs] at h; simp at h
        | some st2 =>
          rw [hs] at h
          simp only [Option.map_some, Option.some.injEq] at h
          subst h
          exact ⟨trivial, .beacons h1 hs⟩
      · rw [if_neg hcl] at h
        simp only [Option.some.injEq] at h
        subst h
        exact ⟨Bool.eq_false_iff.2 hcl, .same⟩

theorem onTok_change {p p2 : PState} {t : Tok} {o : Nat} (hp : Pending p.opened)
    (h : onTok p t o = some p2) :
    Pending p2.opened ∧ Change p.store p.protocol p2.store p2.protocol := by
  unfold onTok at h
  cases ho : p.opened with
  | some e =>
    rw [ho] at h hp
    exact feed_change hp h
  | none =>
    rw [ho] at h
    simp only at h
    split at h
    · split at h
      · simp at h
      · rename_i e he
        split at h
        · exact feed_change (pending_open he) h
        · injection h with h
          subst h
          exact ⟨pending_open he, .same⟩
    · simp at h

/-- An invariant of store and protocol that every change keeps holds for accepted files. -/
theorem accepted_change {I : Store → Prot.Store → Prop} {pr : Prot.Store} {text : List Char}
    {s : Store} {pr2 : Prot.Store} (h0 : I Store.new pr)
    (hstep : ∀ st pr st2 pr2, Change st pr st2 pr2 → I st pr → I st2 pr2)
    (h : Parses pr text (.accepted s pr2)) : I s pr2 ∧ s.validate = true := by
  obtain ⟨p, ⟨_, h2⟩, h3, h4, h5⟩ := accepted_inv (I := fun p => Pending p.opened ∧ I p.store p.protocol)
    ⟨trivial, h0⟩ (fun p p2 t o ho hp => by
      obtain ⟨a, b⟩ := onTok_change hp.1 ho
      exact ⟨a, hstep _ _ _ _ b hp.2⟩) h
  exact ⟨h3 ▸ h4 ▸ h2, h5⟩

/-! ### Nothing is declared twice -/

/-- Requests, events and beacons occur once each. -/
structure Once (s : Store) : Prop where
  requests : (s.requests.map Request.request).Nodup ∧ ∀ r ∈ s.requests, r.request.isSome = true
  events : (s.events.map Event.reference).Nodup ∧ ∀ e ∈ s.events, e.reference.isSome = true
  beacons : (s.beacons.map Broadcast.reference).Nodup

theorem once_addRequest {s s2 : Store} {r : Request} (h : Once s) (ha : s.addRequest r = some s2) :
    Once s2 := by
  unfold Store.addRequest at ha
  split at ha
  · simp at ha
  · rename_i q hq
    split at ha
    · simp at ha
    · rename_i hno
      injection ha with ha
      subst ha
      refine ⟨⟨?_, ?_⟩, h.events, h.beacons⟩
      · rw [List.map_append, Syntax.nodup_snoc]
        refine ⟨h.requests.1, by simp, fun x hx hm => hno ?_⟩
        obtain ⟨y, hy, he⟩ := List.mem_map.1 hm
        rw [List.map_singleton, List.mem_singleton] at hx
        rw [List.any_eq_true]
        exact ⟨y, hy, by rw [he, hx, hq]; simp⟩
      · intro x hx
        rcases List.mem_append.1 hx with hx | hx
        · exact h.requests.2 x hx
        · rw [List.mem_singleton.1 hx, hq]; rfl

theorem once_addEvent {s s2 : Store} {r : Event} (h : Once s) (ha : s.addEvent r = some s2) :
    Once s2 := by
  unfold Store.addEvent at ha
  split at ha
  · simp at ha
  · rename_i q hq
    split at ha
    · simp at ha
    · rename_i hno
      injection ha with ha
      subst ha
      refine ⟨h.requests, ⟨?_, ?_⟩, h.beacons⟩
      · rw [List.map_append, Syntax.nodup_snoc]
        refine ⟨h.events.1, by simp, fun x hx hm => hno ?_⟩
        obtain ⟨y, hy, he⟩ := List.mem_map.1 hm
        rw [List.map_singleton, List.mem_singleton] at hx
        rw [List.any_eq_true]
        exact ⟨y, hy, by rw [he, hx, hq]; simp⟩
      · intro x hx
        rcases List.mem_append.1 hx with hx | hx
        · exact h.events.2 x hx
        · rw [List.mem_singleton.1 hx, hq]; rfl

theorem addBeacons_mem : ∀ (bs : List Broadcast) (s s2 : Store), s.addBeacons bs = some s2 →
    s2 = { s with beacons := s.beacons ++ bs }
  | [], s, s2, h => by
    simp only [Store.addBeacons, Option.some.injEq] at h
    simp [← h]
  | b :: bs, s, s2, h => by
    rw [Store.addBeacons] at h
    split at h
    · simp at h
    · have := addBeacons_mem bs _ _ h
      rw [this]
      simp

theorem once_addBeacons : ∀ (bs : List Broadcast) (s s2 : Store), Once s →
    s.addBeacons bs = some s2 → Once s2
  | [], s, s2, h, ha => by
    simp only [Store.addBeacons, Option.some.injEq] at ha
    exact ha ▸ h
  | b :: bs, s, s2, h, ha => by
    rw [Store.addBeacons] at ha
    split at ha
    · simp at ha
    · rename_i hno
      refine once_addBeacons bs { s with beacons := s.beacons ++ [b] } s2 ⟨h.requests, h.events, ?_⟩ ha
      rw [List.map_append, Syntax.nodup_snoc]
      refine ⟨h.beacons, by simp, fun x hx hm => hno ?_⟩
      obtain ⟨y, hy, he⟩ := List.mem_map.1 hm
      rw [List.map_singleton, List.mem_singleton] at hx
      rw [List.any_eq_true]
      exact ⟨y, hy, by simp [he, hx]⟩

theorem once_change {st st2 : Store} {pr pr2 : Prot.Store} (h : Change st pr st2 pr2) (ho : Once st) :
    Once st2 := by
  cases h with
  | same => exact ho
  | request _ h => exact once_addRequest ho h
  | event _ h => exact once_addEvent ho h
  | beacons _ h => exact once_addBeacons _ _ _ ho h
  | config _ h =>
    unfold Store.setConfig at h
    split at h
    · simp at h
    · injection h with h
      subst h
      exact ⟨ho.requests, ho.events, ho.beacons⟩

theorem accepted_once {pr : Prot.Store} {text : List Char} {s : Store} {pr2 : Prot.Store}
    (h : Parses pr text (.accepted s pr2)) : Once s ∧ s.validate = true :=
  accepted_change (I := fun s _ => Once s) ⟨by simp [Store.new], by simp [Store.new], by simp [Store.new]⟩
    (fun _ _ _ _ hc hi => once_change hc hi) h

/-- After the last check no beacon is a request. -/
theorem validate_apart {s : Store} (h : s.validate = true) :
    ∀ b ∈ s.beacons, ∀ r ∈ s.requests, r.request ≠ some b.reference := by
  have hx : ∀ (q : Ref) (l : List Request), requestExists q l = some false →
      ∀ r ∈ l, r.request ≠ some q := by
    intro q l
    induction l with
    | nil => intro _ r hr; simp at hr
    | cons x l ih =>
      intro he r hr
      rw [requestExists] at he
      split at he
      · simp at he
      · rename_i y hy
        split at he
        · simp at he
        · rename_i hne
          rcases List.mem_cons.1 hr with hr | hr
          · rw [hr, hy]
            intro heq
            injection heq with heq
            exact hne (by simp [heq])
          · exact ih he r hr
  intro b hb
  rw [Store.validate, List.all_eq_true] at h
  exact hx b.reference s.requests (by simpa using h b hb)

/-! ### References -/

theorem defined_known {pr : Prot.Store} (hs : Sound pr) (r : Ref) :
    defined pr r = true ↔ Known pr (splitDot r) := Prot.findByPath_iff hs _

theorem splitDot_ne (r : Ref) : splitDot r ≠ [] := by
  cases r with
  | nil => simp [splitDot]
  | cons c cs =>
    rw [splitDot]
    split
    · simp
    · split <;> simp

theorem dotted_splitDot : ∀ (r : Ref), Syntax.dotted (splitDot r) = r
  | [] => rfl
  | c :: cs => by
    have ih := dotted_splitDot cs
    have hne := splitDot_ne cs
    rw [splitDot]
    cases hc : splitDot cs with
    | nil => exact absurd hc hne
    | cons w ws =>
      rw [hc] at ih
      split
      · rename_i he
        rw [he, Syntax.dotted, List.nil_append, ih]
      · cases ws with
        | nil =>
          simp only [Syntax.dotted] at ih ⊢
          rw [ih]
        | cons w2 ws =>
          simp only [Syntax.dotted] at ih ⊢
          rw [List.cons_append, ih]

/-- The references of a request are known. -/
def ReqRefs (r : Request) (pr : Prot.Store) : Prop :=
  (∀ q, r.request = some q → defined pr q = true) ∧ (∀ e, r.error = some e → defined pr e = true) ∧
  (∀ b ∈ r.broadcasts, defined pr b = true) ∧
  (∀ a ∈ r.actions, (∃ x, a.response = some x ∧ defined pr x = true) ∧
    (∀ b ∈ a.broadcast, defined pr b.reference = true) ∧
    (r.actions.length ≠ 1 → a.conclusion ≠ none)) ∧
  (r.actions ≠ [] → r.error ≠ none)

/-- All references of the store are known. -/
structure Refs (s : Store) (pr : Prot.Store) : Prop where
  sound : Sound pr
  requests : ∀ r ∈ s.requests, ReqRefs r pr
  events : ∀ e ∈ s.events, e.broadcasts ≠ [] ∧
    (∀ r, e.reference = some r → isDefaultEvent r = true ∨ defined pr r = true) ∧
    ∀ b ∈ e.broadcasts, defined pr b.reference = true
  beacons : ∀ b ∈ s.beacons, defined pr b.reference = true
  config : ∀ c, s.config = some c → c.producer ≠ [] ∧ c.consumer ≠ [] ∧
    (∃ k, c.selfKey = some k ∧ defined pr k = true) ∧
    (∃ k, c.assignedKey = some k ∧ defined pr k = true) ∧
    ∀ n ∈ ["SelfKeyResponse".toList, "HashRequest".toList, "HashResponse".toList,
      "BeaconConfirmation".toList, "ConnectConfirmationBeacon".toList],
      Known pr (Syntax.servicePath n)

theorem Refs.grow {s : Store} {pr pr2 : Prot.Store} (h : Refs s pr) (hs : Sound pr2)
    (hk : ∀ p, Known pr p → Known pr2 p) : Refs s pr2 := by
  have hd : ∀ r, defined pr r = true → defined pr2 r = true := fun r hr =>
    (defined_known hs r).2 (hk _ ((defined_known h.sound r).1 hr))
  refine ⟨hs, ?_, ?_, fun b hb => hd _ (h.beacons b hb), ?_⟩
  · intro r hr
    obtain ⟨h1, h2, h3, h4, h5⟩ := h.requests r hr
    refine ⟨fun q hq => hd _ (h1 q hq), fun q hq => hd _ (h2 q hq), fun q hq => hd _ (h3 q hq), ?_, h5⟩
    intro a ha
    obtain ⟨⟨x, k1, k2⟩, k3, k4⟩ := h4 a ha
    exact ⟨⟨x, k1, hd _ k2⟩, fun b hb => hd _ (k3 b hb), k4⟩
  · intro e he
    obtain ⟨h1, h2, h3⟩ := h.events e he
    exact ⟨h1, fun r hr => (h2 r hr).imp id (hd _), fun b hb => hd _ (h3 b hb)⟩
  · intro c hc
    obtain ⟨h1, h2, ⟨k, k1, k2⟩, ⟨j, j1, j2⟩, h3⟩ := h.config c hc
    exact ⟨h1, h2, ⟨k, k1, hd _ k2⟩, ⟨j, j1, hd _ j2⟩, fun n hn => hk _ (h3 n hn)⟩

theorem close_refs {r r0 : Request} {pr : Prot.Store} (h : r0.close pr = some r) : ReqRefs r pr := by
  have h20 : r0.close pr = some r → (∀ e, r0.error = some e → defined pr e = true) ∧
      (r0.error = none → r0.actions = []) := by
    intro h
    unfold Request.close at h
    split at h
    · simp at h
    · split at h
      · simp at h
      · cases he : r0.error with
        | none =>
          rw [he] at h
          simp only at h
          split at h
          · simp at h
          · rename_i hx
            exact ⟨by simp, fun _ => by simpa using hx⟩
        | some e =>
          rw [he] at h
          simp only at h
          split at h
          · simp at h
          · rename_i hx
            exact ⟨fun e2 h2 => by injection h2 with h2; subst h2; simpa using hx, by simp⟩
  obtain ⟨h2, h5⟩ := h20 h
  clear h20
  have hq : ∃ q, r0.request = some q ∧ defined pr q = true := by
    unfold Request.close at h
    split at h
    · simp at h
    · rename_i q hq
      split at h
      · simp at h
      · rename_i h1
        exact ⟨q, hq, by simpa using h1⟩
  obtain ⟨q, hq, h1⟩ := hq
  unfold Request.close at h
  rw [hq] at h
  simp only [h1, Bool.not_true, Bool.false_eq_true, if_false] at h
  have key : ∀ err, r0.error = err →
      (if (!r0.broadcasts.all fun b => defined pr b) = true then none
      else if (!r0.actions.all fun a => a.checked (r0.actions.length == 1) pr) = true then none
      else some (⟨some q, err, r0.actions, r0.broadcasts, [], .nothing, true⟩ : Request)) = some r →
      ReqRefs r pr := by
    intro err he h
    split at h
    · simp at h
    · rename_i h3
      split at h
      · simp at h
      · rename_i h4
        injection h with h
        subst h
        simp only [Bool.not_eq_true', Bool.not_eq_false] at h3 h4
        refine ⟨?_, fun e h => h2 e (he.trans h), ?_, ?_, ?_⟩
        · intro q2 hq2
          simp only [Option.some.injEq] at hq2
          exact hq2 ▸ h1
        · simpa using h3
        · intro a ha
          have := List.all_eq_true.1 h4 a ha
          simp only [Action.checked, Bool.and_eq_true, Bool.or_eq_true, beq_iff_eq,
            List.all_eq_true] at this
          obtain ⟨⟨k1, k2⟩, k3⟩ := this
          refine ⟨?_, k3, ?_⟩
          · cases hr : a.response with
            | none => rw [hr] at k2; simp at k2
            | some x => rw [hr] at k2; exact ⟨x, rfl, k2⟩
          · intro hl hn
            rcases k1 with k1 | k1
            · rw [hn] at k1; simp at k1
            · exact hl k1
        · exact fun ha hx => ha (h5 (he.trans hx))
  cases he : r0.error with
  | none =>
    rw [he] at h
    simp only at h
    split at h
    · simp at h
    · exact key _ he h
  | some e =>
    rw [he] at h
    simp only at h
    split at h
    · simp at h
    · exact key _ he h

theorem close_event_refs {e e0 : Event} {pr : Prot.Store} (h : e0.close pr = some e) :
    e.broadcasts ≠ [] ∧
    (∀ r, e.reference = some r → isDefaultEvent r = true ∨ defined pr r = true) ∧
    ∀ b ∈ e.broadcasts, defined pr b.reference = true := by
  unfold Event.close at h
  split at h
  · simp at h
  · rename_i q hq
    split at h
    · simp at h
    · rename_i h1
      split at h
      · simp at h
      · rename_i h2
        split at h
        · rename_i h3
          injection h with h
          subst h
          refine ⟨?_, ?_, ?_⟩
          · simpa using h2
          · intro r hr
            simp only [hq, Option.some.injEq] at hr
            subst hr
            simp only [Bool.and_eq_true, Bool.not_eq_true', not_and, Bool.not_eq_false] at h1
            by_cases hd : isDefaultEvent q = true
            · exact .inl hd
            · exact .inr (h1 (by simpa using hd))
          · simpa using h3
        · simp at h

theorem close_beacon_refs {b b0 : Beacons} {pr : Prot.Store} (h : b0.close pr = some b) :
    ∀ x ∈ b.beacons, defined pr x.reference = true := by
  unfold Beacons.close at h
  split at h
  · simp at h
  · split at h
    · rename_i h3
      injection h with h
      subst h
      simpa using h3
    · simp at h

theorem service_defined {pr : Prot.Store} (hs : Sound pr) (n : Name) (hn : ∀ c ∈ n, c ≠ '.')
    (h : Known pr [Prot.serviceGroup, n]) : defined pr (serviceRef n) = true := by
  rw [defined_known hs]
  have e : serviceRef n = Prot.serviceGroup ++ '.' :: n := by
    unfold serviceRef joinDot
    rw [if_neg (by decide)]
  rw [e, Syntax.splitDot_append _ _ (by decide), Syntax.splitDot_nodot n hn]
  exact h

/-- Changes of the protocol when a config is closed. -/
theorem close_config_refs {c c0 : Config} {pr pr2 : Prot.Store} (hs : Sound pr)
    (h : c0.close pr = some (c, pr2)) :
    Sound pr2 ∧ (∀ p, Known pr p → Known pr2 p) ∧ c.producer ≠ [] ∧ c.consumer ≠ [] ∧
    (∃ k, c.selfKey = some k ∧ defined pr2 k = true) ∧
    (∃ k, c.assignedKey = some k ∧ defined pr2 k = true) ∧
    ∀ n ∈ ["SelfKeyResponse".toList, "HashRequest".toList, "HashResponse".toList,
      "BeaconConfirmation".toList, "ConnectConfirmationBeacon".toList],
      Known pr2 (Syntax.servicePath n) := by
  have add : ∀ {p : Prot.Store} (n : Name) (fs : List Prot.Field), Sound p →
      Sound (p.addService n fs) ∧ (∀ q, Known p q → Known (p.addService n fs) q) ∧
      Known (p.addService n fs) [Prot.serviceGroup, n] := fun n fs hp =>
    ⟨Prot.sound_addService hp n fs, fun q hq => (Prot.known_addService hp n fs q).2 (.inl hq),
      (Prot.known_addService hp n fs _).2 (.inr rfl)⟩
  unfold Config.close at h
  split at h
  · simp at h
  · rename_i c1 p1 h1
    split at h
    · simp at h
    · rename_i c2 p2 h2
      split at h
      · simp at h
      · rename_i hpr
        split at h
        · simp at h
        · rename_i hco
          -- the self key
          have s1 : Sound p1 ∧ (∀ q, Known pr q → Known p1 q) ∧
              (∃ k, c1.selfKey = some k ∧ defined p1 k = true) ∧
              Known p1 [Prot.serviceGroup, "SelfKeyResponse".toList] := by
            unfold Config.closeSelf at h1
            split at h1
            · rename_i k hk
              split at h1
              · rename_i hd
                simp only [Option.some.injEq, Prod.mk.injEq] at h1
                obtain ⟨e1, e2⟩ := h1
                subst e1 e2
                obtain ⟨a, b, d⟩ := add "SelfKeyResponse".toList [strField "uuid".toList false] hs
                exact ⟨a, b, ⟨k, hk, (defined_known a k).2 (b _ ((defined_known hs k).1 hd))⟩, d⟩
              · simp at h1
            · simp only [Option.some.injEq, Prod.mk.injEq] at h1
              obtain ⟨e1, e2⟩ := h1
              subst e1 e2
              obtain ⟨a, b, d⟩ := add "SelfKeyRequest".toList [strField "uuid".toList true] hs
              obtain ⟨a2, b2, d2⟩ := add "SelfKeyResponse".toList [strField "uuid".toList false] a
              exact ⟨a2, fun q hq => b2 q (b q hq),
                ⟨_, rfl, service_defined a2 _ (by decide) (b2 _ d)⟩, d2⟩
          obtain ⟨s1a, s1b, ⟨k, k1, k2⟩, s1d⟩ := s1
          have s2 : Sound p2 ∧ (∀ q, Known p1 q → Known p2 q) ∧
              (∃ k, c2.assignedKey = some k ∧ defined p2 k = true) ∧ c2.selfKey = c1.selfKey := by
            unfold Config.closeAssigned at h2
            split at h2
            · rename_i k hk
              split at h2
              · rename_i hd
                simp only [Option.some.injEq, Prod.mk.injEq] at h2
                obtain ⟨e1, e2⟩ := h2
                subst e1 e2
                exact ⟨s1a, fun _ h => h, ⟨k, hk, hd⟩, rfl⟩
              · simp at h2
            · simp only [Option.some.injEq, Prod.mk.injEq] at h2
              obtain ⟨e1, e2⟩ := h2
              subst e1 e2
              obtain ⟨a, b, d⟩ := add "AssignedKey".toList [] s1a
              exact ⟨a, b, ⟨_, rfl, service_defined a _ (by decide) d⟩, rfl⟩
          obtain ⟨s2a, s2b, ⟨j, j1, j2⟩, s2d⟩ := s2
          injection h with h
          injection h with e1 e2
          obtain ⟨a3, b3, d3⟩ := add "HashRequest".toList
            [strField "protocol".toList false, strField "workflow".toList false] s2a
          obtain ⟨a4, b4, d4⟩ := add "HashResponse".toList [strField "error".toList true] a3
          obtain ⟨a5, b5, d5⟩ := add "BeaconConfirmation".toList [strField "error".toList true] a4
          obtain ⟨a6, b6, d6⟩ := add "ConnectConfirmationBeacon".toList [] a5
          rw [e2] at a6 b6 d6
          have up2 : ∀ q, Known p2 q → Known pr2 q := fun q hq => b6 q (b5 q (b4 q (b3 q hq)))
          subst e1
          refine ⟨a6, fun q hq => up2 q (s2b q (s1b q hq)), by simpa using hpr, by simpa using hco,
            ⟨k, s2d.trans k1, ?_⟩, ⟨j, j1, ?_⟩, ?_⟩
          · exact (defined_known a6 k).2 (up2 _ (s2b _ ((defined_known s1a k).1 k2)))
          · exact (defined_known a6 j).2 (up2 _ ((defined_known s2a j).1 j2))
          · intro n hn
            simp only [List.mem_cons, List.not_mem_nil, or_false] at hn
            rcases hn with rfl | rfl | rfl | rfl | rfl
            · exact up2 _ (s2b _ s1d)
            · exact b6 _ (b5 _ (b4 _ d3))
            · exact b6 _ (b5 _ d4)
            · exact b6 _ d5
            · exact d6

theorem refs_change {st st2 : Store} {pr pr2 : Prot.Store} (h : Change st pr st2 pr2)
    (hr : Refs st pr) : Refs st2 pr2 := by
  cases h with
  | same => exact hr
  | request h1 h2 =>
    have := close_refs h1
    unfold Store.addRequest at h2
    split at h2
    · simp at h2
    · split at h2
      · simp at h2
      · injection h2 with h2
        subst h2
        refine ⟨hr.sound, ?_, hr.events, hr.beacons, hr.config⟩
        intro x hx
        rcases List.mem_append.1 hx with hx | hx
        · exact hr.requests x hx
        · exact List.mem_singleton.1 hx ▸ this
  | event h1 h2 =>
    have := close_event_refs h1
    unfold Store.addEvent at h2
    split at h2
    · simp at h2
    · split at h2
      · simp at h2
      · injection h2 with h2
        subst h2
        refine ⟨hr.sound, hr.requests, ?_, hr.beacons, hr.config⟩
        intro x hx
        rcases List.mem_append.1 hx with hx | hx
        · exact hr.events x hx
        · exact List.mem_singleton.1 hx ▸ this
  | beacons h1 h2 =>
    have := close_beacon_refs h1
    rw [addBeacons_mem _ _ _ h2]
    refine ⟨hr.sound, hr.requests, hr.events, ?_, hr.config⟩
    intro x hx
    rcases List.mem_append.1 hx with hx | hx
    · exact hr.beacons x hx
    · exact this x hx
  | config h1 h2 =>
    obtain ⟨a, b, c⟩ := close_config_refs hr.sound h1
    have hg := hr.grow a b
    unfold Store.setConfig at h2
    split at h2
    · simp at h2
    · injection h2 with h2
      subst h2
      refine ⟨hg.sound, hg.requests, hg.events, hg.beacons, ?_⟩
      intro x hx
      injection hx with hx
      exact hx ▸ c

theorem accepted_refs {pr : Prot.Store} (hs : Sound pr) {text : List Char} {s : Store}
    {pr2 : Prot.Store} (h : Parses pr text (.accepted s pr2)) : Refs s pr2 :=
  (accepted_change (I := Refs)
    ⟨hs, by simp [Store.new], by simp [Store.new], by simp [Store.new], by simp [Store.new]⟩
    (fun _ _ _ _ hc hi => refs_change hc hi) h).1

end Verif.Flow
