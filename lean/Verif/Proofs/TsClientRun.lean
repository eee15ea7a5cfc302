import Verif.Proofs.TsClientObjs
set_option autoImplicit false
/-!
The invariant of a TypeScript client survives every input.
-/
namespace Verif.TsClient

open Verif

/-! ### Values in messages -/

theorem get_iff (v t : Js) (ns : List Name) : get v ns = some t ↔ Reaches v ns t := by
  induction ns generalizing v with
  | nil =>
    constructor
    · intro h; cases h; exact .here
    · intro h; cases h; rfl
  | cons n ns ih =>
    constructor
    · intro h
      rw [get] at h
      cases e : v.prop n with
      | none => rw [e] at h; cases h
      | some w =>
        rw [e] at h
        cases v with
        | obj ps => exact .step e ((ih w).1 h)
        | _ => cases e
    · intro h
      cases h with
      | step h1 h2 =>
        rw [get]
        simp only [TsServer.Js.prop, h1]
        exact (ih _).2 h2

theorem extract_iff (m : Msg) (ref : Ref) (v : Js) : extract m ref = some v ↔ Holds m ref v := by
  unfold extract Holds
  rw [get_iff]
  constructor
  · intro h
    exact ⟨_, _, TsServer.spells_splitDot ref, TsServer.wraps_nest _ _, h⟩
  · rintro ⟨ns, w, h1, h2, h3⟩
    rw [TsServer.spells_unique h1, TsServer.wraps_unique h2] at h3
    exact h3

theorem extract_none {m : Msg} {ref : Ref} (h : extract m ref = none) (v : Js) : ¬ Holds m ref v := by
  intro k
  rw [(extract_iff m ref v).2 k] at h
  cases h

theorem holds_unique {m : Msg} {ref : Ref} {v w : Js} (h1 : Holds m ref v) (h2 : Holds m ref w) : v = w := by
  have := (extract_iff m ref v).2 h1
  rw [(extract_iff m ref w).2 h2] at this
  exact (Option.some.inj this).symm

theorem prop_some {b v : Js} {n : Name} (h : b.prop n = some v) : ∃ ps, b = .obj ps ∧ ps.lookup n = some v := by
  cases b with
  | obj ps => exact ⟨ps, rfl, h⟩
  | _ => cases h

theorem prop_none {b : Js} {n : Name} (h : b.prop n = none) : ∀ ps, b = .obj ps → ps.lookup n = none := by
  rintro ps rfl
  exact h

theorem isA_iff (m : Msg) (ref : Ref) : IsA m ref ↔ Flow.splitDot ref = m.path := by
  constructor
  · intro h; exact (TsServer.spells_unique h).symm
  · intro h
    have := TsServer.spells_splitDot ref
    rw [h] at this
    exact this

/-! ### Histories -/

section
variable {cfg : Cfg} {env : Env} {xs : List Hand} {s : State}

theorem law_called {h : List Act} (hl : Lawful cfg h) {n o : Nat} (k : .called n o ∈ h) :
    ∃ k b, .created o k b ∈ h := by
  obtain ⟨l1, l2, e⟩ := List.append_of_mem k
  rw [e] at hl
  obtain ⟨⟨k, b, hc⟩, _⟩ := hl.at
  exact ⟨k, b, by rw [e]; simp [hc]⟩

theorem law_handled {h : List Act} (hl : Lawful cfg h) {n : Nat} {name : Name} {v : Option Js}
    (k : .handled n name v ∈ h) : ∃ o, .called n o ∈ h := by
  obtain ⟨l1, l2, e⟩ := List.append_of_mem k
  rw [e] at hl
  obtain ⟨_, _, o, _, _, _, _, hc, _⟩ := hl.at
  exact ⟨o, by rw [e]; simp [hc]⟩

theorem law_assignEnded {h : List Act} (hl : Lawful cfg h) {n : Nat} {r : Option Js}
    (k : .assignEnded n r ∈ h) : ∃ b, .assigning n b ∈ h := by
  obtain ⟨l1, l2, e⟩ := List.append_of_mem k
  rw [e] at hl
  obtain ⟨_, b, hc, _⟩ := hl.at
  exact ⟨b, by rw [e]; simp [hc]⟩

theorem hand_live {n : Nat} {ho : Option Nat} (h : Inv cfg ((n, ho) :: xs) s) :
    (∀ r, .ended n r ∉ s.past) ∧ ∀ ok, .shakeEnded n ok ∉ s.past := by
  have := (h.live n (by simp)).2
  exact ⟨fun r k => this (.inl ⟨r, k⟩), fun ok k => this (.inr ⟨ok, k⟩)⟩

/-! ### Requests -/

theorem inv_reject {w : Waiter} (h : Inv cfg (w.hand :: xs) s) (hw : WaiterOK w s.past)
    (hn : ∀ n o, w = .call n o → ∀ q out, .sent w q out ∉ s.past) : Inv cfg xs (reject w s) := by
  cases w with
  | call n o =>
    have hl := hand_live h
    obtain ⟨k, b, hc⟩ := law_called h.law hw.1
    refine h.finish (.inl ⟨_, rfl⟩) ⟨hl.1, o, k, b, hw.1, hc, hn n o rfl⟩ (fun _ _ _ _ _ => rfl)
  | assign n shake =>
    have hl := hand_live h
    have h1 : Inv cfg ((n, none) :: xs) (s.push (.assignEnded n none)) :=
      Inv.note h (.inl ⟨_, rfl⟩) ⟨hw.2.1, shake, hw.1, by simp⟩
    have hl1 := hand_live h1
    cases shake with
    | true =>
      exact h1.finish (.inr ⟨false, rfl⟩) ⟨hl1.2, List.mem_cons_of_mem _ hw.1, by simp⟩ (by simp)
    | false => exact h1.forget (List.mem_cons_of_mem _ hw.1)
  | hash n v =>
    have hl := hand_live h
    exact Inv.finish h (.inr ⟨false, rfl⟩) ⟨hl.2, hw.1, by simp⟩ (by simp [Waiter.obj])

theorem inv_request {w : Waiter} {q : Nat} {out : Out} (h : Inv cfg (w.hand :: xs) s)
    (hq : 1 ≤ q) (hs : q < s.sequence) (hm : ∀ w q' out, .sent w q' out ∈ s.past → q' < q)
    (hn : ∀ q out, .sent w q out ∉ s.past) (hc : Cause w out s.past) (hw : WaiterOK w s.past) :
    Inv cfg xs (request cfg env w q out s) := by
  have hf : Inv cfg xs (s.later (.failed w)) := Inv.later (t := .failed w) h (fun w' e => by cases e; exact hw) hn
  unfold request
  split
  next h1 =>
    split
    · exact hf
    · split
      · exact h.parkSent hq h1.2 hs hm hn hc hw
      · exact hf
  next => exact inv_reject h hw (fun _ _ _ => hn)

theorem inv_assign (h : Inv cfg xs s) (shake : Bool) (ho : shake = true → ∃ h', s.past = .opened :: h') :
    Inv cfg xs (assign cfg env shake s) := by
  have hf := h.fresh s.next (Nat.le_refl _)
  have h1 := (h.start (a := .assigning s.next shake) (.inr ⟨shake, rfl, ho⟩)).number
  refine inv_request (w := .assign s.next shake) h1 h.seq (Nat.lt_succ_self _) ?_ ?_ ⟨List.mem_cons_self, rfl⟩
    ⟨List.mem_cons_self, ?_, ?_⟩
  · intro w q out k
    rcases List.mem_cons.1 k with k | k
    · cases k
    · exact h.sents w q out k
  · intro q out k
    rcases List.mem_cons.1 k with k | k
    · cases k
    · obtain ⟨h', k1, k2⟩ := h.law.cause k
      exact hf.2.2 _ (k2 _ k1.1)
  · intro r k
    rcases List.mem_cons.1 k with k | k
    · cases k
    · obtain ⟨b, k1⟩ := law_assignEnded h.law k
      exact hf.2.2 b k1
  · intro v q out k
    rcases List.mem_cons.1 k with k | k
    · cases k
    · obtain ⟨h', k1, k2⟩ := h.law.cause k
      exact hf.2.2 _ (k2 _ k1.1)

theorem asks_ref (k : Kind) : k.Asks k.ref := by
  cases k <;> rfl

theorem inv_send (h : Inv cfg xs s) (o : Nat) : Inv cfg xs (send cfg env o s) := by
  unfold send
  cases hx : s.objs.lookup o with
  | none => exact h
  | some x =>
    have hf := h.fresh s.next (Nat.le_refl _)
    have hcr := h.objs o x hx
    have h1 := h.start (a := .called s.next o) (.inl ⟨o, _, _, rfl, hcr⟩)
    have hl := hand_live h1
    have hnot : ∀ q out, Act.sent (.call s.next o) q out ∉ Act.called s.next o :: s.past := by
      intro q out k
      rcases List.mem_cons.1 k with k | k
      · cases k
      · obtain ⟨h', k1, k2⟩ := h.law.cause k
        exact hf.2.1 _ (k2 _ k1.1)
    simp only
    cases hst : x.state with
    | pending =>
      refine h1.finish (.inl ⟨_, rfl⟩) ⟨hl.1, o, _, _, List.mem_cons_self, List.mem_cons_of_mem _ hcr, ?_⟩ (by simp)
      obtain ⟨k, k1, k2⟩ := h.used o x hx hst
      refine ⟨⟨k, ?_, List.mem_cons_of_mem _ k1, ?_⟩, hnot⟩
      · rintro rfl
        exact hf.2.1 o k1
      · have hlive : k ∈ xs.map Prod.fst ++ threads s → ∀ r, Act.ended k r ∉ Act.called s.next o :: s.past := by
          intro k3 r k4
          rcases List.mem_cons.1 k4 with k4 | k4
          · cases k4
          · exact (h.live k k3).2 (.inl ⟨r, k4⟩)
        rcases k2 with k2 | k2 | k2
        · exact .inr (List.mem_cons_of_mem _ k2)
        · exact .inl (hlive (List.mem_append_right _ (thread_mem k2)))
        · exact .inl (hlive (List.mem_append_left _ (List.mem_map.2 ⟨_, k2, rfl⟩)))
    | destroyed =>
      refine h1.finish (.inl ⟨_, rfl⟩) ⟨hl.1, o, _, _, List.mem_cons_self, List.mem_cons_of_mem _ hcr, ?_⟩ (by simp)
      exact ⟨List.mem_cons_of_mem _ (h.gone o x hx hst), .inr hnot⟩
    | ready =>
      have h2 := h1.number.hold (x := x) (y := { x with state := .pending }) hx hst List.mem_cons_self rfl rfl rfl
      refine inv_request (w := .call s.next o) h2 h.seq (Nat.lt_succ_self _) ?_ ?_ ?_ ⟨List.mem_cons_self, ?_⟩
      · intro w q out k
        rcases List.mem_cons.1 k with k | k
        · cases k
        · exact h.sents w q out k
      · exact hnot
      · exact ⟨List.mem_cons_self, hl.1, _, _, _, List.mem_cons_of_mem _ hcr, asks_ref _, rfl⟩
      · intro name v k
        rcases List.mem_cons.1 k with k | k
        · cases k
        · obtain ⟨o', k1⟩ := law_handled h.law k
          exact hf.2.1 o' k1

theorem inv_userOp (h : Inv cfg xs s) (op : Op) : Inv cfg xs (userOp cfg env s op) := by
  cases op with
  | create k b => exact h.create k b
  | on o name =>
    simp only [userOp]
    cases hx : s.objs.lookup o with
    | none => exact h
    | some x => exact h.handlers hx rfl rfl rfl
  | send o => exact inv_send h o
  | destroy o =>
    simp only [userOp]
    cases hx : s.objs.lookup o with
    | none => exact h
    | some x => exact h.destroy hx rfl rfl rfl
  | assign => exact inv_assign h false (by simp)

theorem inv_ops (ops : List Op) (h : Inv cfg xs s) : Inv cfg xs (ops.foldl (userOp cfg env) s) := by
  induction ops generalizing s with
  | nil => exact h
  | cons op ops ih => exact ih (inv_userOp h op)

theorem inv_enter {a : Act} (h : Inv cfg xs (s.push a)) : Inv cfg xs (enter cfg env a s) := inv_ops _ h

/-! ### The past only grows -/

theorem grows_reject (w : Waiter) (s : State) : s.past <:+ (reject w s).past := by
  cases w with
  | call n o => exact List.suffix_cons _ _
  | hash n v => exact List.suffix_cons _ _
  | assign n b =>
    cases b
    · exact List.suffix_cons _ _
    · exact (List.suffix_cons _ _).trans (List.suffix_cons _ _)

theorem grows_request (w : Waiter) (q : Nat) (out : Out) (s : State) :
    s.past <:+ (request cfg env w q out s).past := by
  unfold request
  split
  · split
    · exact List.suffix_refl _
    · split
      · exact List.suffix_cons _ _
      · exact List.suffix_refl _
  · exact grows_reject w s

theorem grows_assign (b : Bool) (s : State) : s.past <:+ (assign cfg env b s).past := by
  have h := grows_request (cfg := cfg) (env := env) (.assign s.next b) s.sequence .selfKey
    (getSequence (({ s with next := s.next + 1 } : State).push (.assigning s.next b))).2
  exact List.IsSuffix.trans (List.suffix_cons (Act.assigning s.next b) s.past) h

theorem grows_send (o : Nat) (s : State) : s.past <:+ (send cfg env o s).past := by
  unfold send
  cases s.objs.lookup o with
  | none => exact List.suffix_refl _
  | some x =>
    simp only
    cases x.state with
    | pending => exact (List.suffix_cons _ _).trans (List.suffix_cons _ _)
    | destroyed => exact (List.suffix_cons _ _).trans (List.suffix_cons _ _)
    | ready =>
      have h := grows_request (cfg := cfg) (env := env) (.call s.next o) s.sequence (.msg x.kind.ref x.body)
        ((getSequence (({ s with next := s.next + 1 } : State).push (.called s.next o))).2.setObj o
          { x with state := .pending })
      exact List.IsSuffix.trans (List.suffix_cons (Act.called s.next o) s.past) h

theorem grows_userOp (s : State) (op : Op) : s.past <:+ (userOp cfg env s op).past := by
  cases op with
  | create k b => exact List.suffix_cons _ _
  | on o name =>
    simp only [userOp]
    cases s.objs.lookup o <;> exact List.suffix_refl _
  | send o => exact grows_send o s
  | destroy o =>
    simp only [userOp]
    cases s.objs.lookup o
    · exact List.suffix_refl _
    · exact List.suffix_cons _ _
  | assign => exact grows_assign false s

theorem grows_ops (ops : List Op) (s : State) : s.past <:+ (ops.foldl (userOp cfg env) s).past := by
  induction ops generalizing s with
  | nil => exact List.suffix_refl _
  | cons op ops ih => exact (grows_userOp s op).trans (ih _)

theorem grows_enter (a : Act) (s : State) : a :: s.past <:+ (enter cfg env a s).past :=
  grows_ops (env.during (s.push a) a) (s.push a)

/-! ### Answers -/

theorem inv_setUuid (h : Inv cfg xs s) (v : Option Js) : Inv cfg xs (setUuid v s) := by
  unfold setUuid
  split
  · exact h.same rfl rfl rfl rfl rfl rfl
  · split
    · exact h
    · split
      · exact h
      · exact h.same rfl rfl rfl rfl rfl rfl
  · exact h

theorem setUuid_past (v : Option Js) (s : State) : (setUuid v s).past = s.past := by
  unfold setUuid
  split
  · rfl
  · split
    · rfl
    · split <;> rfl
  · rfl

theorem inv_onAssigned {n : Nat} {shake : Bool} {m : Msg} {q : UInt32} (h : Inv cfg ((n, none) :: xs) s)
    (hw : WaiterOK (.assign n shake) s.past) (hd : .delivered (.assign n shake) q m ∈ s.past) :
    Inv cfg xs (onAssigned n shake m s) := by
  unfold onAssigned
  cases hb : extract m selfKeyResponse with
  | none => exact inv_reject (w := .assign n shake) h hw (by simp)
  | some b =>
    simp only
    have h1 := inv_setUuid h (b.prop "uuid".toList)
    have hp := setUuid_past (b.prop "uuid".toList) s
    generalize hs' : setUuid (b.prop "uuid".toList) s = s' at h1 hp
    have hw' : WaiterOK (.assign n shake) s'.past := by rw [hp]; exact hw
    have hd' : .delivered (.assign n shake) q m ∈ s'.past := by rw [hp]; exact hd
    have hr : Inv cfg xs (reject (.assign n shake) s') := inv_reject (w := .assign n shake) h1 hw' (by simp)
    cases hu : s'.uuid with
    | none => exact hr
    | some u =>
      cases hv : b.prop "uuid".toList with
      | none => exact hr
      | some v =>
        simp only
        obtain ⟨ps, rfl, hps⟩ := prop_some hv
        have hg : GivesKey m v := ⟨ps, (extract_iff _ _ _).1 hb, hps⟩
        have h2 : Inv cfg ((n, none) :: xs) (s'.push (.assignEnded n (some v))) :=
          h1.note (.inl ⟨_, rfl⟩) ⟨hw'.2.1, shake, hw'.1, by
            intro v' e; cases e; exact ⟨q, m, hd', hg⟩⟩
        cases shake with
        | false => exact h2.forget (List.mem_cons_of_mem _ hw'.1)
        | true =>
          refine Inv.later (t := .assigned n v) h2 (by simp [Task.waiter]) ⟨List.mem_cons_of_mem _ hw'.1, ?_, ?_⟩
          · exact ⟨q, m, List.mem_cons_of_mem _ hd', hg⟩
          · intro v' q' out k
            rcases List.mem_cons.1 k with k | k
            · cases k
            · exact hw'.2.2 v' q' out k

theorem inv_onHash {n : Nat} {v : Js} {m : Msg} {q : UInt32} (h : Inv cfg ((n, none) :: xs) s)
    (hw : WaiterOK (.hash n v) s.past) (hd : .delivered (.hash n v) q m ∈ s.past) :
    Inv cfg xs (onHash cfg env n v m s) := by
  have hl := hand_live h
  have hr : Inv cfg xs (s.push (.shakeEnded n false)) :=
    h.finish (.inr ⟨false, rfl⟩) ⟨hl.2, hw.1, by simp⟩ (by simp)
  unfold onHash
  cases hb : extract m hashResponse with
  | none => exact hr
  | some b =>
    simp only
    cases he : b.prop "error".toList with
    | some e => exact hr
    | none =>
      simp only
      have ha : AcceptsHash m := ⟨b, (extract_iff _ _ _).1 hb, prop_none he⟩
      have h1 : Inv cfg xs (s.push (.shakeEnded n true)) :=
        h.finish (.inr ⟨true, rfl⟩) ⟨hl.2, hw.1, fun _ => ⟨v, q, m, hd, ha⟩⟩ (by simp)
      exact inv_enter (h1.push trivial ⟨n, _, q, m, rfl, List.mem_cons_of_mem _ hd, ha⟩)

theorem reason_of_reports {n o : Nat} {k : Kind} {h : List Act} {q : UInt32} {m : Msg} {r : Result}
    (hr : Reports k m r) (hd : .delivered (.call n o) q m ∈ h) : Reason n o k h r := by
  cases hr with
  | action h => exact ⟨q, m, hd, .action h⟩
  | error h1 h2 h3 => exact ⟨q, m, hd, .error h1 h2 h3⟩
  | wrong h1 h2 => exact ⟨q, m, hd, .wrong h1 h2⟩
  | confirmed h => exact ⟨q, m, hd, .confirmed h⟩
  | refused h => exact ⟨q, m, hd, .refused h⟩
  | noConfirmation h => exact ⟨q, m, hd, .noConfirmation h⟩

theorem inv_settle {n o : Nat} {k : Kind} {b : Js} {q : UInt32} {m : Msg} {name : Name} {v : Option Js} {r : Result}
    (h : Inv cfg ((n, none) :: xs) s) (hc : .called n o ∈ s.past) (hk : .created o k b ∈ s.past)
    (hd : .delivered (.call n o) q m ∈ s.past) (hn : ∀ name v, .handled n name v ∉ s.past)
    (hr : Reports k m r) (hh : Handles k m name v) : Inv cfg xs (settle cfg env n o name v r s) := by
  have fin : ∀ (s' : State) (r' : Result), Inv cfg ((n, none) :: xs) s' → s.past <:+ s'.past →
      ((∃ name v, .handled n name v ∈ s'.past) ∧ r' = .threw ∨ r' = r) → Inv cfg xs (s'.endCall n r') := by
    intro s' r' h1 hs hcase
    have sub := hs.subset
    refine h1.finish (.inl ⟨_, rfl⟩) ⟨(hand_live h1).1, o, k, b, sub hc, sub hk, ?_⟩ (by simp)
    rcases hcase with ⟨k1, rfl⟩ | rfl
    · exact k1
    · exact reason_of_reports hr (sub hd)
  have hl := hand_live h
  unfold settle
  cases s.objs.lookup o with
  | none => exact fin s r h (List.suffix_refl _) (.inr rfl)
  | some x =>
    simp only
    split
    next =>
      have h1 : Inv cfg ((n, none) :: xs) (s.push (.handled n name v)) :=
        h.note (.inr ⟨name, v, rfl⟩) ⟨hl.1, hn, o, k, b, q, m, hc, hk, hd, hh⟩
      have h2 := inv_enter (env := env) h1
      have g := grows_enter (cfg := cfg) (env := env) (.handled n name v) s
      have g2 : s.past <:+ (enter cfg env (.handled n name v) s).past := (List.suffix_cons _ _).trans g
      simp only [callUser]
      cases env.throws (s.push (.handled n name v)) (.handled n name v) with
      | true => exact fin _ _ h2 g2 (.inl ⟨⟨name, v, g.subset List.mem_cons_self⟩, rfl⟩)
      | false => exact fin _ _ h2 g2 (.inr rfl)
    next => exact fin s r h (List.suffix_refl _) (.inr rfl)

theorem handlerName_spec (r : Flow.Request) (a : Flow.Action) : HandlerOf r a (handlerName r a) := by
  unfold handlerName HandlerOf
  split
  next h => exact .inr ⟨h, rfl⟩
  next h => exact .inl ⟨Nat.le_of_not_lt h, rfl⟩

theorem pickOne_some {r : Flow.Request} {m : Msg} {a : Flow.Action} {p : Name × Ref × Js}
    (h : a.response.bind (fun ref => (extract m ref).map (fun v => (handlerName r a, ref, v))) = some p) :
    a.response = some p.2.1 ∧ Holds m p.2.1 p.2.2 ∧ p.1 = handlerName r a := by
  cases e : a.response with
  | none => rw [e] at h; cases h
  | some ref =>
    rw [e, Option.bind_some] at h
    cases e2 : extract m ref with
    | none => rw [e2] at h; cases h
    | some v =>
      rw [e2, Option.map_some] at h
      cases h
      exact ⟨rfl, (extract_iff _ _ _).1 e2, rfl⟩

theorem pickOne_none {r : Flow.Request} {m : Msg} {a : Flow.Action}
    (h : a.response.bind (fun ref => (extract m ref).map (fun v => (handlerName r a, ref, v))) = none) :
    ∀ ref v, a.response = some ref → ¬ Holds m ref v := by
  intro ref v e k
  rw [e, Option.bind_some, (extract_iff _ _ _).2 k] at h
  cases h

theorem pick_some {r : Flow.Request} {m : Msg} {name : Name} {ref : Ref} {v : Js}
    (h : pick r m = some (name, ref, v)) : ∃ a, Picks r m a ref v ∧ HandlerOf r a name := by
  unfold pick at h
  obtain ⟨l1, a, l2, h1, h2, h3⟩ := List.findSome?_eq_some_iff.1 h
  obtain ⟨k1, k2, k3⟩ := pickOne_some h2
  have k3 : name = handlerName r a := k3
  refine ⟨a, ⟨l1, l2, h1, k1, k2, fun b hb => pickOne_none (h3 b hb)⟩, ?_⟩
  rw [k3]
  exact handlerName_spec r a

theorem pick_none {r : Flow.Request} {m : Msg} (h : pick r m = none) : NoAction r m := by
  unfold pick at h
  intro b hb
  exact pickOne_none (List.findSome?_eq_none_iff.1 h b hb)

theorem inv_conclude {n o : Nat} {r : Flow.Request} {b : Js} {q : UInt32} {m : Msg}
    (h : Inv cfg ((n, none) :: xs) s) (hc : .called n o ∈ s.past) (hk : .created o (.request r) b ∈ s.past)
    (hd : .delivered (.call n o) q m ∈ s.past) (hn : ∀ name v, .handled n name v ∉ s.past) :
    Inv cfg xs (conclude cfg env n o r m s) := by
  unfold conclude
  cases hp : pick r m with
  | some p =>
    obtain ⟨name, ref, v⟩ := p
    obtain ⟨a, k1, k2⟩ := pick_some hp
    exact inv_settle h hc hk hd hn (.action k1) (.action k1 k2)
  | none =>
    have hna := pick_none hp
    simp only
    cases he : r.error with
    | none =>
      simp only [Option.bind_none]
      exact h.finish (.inl ⟨_, rfl⟩) ⟨(hand_live h).1, o, _, b, hc, hk,
        reason_of_reports (.wrong hna (by simp [he])) hd⟩ (by simp)
    | some ref =>
      simp only [Option.bind_some]
      cases hx : extract m ref with
      | none =>
        simp only [Option.map_none]
        refine h.finish (.inl ⟨_, rfl⟩) ⟨(hand_live h).1, o, _, b, hc, hk,
          reason_of_reports (.wrong hna ?_) hd⟩ (by simp)
        intro ref' v e
        rw [he] at e
        cases e
        exact extract_none hx v
      | some v =>
        simp only [Option.map_some]
        have hv := (extract_iff _ _ _).1 hx
        exact inv_settle h hc hk hd hn (.error hna he hv) (.error hna he hv)

theorem inv_confirm {n o : Nat} {ref : Ref} {b : Js} {q : UInt32} {m : Msg}
    (h : Inv cfg ((n, none) :: xs) s) (hc : .called n o ∈ s.past) (hk : .created o (.beacon ref) b ∈ s.past)
    (hd : .delivered (.call n o) q m ∈ s.past) (hn : ∀ name v, .handled n name v ∉ s.past) :
    Inv cfg xs (confirm cfg env n o m s) := by
  unfold confirm
  cases hx : extract m beaconConfirmation with
  | none =>
    have : ∀ e, ¬ Confirms m e := fun e ⟨v, k, _⟩ => extract_none hx v k
    exact inv_settle h hc hk hd hn (.noConfirmation this) (.notConfirmed (this false))
  | some v =>
    have hv := (extract_iff _ _ _).1 hx
    have yes : (∃ e, v.prop "error".toList = some (.str e)) → Confirms m true ∧ ¬ Confirms m false := by
      rintro ⟨e, he⟩
      obtain ⟨ps, rfl, hps⟩ := prop_some he
      refine ⟨⟨_, hv, ?_⟩, ?_⟩
      · simp only [true_iff]
        exact ⟨ps, e, rfl, hps⟩
      · rintro ⟨w, k1, k2⟩
        have := holds_unique hv k1
        subst this
        have := k2.2 ⟨ps, e, rfl, hps⟩
        cases this
    have no : (¬ ∃ e, v.prop "error".toList = some (.str e)) → Confirms m false := by
      intro hne
      refine ⟨v, hv, ?_⟩
      constructor
      · intro k; cases k
      · rintro ⟨ps, e, rfl, hps⟩
        exact absurd ⟨e, hps⟩ hne
    simp only
    split
    next e he =>
      have := yes ⟨e, he⟩
      exact inv_settle h hc hk hd hn (.refused this.1) (.notConfirmed this.2)
    next hne =>
      have := no (fun ⟨e, he⟩ => hne e he)
      exact inv_settle h hc hk hd hn (.confirmed this) (.confirmed this)

theorem inv_onAnswer {n o : Nat} {q : UInt32} {m : Msg} (h : Inv cfg ((n, some o) :: xs) s)
    (hw : WaiterOK (.call n o) s.past) (hd : .delivered (.call n o) q m ∈ s.past) :
    Inv cfg xs (onAnswer cfg env n o m s) := by
  obtain ⟨x, hx, hne⟩ := h.busy o (by simp)
  have hcr := h.objs o x hx
  unfold onAnswer
  rw [hx]
  simp only
  cases hs : x.state with
  | ready => exact absurd hs hne
  | destroyed =>
    refine h.finish (.inl ⟨_, rfl⟩) ⟨(hand_live h).1, o, _, _, hw.1, hcr, h.gone o x hx hs, .inl ⟨q, m, hd⟩⟩ ?_
    intro o' x' e1 e2 e3
    cases e1
    rw [hx] at e2
    cases e2
    rw [hs] at e3
    cases e3
  | pending =>
    have h1 := h.release (y := { x with state := .ready }) hx rfl rfl rfl
    simp only
    obtain ⟨k, b, st, hs'⟩ := x
    cases k with
    | request r => exact inv_conclude h1 hw.1 hcr hd hw.2
    | beacon ref => exact inv_confirm h1 hw.1 hcr hd hw.2

theorem inv_work {i : Nat} {t : Task} (h : Inv cfg xs s) (hi : s.tasks[i]? = some t) :
    Inv cfg xs (work cfg env t { s with tasks := s.tasks.eraseIdx i }) := by
  obtain ⟨h1, h2, h3⟩ := h.take hi
  cases t with
  | answered w m =>
    obtain ⟨q, hd⟩ := h2
    have hw := h3 w rfl
    cases w with
    | assign n b => exact inv_onAssigned h1 hw hd
    | hash n v => exact inv_onHash h1 hw hd
    | call n o => exact inv_onAnswer h1 hw hd
  | failed w => exact inv_reject h1 (h3 w rfl) (fun _ _ _ => h2)
  | assigned n v =>
    refine inv_request (w := .hash n v) h1.number h1.seq (Nat.lt_succ_self _) h1.sents (h2.2.2 v) ⟨h2.1, h2.2.1, rfl⟩
      ⟨h2.1, h2.2.1⟩

/-! ### Data -/

theorem lookup_none {β : Type} {l : List (Nat × β)} {k : Nat} (h : l.lookup k = none) : ∀ v, (k, v) ∉ l := by
  induction l with
  | nil => simp
  | cons p l ih =>
    obtain ⟨a, b⟩ := p
    rw [List.lookup_cons] at h
    intro v hv
    cases e : k == a with
    | true => rw [e] at h; cases h
    | false =>
      rw [e] at h
      rcases List.mem_cons.1 hv with k1 | k1
      · cases k1
        simp at e
      · exact ih h v k1

theorem mem_broadcasts (cfg : Cfg) (ref : Ref) : ref ∈ cfg.broadcasts ↔ Broadcasts cfg.workflow ref := by
  simp only [Cfg.broadcasts, List.mem_map, List.mem_append, List.mem_flatMap, Broadcasts]
  constructor
  · rintro ⟨b, ⟨r, h1, a, h2, h3⟩ | ⟨e, h1, h2⟩, rfl⟩
    · exact .inl ⟨r, h1, a, h2, b, h3, rfl⟩
    · exact .inr ⟨e, h1, b, h2, rfl⟩
  · rintro (⟨r, h1, a, h2, b, h3, rfl⟩ | ⟨e, h1, b, h2, rfl⟩)
    · exact ⟨b, .inl ⟨r, h1, a, h2, h3⟩, rfl⟩
    · exact ⟨b, .inr ⟨e, h1, h2⟩, rfl⟩

theorem inv_onMessage {x : Rust.Income Msg} (h : Inv cfg xs s) : Inv cfg xs (onMessage cfg env x s).2 := by
  have h1 : Inv cfg xs (s.push (.got x.header.sequence x.msg)) := h.push trivial trivial
  unfold onMessage
  simp only
  cases hl : (s.push (.got x.header.sequence x.msg)).pending.lookup x.header.sequence.toNat with
  | some w => exact h1.deliver hl rfl
  | none =>
    have hu : Unmatched x.header.sequence s.past := by
      intro w out k
      rcases h.waits w _ out k with ⟨q', m, k1, k2⟩ | k1
      · have : q' = x.header.sequence := UInt32.toNat_inj.1 k1
        subst this
        exact ⟨m, k2⟩
      · exact absurd k1 (lookup_none hl w)
    simp only [offer]
    cases hf : cfg.broadcasts.find? (fun ref => decide (Flow.splitDot ref = x.msg.path)) with
    | some ref =>
      have h2 := List.find?_some hf
      have h3 := List.mem_of_find?_eq_some hf
      have h2 : Flow.splitDot ref = x.msg.path := by simpa using h2
      exact inv_enter (h1.push trivial ⟨_, x.msg, _, rfl, (isA_iff _ _).2 h2, rfl, (mem_broadcasts cfg ref).1 h3, hu⟩)
    | none =>
      refine h1.push trivial ⟨_, rfl, ?_, hu⟩
      intro ref hr k
      have := List.find?_eq_none.1 hf ref ((mem_broadcasts cfg ref).2 hr)
      exact this (by simpa using (isA_iff _ _).1 k)

theorem inv_onMessages (l : List (Rust.Income Msg)) (h : Inv cfg xs s) : Inv cfg xs (onMessages cfg env l s) := by
  induction l generalizing s with
  | nil => exact h
  | cons x l ih =>
    have h1 : Inv cfg xs ({ s with reader := ⟨s.reader.buffer, l⟩ } : State) := h.same rfl rfl rfl rfl rfl rfl
    have h2 := inv_onMessage (env := env) (x := x) h1
    unfold onMessages
    split
    next s' e => rw [e] at h2; exact h2
    next s' e => rw [e] at h2; exact ih h2

theorem inv_received {bytes : Bytes} {s' : State} (h : Inv cfg xs s) (hr : received cfg env bytes s = some s') :
    Inv cfg xs s' := by
  have h1 : Inv cfg xs (s.push (.chunk bytes)) := h.push trivial trivial
  unfold received at hr
  simp only at hr
  split at hr
  · cases hr
  · cases hr; exact h1.same rfl rfl rfl rfl rfl rfl
  · cases hr; exact h1.same rfl rfl rfl rfl rfl rfl
  · cases hr; exact inv_onMessages _ (h1.same rfl rfl rfl rfl rfl rfl)

theorem inv_step {i : Input} {s' : State} (h : Inv cfg xs s) (hr : step cfg env s i = some s') : Inv cfg xs s' := by
  cases i with
  | connected =>
    cases hr
    exact inv_enter ((inv_assign (h.push (a := .opened) trivial trivial) true (fun _ => ⟨_, rfl⟩)).push trivial trivial)
  | disconnected =>
    cases hr
    exact inv_enter ((inv_setUuid (h.push (a := .closed) trivial trivial) none).push trivial trivial)
  | error =>
    cases hr
    exact inv_enter ((h.push (a := .trouble) trivial trivial).push trivial trivial)
  | received bytes => exact inv_received h hr
  | user op => cases hr; exact inv_userOp h op
  | work i =>
    simp only [step] at hr
    split at hr
    next t ht => cases hr; exact inv_work h ht
    next => cases hr; exact h

theorem inv_run_from (is : List Input) (h : Inv cfg xs s) : Inv cfg xs (run cfg env is s).2 := by
  induction is generalizing s with
  | nil => exact h
  | cons i is ih =>
    unfold run
    split
    next s' e => exact ih (inv_step h e)
    next => exact h

end

theorem inv_run (cfg : Cfg) (env : Env) (is : List Input) : Inv cfg [] (run cfg env is .new).2 :=
  inv_run_from is (inv_new cfg)

theorem lawful_run (cfg : Cfg) (env : Env) (is : List Input) : Lawful cfg (run cfg env is .new).2.past :=
  (inv_run cfg env is).law

end Verif.TsClient
