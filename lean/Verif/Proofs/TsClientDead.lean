import Verif.Proofs.TsClientMore
set_option autoImplicit false
/-! Destroyed request objects of a TypeScript client. -/
namespace Verif.TsClient

open Verif

variable {cfg : Cfg} {env : Env}

/-- Destroyed objects stay destroyed and do nothing. -/
def Dead (s : State) : Prop :=
  (∀ o, .destroyed o ∈ s.past → ∃ x, s.objs.lookup o = some x ∧ x.state = .destroyed) ∧ Mute s.past

/-- The acts `Dead` does not look at. -/
def Idle : Act → Prop
  | .sent (.call ..) _ _ => False
  | .handled .. => False
  | .destroyed _ => False
  | _ => True

theorem mute_cons {a : Act} {h : List Act} (ha : Idle a) (hm : Mute h) : Mute (a :: h) := by
  cases a with
  | sent w q out => cases w <;> first | exact hm | exact ha.elim
  | handled n name v => exact ha.elim
  | _ => exact hm

theorem Dead.same {s s' : State} (h : Dead s) (e1 : s'.objs = s.objs) (e2 : s'.past = s.past) : Dead s' := by
  unfold Dead
  rw [e1, e2]
  exact h

theorem Dead.push {s : State} {a : Act} (h : Dead s) (ha : Idle a) : Dead (s.push a) := by
  refine ⟨?_, mute_cons ha h.2⟩
  intro o ho
  rcases List.mem_cons.1 ho with ho | ho
  · subst ho; exact ha.elim
  · exact h.1 o ho

theorem Dead.setObj {s : State} (h : Dead s) {o : Nat} {x : Obj} (y : Obj) (hx : s.objs.lookup o = some x)
    (hs : x.state = .destroyed → y.state = .destroyed) : Dead (s.setObj o y) := by
  refine ⟨?_, h.2⟩
  intro k hk
  obtain ⟨z, h1, h2⟩ := h.1 k hk
  rw [setObj_lookup]
  split
  next e =>
    subst e
    rw [hx] at h1
    cases h1
    rw [hx]
    exact ⟨y, rfl, hs h2⟩
  next => exact ⟨z, h1, h2⟩

theorem Dead.not {s : State} (h : Dead s) {o : Nat} {x : Obj} (hx : s.objs.lookup o = some x) (hs : x.state ≠ .destroyed) :
    .destroyed o ∉ s.past := by
  intro k
  obtain ⟨z, h1, h2⟩ := h.1 o k
  rw [hx] at h1
  cases h1
  exact hs h2

theorem dead_reject (w : Waiter) {s : State} (h : Dead s) : Dead (reject w s) := by
  cases w with
  | call n o => exact h.push trivial
  | hash n v => exact h.push trivial
  | assign n b =>
    cases b
    · exact h.push trivial
    · exact (h.push (a := .assignEnded n none) trivial).push trivial

theorem dead_request (w : Waiter) (q : Nat) (out : Out) {s : State} (h : Dead s)
    (hw : ∀ n o, w = .call n o → .destroyed o ∉ s.past) : Dead (request cfg env w q out s) := by
  unfold request
  split
  · split
    · exact h.same rfl rfl
    · split
      · refine ⟨?_, ?_⟩
        · intro o ho
          rcases List.mem_cons.1 ho with ho | ho
          · cases ho
          · exact h.1 o ho
        · cases w with
          | call n o => exact ⟨hw n o rfl, h.2⟩
          | _ => exact h.2
      · exact h.same rfl rfl
  · exact dead_reject w h

theorem dead_assign (b : Bool) {s : State} (h : Dead s) : Dead (assign cfg env b s) :=
  dead_request (cfg := cfg) (env := env) _ _ _ (s := (getSequence (({ s with next := s.next + 1 } : State).push (.assigning s.next b))).2)
    (Dead.same (Dead.push (a := .assigning s.next b) h trivial) rfl rfl) (by intro n o e; cases e)

theorem dead_send (o : Nat) {s : State} (h : Dead s) : Dead (send cfg env o s) := by
  unfold send
  cases e : s.objs.lookup o with
  | none => exact h
  | some x =>
    simp only
    have h1 : Dead (({ s with next := s.next + 1 } : State).push (.called s.next o)) :=
      Dead.same (Dead.push (a := .called s.next o) h trivial) rfl rfl
    cases e2 : x.state with
    | pending => exact h1.push trivial
    | destroyed => exact h1.push trivial
    | ready =>
      have h2 : Dead (getSequence (({ s with next := s.next + 1 } : State).push (.called s.next o))).2 := h1.same rfl rfl
      have hx : (getSequence (({ s with next := s.next + 1 } : State).push (.called s.next o))).2.objs.lookup o = some x := e
      refine dead_request _ _ _ (h2.setObj _ hx (by rw [e2]; intro k; cases k)) ?_
      intro n k hk
      cases hk
      exact h2.not hx (by rw [e2]; intro k; cases k)

theorem dead_userOp {s : State} (h : Dead s) (op : Op) : Dead (userOp cfg env s op) := by
  cases op with
  | create k b =>
    refine ⟨?_, h.2⟩
    intro o ho
    rcases List.mem_cons.1 ho with ho | ho
    · cases ho
    · obtain ⟨x, h1, h2⟩ := h.1 o ho
      refine ⟨x, ?_, h2⟩
      show (s.objs ++ [(s.next, (⟨k, b, .ready, []⟩ : Obj))]).lookup o = some x
      rw [List.lookup_append, h1]
      rfl
  | on o name =>
    simp only [userOp]
    cases e : s.objs.lookup o
    · exact h
    · exact h.setObj _ e id
  | send o => exact dead_send o h
  | destroy o =>
    simp only [userOp]
    cases e : s.objs.lookup o with
    | none => exact h
    | some x =>
      have h1 := h.setObj { x with state := .destroyed, handlers := [] } e (fun _ => rfl)
      refine ⟨?_, h1.2⟩
      intro k hk
      rcases List.mem_cons.1 hk with hk | hk
      · cases hk
        refine ⟨{ x with state := .destroyed, handlers := [] }, ?_, rfl⟩
        show (s.setObj o _).objs.lookup o = _
        rw [setObj_lookup, if_pos rfl, e]
        rfl
      · exact h1.1 k hk
  | assign => exact dead_assign false h

theorem dead_enter {a : Act} {s : State} (h : Dead (s.push a)) : Dead (enter cfg env a s) := by
  unfold enter
  generalize env.during (s.push a) a = ops
  revert h
  generalize s.push a = s
  intro h
  induction ops generalizing s with
  | nil => exact h
  | cons op ops ih => exact ih _ (dead_userOp h op)

theorem dead_settle (n o : Nat) (name : Name) (v : Option Js) (r : Result) {s : State} (h : Dead s)
    (hn : ∀ o, .called n o ∈ s.past → .destroyed o ∉ s.past) : Dead (settle cfg env n o name v r s) := by
  unfold settle
  split
  · split
    · have h1 : Dead (enter cfg env (.handled n name v) s) := by
        refine dead_enter ⟨?_, hn, h.2⟩
        intro o ho
        rcases List.mem_cons.1 ho with ho | ho
        · cases ho
        · exact h.1 o ho
      simp only [callUser]
      cases env.throws (s.push (.handled n name v)) (.handled n name v) <;> exact h1.push trivial
    · exact h.push trivial
  · exact h.push trivial

theorem dead_onAnswer (n o : Nat) (m : Msg) {s : State} (h : Dead s) (hn : ∀ k, .called n k ∈ s.past → k = o) :
    Dead (onAnswer cfg env n o m s) := by
  unfold onAnswer
  cases e : s.objs.lookup o with
  | none => exact h
  | some x =>
    simp only
    cases e2 : x.state with
    | ready => exact h
    | destroyed => exact h.push trivial
    | pending =>
      have h1 : Dead (s.setObj o { x with state := .ready }) := h.setObj _ e (by rw [e2]; intro k; cases k)
      have h2 : ∀ k, .called n k ∈ (s.setObj o { x with state := .ready }).past →
          .destroyed k ∉ (s.setObj o { x with state := .ready }).past := by
        intro k hk
        rw [hn k hk]
        exact h.not e (by rw [e2]; intro k; cases k)
      revert h1 h2
      generalize s.setObj o { x with state := .ready } = s1
      intro h1 h2
      cases x.kind with
      | request r =>
        simp only [conclude]
        split
        · exact dead_settle _ _ _ _ _ h1 h2
        · split
          · exact dead_settle _ _ _ _ _ h1 h2
          · exact h1.push trivial
      | beacon b =>
        simp only [confirm]
        split
        · exact dead_settle _ _ _ _ _ h1 h2
        · split <;> exact dead_settle _ _ _ _ _ h1 h2

theorem setUuid_same (v : Option Js) (s : State) : (setUuid v s).objs = s.objs ∧ (setUuid v s).past = s.past := by
  unfold setUuid
  split
  · exact ⟨rfl, rfl⟩
  · split
    · exact ⟨rfl, rfl⟩
    · split <;> exact ⟨rfl, rfl⟩
  · exact ⟨rfl, rfl⟩

theorem dead_setUuid (v : Option Js) {s : State} (h : Dead s) : Dead (setUuid v s) :=
  h.same (setUuid_same v s).1 (setUuid_same v s).2

theorem dead_work {t : Task} {s : State} (h : Dead s)
    (hn : ∀ n o m k, t = .answered (.call n o) m → .called n k ∈ s.past → k = o) : Dead (work cfg env t s) := by
  unfold work
  split
  next n shake m =>
    unfold onAssigned
    split
    · exact dead_reject _ h
    next b _ =>
      simp only
      have h1 := dead_setUuid (b.prop "uuid".toList) h
      split
      · split
        · exact (h1.push (a := .assignEnded n _) trivial).same rfl rfl
        · exact h1.push trivial
      · exact dead_reject _ h1
  next n u m =>
    unfold onHash
    split
    · exact h.push trivial
    · split
      · exact h.push trivial
      · exact dead_enter (Dead.push (Dead.push h trivial) trivial)
  next n o m => exact dead_onAnswer n o m h (fun k hk => hn n o m k rfl hk)
  · exact dead_reject _ h
  next n u =>
    exact dead_request (cfg := cfg) (env := env) _ _ _ (s := (getSequence s).2) (h.same rfl rfl) (by intro n o e; cases e)

theorem dead_onMessages (l : List (Rust.Income Msg)) {s : State} (h : Dead s) : Dead (onMessages cfg env l s) := by
  induction l generalizing s with
  | nil => exact h
  | cons x l ih =>
    have h2 : Dead (onMessage cfg env x { s with reader := ⟨s.reader.buffer, l⟩ }).2 := by
      have h1 : Dead (({ s with reader := ⟨s.reader.buffer, l⟩ } : State).push (.got x.header.sequence x.msg)) :=
        Dead.same (Dead.push (a := .got x.header.sequence x.msg) h trivial) rfl rfl
      unfold onMessage
      simp only
      split
      · exact Dead.same (Dead.push (a := .delivered _ x.header.sequence x.msg) h1 trivial) rfl rfl
      · unfold offer
        split
        · exact dead_enter (h1.push trivial)
        · exact h1.push trivial
    unfold onMessages
    split
    next s' e => rw [e] at h2; exact h2
    next s' e => rw [e] at h2; exact ih h2

theorem dead_step {i : Input} {s s' : State} (hi : Inv cfg [] s) (h : Dead s) (hr : step cfg env s i = some s') : Dead s' := by
  cases i with
  | connected => cases hr; exact dead_enter ((dead_assign true (h.push (a := .opened) trivial)).push trivial)
  | disconnected => cases hr; exact dead_enter ((dead_setUuid none (h.push (a := .closed) trivial)).push trivial)
  | error => cases hr; exact dead_enter (Dead.push (Dead.push h trivial) trivial)
  | received b =>
    have h1 : Dead (s.push (.chunk b)) := h.push trivial
    simp only [step, received] at hr
    split at hr
    · cases hr
    · cases hr; exact h1.same rfl rfl
    · cases hr; exact h1.same rfl rfl
    · cases hr; exact dead_onMessages _ (h1.same rfl rfl)
  | user op => cases hr; exact dead_userOp h op
  | work i =>
    simp only [step] at hr
    split at hr
    next t e =>
      cases hr
      refine dead_work (h.same rfl rfl) ?_
      rintro n o m k rfl hk
      have hw := hi.waiter (.call n o) (by
        unfold waiters
        refine List.mem_append.2 (.inr (List.mem_filterMap.2 ⟨_, List.mem_of_getElem? e, rfl⟩)))
      exact law_called_unique hi.law hk hw.1
    · cases hr; exact h

theorem dead_run_from (is : List Input) {s : State} (hi : Inv cfg [] s) (h : Dead s) : Dead (run cfg env is s).2 := by
  induction is generalizing s with
  | nil => exact h
  | cons i is ih =>
    cases e : step cfg env s i with
    | none => rw [run_cons_none e]; exact h
    | some s' => rw [run_cons_some e]; exact ih (inv_step hi e) (dead_step hi h e)

theorem dead_run (cfg : Cfg) (env : Env) (is : List Input) : Dead (run cfg env is .new).2 :=
  dead_run_from is (inv_new cfg) ⟨by simp [State.new], trivial⟩

theorem Mute.tail {newer older : List Act} (h : Mute (newer ++ older)) : Mute older := by
  induction newer with
  | nil => exact h
  | cons a newer ih =>
    cases a with
    | sent w q out => cases w <;> first | exact ih h | exact ih h.2
    | handled n name v => exact ih h.2
    | _ => exact ih h

end Verif.TsClient
