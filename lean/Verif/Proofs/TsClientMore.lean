import Verif.Proofs.TsClientRead
set_option autoImplicit false
set_option linter.unusedSimpArgs false
/-!
More about a TypeScript client: how often events are raised, whose id it keeps, and that jobs end calls.
-/
namespace Verif.TsClient

open Verif

section
variable {cfg : Cfg} {env : Env}

/-! ### Events -/

theorem times_append (p : Act → Bool) (l h : List Act) : times p (l ++ h) = times p l + times p h := by
  simp [times]

theorem times_none {K : Act → Prop} {p : Act → Bool} (hp : ∀ a, K a → p a = false) {l : List Act}
    (hl : ∀ a ∈ l, K a) : times p l = 0 := by
  unfold times
  rw [List.countP_eq_zero]
  intro a ha
  rw [hp a (hl a ha)]
  simp

/-- The three pairs of counters. -/
def Even (h : List Act) : Prop :=
  times Act.isConnected h = times Act.isOpened h ∧ times Act.isDisconnected h = times Act.isClosed h ∧
    times Act.isError h = times Act.isTrouble h

/-- Acts that do not count. -/
def Calm (a : Act) : Prop :=
  a.isConnected = false ∧ a.isOpened = false ∧ a.isDisconnected = false ∧ a.isClosed = false ∧
    a.isError = false ∧ a.isTrouble = false

theorem Calm.ofUser {a : Act} (h : User a) : Calm a := by
  cases a <;> first | exact h.elim | exact ⟨rfl, rfl, rfl, rfl, rfl, rfl⟩

theorem Calm.ofJob {a : Act} (h : Job a) : Calm a := by
  cases a with
  | emitted e => cases e <;> first | exact h.elim | exact ⟨rfl, rfl, rfl, rfl, rfl, rfl⟩
  | _ => first | exact h.elim | exact ⟨rfl, rfl, rfl, rfl, rfl, rfl⟩

theorem Calm.ofMsgs {a : Act} (h : Msgs a) : Calm a := by
  cases a with
  | emitted e => cases e <;> first | exact h.elim | exact ⟨rfl, rfl, rfl, rfl, rfl, rfl⟩
  | _ => first | exact h.elim | exact ⟨rfl, rfl, rfl, rfl, rfl, rfl⟩

theorem Even.calm {l h : List Act} (he : Even h) (hl : ∀ a ∈ l, Calm a) : Even (l ++ h) := by
  unfold Even
  simp only [times_append]
  rw [times_none (fun a h => h.1) hl, times_none (fun a h => h.2.1) hl, times_none (fun a h => h.2.2.1) hl,
    times_none (fun a h => h.2.2.2.1) hl, times_none (fun a h => h.2.2.2.2.1) hl, times_none (fun a h => h.2.2.2.2.2) hl]
  simpa [Even] using he

theorem even_onMessages (l : List (Rust.Income Msg)) {s : State} (h : Even s.past) :
    Even (onMessages cfg env l s).past := by
  induction l generalizing s with
  | nil => exact h
  | cons x l ih =>
    have h1 : Even (onMessage cfg env x { s with reader := ⟨s.reader.buffer, l⟩ }).2.past := by
      obtain ⟨_, k, a, e, _, h2, h3⟩ := onMessage_acts (cfg := cfg) (env := env) x { s with reader := ⟨s.reader.buffer, l⟩ }
      rw [e, show k ++ a :: Act.got x.header.sequence x.msg :: s.past =
        (k ++ [a, Act.got x.header.sequence x.msg]) ++ s.past by simp]
      refine h.calm ?_
      intro b hb
      rcases List.mem_append.1 hb with hb | hb
      · exact Calm.ofUser (h3 b hb)
      · simp only [List.mem_cons, List.not_mem_nil, or_false] at hb
        rcases hb with rfl | rfl
        · exact Calm.ofMsgs h2
        · exact ⟨rfl, rfl, rfl, rfl, rfl, rfl⟩
    unfold onMessages
    split
    next s' e => rw [e] at h1; exact h1
    next s' e => rw [e] at h1; exact ih h1

/-- Acts of the handshake's start. -/
theorem calm_assign (b : Bool) (s : State) : Adds Calm s (assign cfg env b s) := by
  have h := adds_request (cfg := cfg) (env := env) (.assign s.next b) s.sequence .selfKey
    (getSequence (({ s with next := s.next + 1 } : State).push (.assigning s.next b))).2
  refine Adds.trans (s1 := (getSequence (({ s with next := s.next + 1 } : State).push (.assigning s.next b))).2) ?_
    (h.mono (fun _ => Calm.ofUser))
  exact ⟨rfl, [.assigning s.next b], rfl, by simp [Calm, Act.isConnected, Act.isOpened, Act.isDisconnected, Act.isClosed,
    Act.isError, Act.isTrouble]⟩

theorem even_step {s s' : State} {i : Input} (h : Even s.past) (hr : step cfg env s i = some s') :
    Even s'.past := by
  obtain ⟨h1, h2, h3⟩ := h
  cases i with
  | connected =>
    cases hr
    obtain ⟨_, l, e, hl⟩ := calm_assign (cfg := cfg) (env := env) true (s.push .opened)
    obtain ⟨_, k, e2, hk⟩ := adds_enter (cfg := cfg) (env := env) (.emitted .connected) (assign cfg env true (s.push .opened))
    rw [e2]
    refine Even.calm ?_ (fun a ha => Calm.ofUser (hk a ha))
    show Even (.emitted .connected :: (assign cfg env true (s.push .opened)).past)
    rw [e]
    have : Even (l ++ (Act.emitted .connected :: .opened :: s.past)) := by
      refine Even.calm ?_ hl
      refine ⟨?_, ?_, ?_⟩
      · simp [times, List.countP_cons, Act.isConnected, Act.isOpened]; exact h1
      · simp [times, List.countP_cons, Act.isDisconnected, Act.isClosed]; exact h2
      · simp [times, List.countP_cons, Act.isError, Act.isTrouble]; exact h3
    obtain ⟨g1, g2, g3⟩ := this
    simp only [times_append] at g1 g2 g3
    refine ⟨?_, ?_, ?_⟩
    · show times _ (Act.emitted .connected :: (l ++ Act.opened :: s.past)) = times _ (Act.emitted .connected :: (l ++ Act.opened :: s.past))
      rw [show Act.emitted .connected :: (l ++ Act.opened :: s.past) = [Act.emitted .connected] ++ (l ++ ([Act.opened] ++ s.past)) by simp]
      rw [show Act.emitted .connected :: Act.opened :: s.past = [Act.emitted .connected] ++ ([Act.opened] ++ s.past) by simp] at g1
      simp only [times_append] at g1 ⊢
      omega
    · show times _ (Act.emitted .connected :: (l ++ Act.opened :: s.past)) = times _ (Act.emitted .connected :: (l ++ Act.opened :: s.past))
      rw [show Act.emitted .connected :: (l ++ Act.opened :: s.past) = [Act.emitted .connected] ++ (l ++ ([Act.opened] ++ s.past)) by simp]
      rw [show Act.emitted .connected :: Act.opened :: s.past = [Act.emitted .connected] ++ ([Act.opened] ++ s.past) by simp] at g2
      simp only [times_append] at g2 ⊢
      omega
    · show times _ (Act.emitted .connected :: (l ++ Act.opened :: s.past)) = times _ (Act.emitted .connected :: (l ++ Act.opened :: s.past))
      rw [show Act.emitted .connected :: (l ++ Act.opened :: s.past) = [Act.emitted .connected] ++ (l ++ ([Act.opened] ++ s.past)) by simp]
      rw [show Act.emitted .connected :: Act.opened :: s.past = [Act.emitted .connected] ++ ([Act.opened] ++ s.past) by simp] at g3
      simp only [times_append] at g3 ⊢
      omega
  | disconnected =>
    cases hr
    obtain ⟨_, k, e2, hk⟩ := adds_enter (cfg := cfg) (env := env) (.emitted .disconnected) (setUuid none (s.push .closed))
    rw [e2]
    refine Even.calm ?_ (fun a ha => Calm.ofUser (hk a ha))
    show Even (.emitted .disconnected :: .closed :: s.past)
    refine ⟨?_, ?_, ?_⟩
    · simp [times, List.countP_cons, Act.isConnected, Act.isOpened]; exact h1
    · simp [times, List.countP_cons, Act.isDisconnected, Act.isClosed]; exact h2
    · simp [times, List.countP_cons, Act.isError, Act.isTrouble]; exact h3
  | error =>
    cases hr
    obtain ⟨_, k, e2, hk⟩ := adds_enter (cfg := cfg) (env := env) (.emitted .error) (s.push .trouble)
    rw [e2]
    refine Even.calm ?_ (fun a ha => Calm.ofUser (hk a ha))
    show Even (.emitted .error :: .trouble :: s.past)
    refine ⟨?_, ?_, ?_⟩
    · simp [times, List.countP_cons, Act.isConnected, Act.isOpened]; exact h1
    · simp [times, List.countP_cons, Act.isDisconnected, Act.isClosed]; exact h2
    · simp [times, List.countP_cons, Act.isError, Act.isTrouble]; exact h3
  | received b =>
    have h0 : Even (Act.chunk b :: s.past) := Even.calm (l := [.chunk b]) ⟨h1, h2, h3⟩ (by
      simp [Calm, Act.isConnected, Act.isOpened, Act.isDisconnected, Act.isClosed, Act.isError, Act.isTrouble])
    simp only [step, received] at hr
    split at hr
    · cases hr
    · cases hr; exact h0
    · cases hr; exact h0
    · cases hr; exact even_onMessages _ h0
  | user op =>
    cases hr
    obtain ⟨_, l, e, hl⟩ := adds_userOp (cfg := cfg) (env := env) s op
    rw [e]
    exact Even.calm ⟨h1, h2, h3⟩ (fun a ha => Calm.ofUser (hl a ha))
  | work i =>
    simp only [step] at hr
    split at hr
    next t _ =>
      cases hr
      obtain ⟨_, l, e, hl⟩ := adds_work (cfg := cfg) (env := env) t { s with tasks := s.tasks.eraseIdx i }
      rw [e]
      exact Even.calm ⟨h1, h2, h3⟩ (fun a ha => Calm.ofJob (hl a ha))
    · cases hr; exact ⟨h1, h2, h3⟩

theorem even_run_from (is : List Input) {s : State} (h : Even s.past) : Even (run cfg env is s).2.past := by
  induction is generalizing s with
  | nil => exact h
  | cons i is ih =>
    unfold run
    split
    next s' e => exact ih (even_step h e)
    next => exact h

/-! ### Ready -/

/-- The handshake started with this act. -/
def Act.isStart : Act → Bool
  | .assigning _ true => true
  | _ => false

/-- The handshake was done with this act. -/
def Act.isDone : Act → Bool
  | .shakeEnded _ true => true
  | _ => false

theorem starts_le {h : List Act} (hl : Lawful cfg h) :
    times Act.isStart h + (match h with | .opened :: _ => 1 | _ => 0) ≤ times Act.isOpened h := by
  induction h with
  | nil => simp [times]
  | cons a h ih =>
    have ih := ih hl.2
    unfold times at ih ⊢
    rw [List.countP_cons, List.countP_cons]
    have hle : List.countP Act.isStart h ≤ List.countP Act.isOpened h := Nat.le_trans (Nat.le_add_right _ _) ih
    cases a with
    | opened => simp [Act.isStart, Act.isOpened]; exact hle
    | assigning n b =>
      cases b with
      | true =>
        obtain ⟨h', e⟩ := hl.1.2.2 rfl
        subst e
        simpa [Act.isStart, Act.isOpened] using ih
      | false => simpa [Act.isStart, Act.isOpened] using hle
    | _ => simpa [Act.isStart, Act.isOpened] using hle

theorem readies_le {h : List Act} (hl : Lawful cfg h) :
    times Act.isReady h + (match h with | .shakeEnded _ true :: _ => 1 | _ => 0) ≤ times Act.isDone h := by
  induction h with
  | nil => simp [times]
  | cons a h ih =>
    have ih := ih hl.2
    unfold times at ih ⊢
    rw [List.countP_cons, List.countP_cons]
    have hle : List.countP Act.isReady h ≤ List.countP Act.isDone h := Nat.le_trans (Nat.le_add_right _ _) ih
    cases a with
    | shakeEnded n b => cases b <;> simpa [Act.isReady, Act.isDone] using hle
    | emitted e =>
      cases e with
      | ready v =>
        obtain ⟨n, h', q, m, e, _⟩ := hl.1
        subst e
        simpa [Act.isReady, Act.isDone] using ih
      | _ => simpa [Act.isReady, Act.isDone] using hle
    | _ => simpa [Act.isReady, Act.isDone] using hle

theorem nodup_subset_length {α : Type} [BEq α] [LawfulBEq α] : ∀ {l m : List α}, l.Nodup → (∀ x ∈ l, x ∈ m) → l.length ≤ m.length
  | [], _, _, _ => Nat.zero_le _
  | a :: l, m, hn, hs => by
    rw [List.nodup_cons] at hn
    have ha := hs a (by simp)
    have := nodup_subset_length (l := l) (m := m.erase a) hn.2 (by
      intro x hx
      rw [List.mem_erase_of_ne]
      · exact hs x (by simp [hx])
      · rintro rfl; exact hn.1 hx)
    rw [List.length_erase_of_mem ha] at this
    have hp : 0 < m.length := List.length_pos_of_mem ha
    simp only [List.length_cons]
    omega

def Act.start : Act → Option Nat
  | .assigning n true => some n
  | _ => none

def Act.done : Act → Option Nat
  | .shakeEnded n true => some n
  | _ => none

theorem starts_length (h : List Act) : (h.filterMap Act.start).length = times Act.isStart h := by
  induction h with
  | nil => rfl
  | cons a h ih =>
    unfold times at ih ⊢
    rw [List.countP_cons, List.filterMap_cons, ← ih]
    cases a with
    | assigning n b => cases b <;> simp [Act.start, Act.isStart]
    | _ => simp [Act.start, Act.isStart]

theorem dones_length (h : List Act) : (h.filterMap Act.done).length = times Act.isDone h := by
  induction h with
  | nil => rfl
  | cons a h ih =>
    unfold times at ih ⊢
    rw [List.countP_cons, List.filterMap_cons, ← ih]
    cases a with
    | shakeEnded n b => cases b <;> simp [Act.done, Act.isDone]
    | _ => simp [Act.done, Act.isDone]

theorem mem_done {h : List Act} {n : Nat} : n ∈ h.filterMap Act.done ↔ .shakeEnded n true ∈ h := by
  rw [List.mem_filterMap]
  constructor
  · rintro ⟨a, ha, k⟩
    cases a with
    | shakeEnded m b => cases b <;> simp [Act.done] at k; subst k; exact ha
    | _ => cases k
  · intro k; exact ⟨_, k, rfl⟩

theorem mem_start {h : List Act} {n : Nat} : n ∈ h.filterMap Act.start ↔ .assigning n true ∈ h := by
  rw [List.mem_filterMap]
  constructor
  · rintro ⟨a, ha, k⟩
    cases a with
    | assigning m b => cases b <;> simp [Act.start] at k; subst k; exact ha
    | _ => cases k
  · intro k; exact ⟨_, k, rfl⟩

theorem dones_nodup {h : List Act} (hl : Lawful cfg h) : (h.filterMap Act.done).Nodup := by
  induction h with
  | nil => simp
  | cons a h ih =>
    have ih := ih hl.2
    rw [List.filterMap_cons]
    cases a with
    | shakeEnded n b =>
      cases b with
      | false => exact ih
      | true =>
        simp only [Act.done, List.nodup_cons]
        exact ⟨fun k => hl.1.1 true (mem_done.1 k), ih⟩
    | _ => exact ih

theorem dones_le {h : List Act} (hl : Lawful cfg h) : times Act.isDone h ≤ times Act.isStart h := by
  rw [← starts_length, ← dones_length]
  refine nodup_subset_length (dones_nodup hl) ?_
  intro n hn
  obtain ⟨l1, l2, e⟩ := List.append_of_mem (mem_done.1 hn)
  rw [mem_start, e]
  rw [e] at hl
  exact List.mem_append_right _ (List.mem_cons_of_mem _ hl.at.2.1)

theorem ready_le_opened {h : List Act} (hl : Lawful cfg h) : times Act.isReady h ≤ times Act.isOpened h := by
  have h1 := starts_le hl
  have h2 := readies_le hl
  have h3 := dones_le hl
  omega

/-! ### The id -/

/-- Every object that was made is there. -/
def Whole (s : State) : Prop := ∀ o k b, .created o k b ∈ s.past → (s.objs.lookup o).isSome = true

/-- Id and answers to look at are not changed, no connection is lost, no object either. -/
def Keeps (s s' : State) : Prop :=
  s'.uuid = s.uuid ∧ (∀ w m, .answered w m ∈ s'.tasks → .answered w m ∈ s.tasks) ∧
    (∃ l, s'.past = l ++ s.past ∧ .closed ∉ l) ∧ (Whole s → Whole s')

theorem Keeps.refl (s : State) : Keeps s s := ⟨rfl, fun _ _ h => h, ⟨[], rfl, by simp⟩, id⟩

theorem Keeps.trans {s s1 s2 : State} (h1 : Keeps s s1) (h2 : Keeps s1 s2) : Keeps s s2 := by
  obtain ⟨u1, t1, ⟨l1, e1, k1⟩, w1⟩ := h1
  obtain ⟨u2, t2, ⟨l2, e2, k2⟩, w2⟩ := h2
  refine ⟨u2.trans u1, fun w m h => t1 w m (t2 w m h), ⟨l2 ++ l1, by rw [e2, e1, List.append_assoc], ?_⟩, w2 ∘ w1⟩
  rw [List.mem_append]
  rintro (k | k)
  · exact k2 k
  · exact k1 k

theorem Keeps.push (s : State) {a : Act} (ha : a ≠ .closed ∧ ∀ o k b, a ≠ .created o k b) : Keeps s (s.push a) := by
  refine ⟨rfl, fun _ _ h => h, ⟨[a], rfl, by simpa using fun e => ha.1 e.symm⟩, fun hw o k b h => ?_⟩
  rcases List.mem_cons.1 h with h | h
  · exact absurd h.symm (ha.2 o k b)
  · exact hw o k b h

theorem Keeps.of {s s' : State} (h1 : s'.uuid = s.uuid) (h2 : s'.past = s.past) (h3 : s'.tasks = s.tasks)
    (h4 : ∀ o, (s.objs.lookup o).isSome = true → (s'.objs.lookup o).isSome = true) : Keeps s s' :=
  ⟨h1, fun _ _ h => by rw [h3] at h; exact h, ⟨[], by rw [h2]; rfl, by simp⟩,
    fun hw o k b h => h4 o (hw o k b (by rw [h2] at h; exact h))⟩

theorem Keeps.later (s : State) {t : Task} (ht : ∀ w m, t ≠ .answered w m) : Keeps s (s.later t) := by
  refine ⟨rfl, fun w m h => ?_, ⟨[], rfl, by simp⟩, id⟩
  rcases List.mem_append.1 h with h | h
  · exact h
  · exact absurd (List.mem_singleton.1 h).symm (ht w m)

theorem setObj_some {s : State} {o o' : Nat} {x : Obj} (h : (s.objs.lookup o').isSome = true) :
    ((s.setObj o x).objs.lookup o').isSome = true := by
  unfold State.setObj
  simp only
  generalize s.objs = l at h
  induction l with
  | nil => simp at h
  | cons p l ih =>
    obtain ⟨k, y⟩ := p
    simp only [List.map_cons]
    by_cases hk : k = o
    · rw [if_pos hk]
      subst hk
      rw [List.lookup_cons] at h ⊢
      split at h
      · simp
      · exact ih h
    · rw [if_neg hk]
      rw [List.lookup_cons] at h ⊢
      split at h
      · simp
      · exact ih h

theorem Keeps.setObj (s : State) (o : Nat) (x : Obj) : Keeps s (s.setObj o x) :=
  Keeps.of rfl rfl rfl (fun _ h => setObj_some h)

theorem keeps_reject (w : Waiter) (s : State) : Keeps s (reject w s) := by
  cases w with
  | call n o => exact Keeps.push s (by simp)
  | hash n v => exact Keeps.push s (by simp)
  | assign n b =>
    cases b
    · exact Keeps.push s (by simp)
    · exact (Keeps.push s (a := .assignEnded n none) (by simp)).trans (Keeps.push _ (by simp))

theorem keeps_request (w : Waiter) (q : Nat) (out : Out) (s : State) : Keeps s (request cfg env w q out s) := by
  unfold request
  split
  · split
    · exact Keeps.later s (by simp)
    · split
      · exact Keeps.trans (s1 := { s with pending := (q, w) :: s.pending }) (Keeps.of rfl rfl rfl (fun _ h => h)) (Keeps.push _ (by simp))
      · exact Keeps.later s (by simp)
  · exact keeps_reject w s

theorem keeps_assign (b : Bool) (s : State) : Keeps s (assign cfg env b s) := by
  have h := keeps_request (cfg := cfg) (env := env) (.assign s.next b) s.sequence .selfKey
    (getSequence (({ s with next := s.next + 1 } : State).push (.assigning s.next b))).2
  refine Keeps.trans (s1 := (getSequence (({ s with next := s.next + 1 } : State).push (.assigning s.next b))).2) ?_ h
  exact Keeps.trans (Keeps.push s (a := .assigning s.next b) (by simp)) (Keeps.of rfl rfl rfl (fun _ h => h))

theorem keeps_send (o : Nat) (s : State) : Keeps s (send cfg env o s) := by
  unfold send
  cases s.objs.lookup o with
  | none => exact Keeps.refl s
  | some x =>
    simp only
    cases x.state with
    | pending =>
      exact Keeps.trans (Keeps.push s (a := .called s.next o) (by simp))
        (Keeps.trans (Keeps.of rfl rfl rfl (fun _ h => h))
          (Keeps.push (({ s with next := s.next + 1 } : State).push (.called s.next o)) (a := .ended s.next .busy) (by simp)))
    | destroyed =>
      exact Keeps.trans (Keeps.push s (a := .called s.next o) (by simp))
        (Keeps.trans (Keeps.of rfl rfl rfl (fun _ h => h))
          (Keeps.push (({ s with next := s.next + 1 } : State).push (.called s.next o)) (a := .ended s.next .gone) (by simp)))
    | ready =>
      have h := keeps_request (cfg := cfg) (env := env) (.call s.next o) s.sequence (.msg x.kind.ref x.body)
        ((getSequence (({ s with next := s.next + 1 } : State).push (.called s.next o))).2.setObj o
          { x with state := .pending })
      refine Keeps.trans (s1 := ((getSequence (({ s with next := s.next + 1 } : State).push (.called s.next o))).2.setObj o
          { x with state := .pending })) ?_ h
      exact (Keeps.push s (a := .called s.next o) (by simp)).trans
        (Keeps.of rfl rfl rfl (fun _ h => setObj_some (s := s) h))

theorem keeps_userOp (s : State) (op : Op) : Keeps s (userOp cfg env s op) := by
  cases op with
  | create k b =>
    refine ⟨rfl, fun _ _ h => h, ⟨[_], rfl, by simp⟩, fun hw o k' b' h => ?_⟩
    show ((s.objs ++ [(s.next, (⟨k, b, .ready, []⟩ : Obj))]).lookup o).isSome = true
    rw [List.lookup_append]
    rcases List.mem_cons.1 h with h | h
    · cases h; simp [List.lookup_cons]
    · have := hw o k' b' h
      cases e : s.objs.lookup o with
      | none => rw [e] at this; cases this
      | some y => rfl
  | on o name =>
    simp only [userOp]
    cases s.objs.lookup o
    · exact Keeps.refl s
    · exact Keeps.setObj ..
  | send o => exact keeps_send o s
  | destroy o =>
    simp only [userOp]
    cases s.objs.lookup o
    · exact Keeps.refl s
    · exact (Keeps.setObj ..).trans (Keeps.push _ (by simp))
  | assign => exact keeps_assign false s

theorem keeps_enter {a : Act} (ha : a ≠ .closed ∧ ∀ o k b, a ≠ .created o k b) (s : State) : Keeps s (enter cfg env a s) := by
  refine (Keeps.push s ha).trans ?_
  unfold enter
  generalize env.during (s.push a) a = ops
  generalize s.push a = s
  induction ops generalizing s with
  | nil => exact Keeps.refl s
  | cons op ops ih => exact (keeps_userOp s op).trans (ih _)

theorem keeps_settle (n o : Nat) (name : Name) (v : Option Js) (r : Result) (s : State) :
    Keeps s (settle cfg env n o name v r s) := by
  unfold settle
  split
  · split
    · have h : Keeps s (enter cfg env (.handled n name v) s) := keeps_enter (by simp) s
      simp only [callUser]
      cases env.throws (s.push (.handled n name v)) (.handled n name v) <;> exact h.trans (Keeps.push _ (by simp))
    · exact Keeps.push _ (by simp)
  · exact Keeps.push _ (by simp)

theorem keeps_onAnswer (n o : Nat) (m : Msg) (s : State) : Keeps s (onAnswer cfg env n o m s) := by
  unfold onAnswer
  cases s.objs.lookup o with
  | none => exact Keeps.refl s
  | some x =>
    simp only
    cases x.state with
    | ready => exact Keeps.refl s
    | destroyed => exact Keeps.push _ (by simp)
    | pending =>
      refine Keeps.trans (Keeps.setObj s o { x with state := .ready }) ?_
      simp only
      generalize s.setObj o { x with state := .ready } = s'
      split
      · unfold conclude
        split
        · exact keeps_settle ..
        · split
          · exact keeps_settle ..
          · exact Keeps.push _ (by simp)
      · unfold confirm
        split
        · exact keeps_settle ..
        · split <;> exact keeps_settle ..

theorem keeps_onHash (n : Nat) (v : Js) (m : Msg) (s : State) : Keeps s (onHash cfg env n v m s) := by
  unfold onHash
  split
  · exact Keeps.push _ (by simp)
  · split
    · exact Keeps.push _ (by simp)
    · exact (Keeps.push s (a := .shakeEnded n true) (by simp)).trans (keeps_enter (by simp) _)

theorem since_append {l h : List Act} (hl : .closed ∉ l) : since (l ++ h) = l ++ since h := by
  induction l with
  | nil => rfl
  | cons a l ih =>
    rw [List.mem_cons, not_or] at hl
    have := ih hl.2
    cases a <;> first | exact absurd rfl hl.1 | (show _ :: since (l ++ h) = _; rw [this]; rfl)

/-- The id was given on this connection; so were the answers that are still to be looked at. -/
def Owned (s : State) : Prop :=
  (∀ u, s.uuid = some u → ∃ n shake q m, .delivered (.assign n shake) q m ∈ since s.past ∧ GivesKey m (.str u)) ∧
  ∀ n shake m, .answered (.assign n shake) m ∈ s.tasks → ∃ q, .delivered (.assign n shake) q m ∈ since s.past

theorem Owned.keeps {s s' : State} (h : Owned s) (hk : Keeps s s') : Owned s' := by
  obtain ⟨k1, k2, ⟨l, e, k3⟩, _⟩ := hk
  refine ⟨fun u hu => ?_, fun n shake m ht => ?_⟩
  · rw [k1] at hu
    obtain ⟨n, shake, q, m, g1, g2⟩ := h.1 u hu
    exact ⟨n, shake, q, m, by rw [e, since_append k3]; exact List.mem_append_right _ g1, g2⟩
  · obtain ⟨q, g⟩ := h.2 n shake m (k2 _ _ ht)
    exact ⟨q, by rw [e, since_append k3]; exact List.mem_append_right _ g⟩

theorem setUuid_cases (v : Option Js) (s : State) :
    (setUuid v s).tasks = s.tasks ∧ ((setUuid v s).uuid = s.uuid ∨ (setUuid v s).uuid = none ∨
      ∃ u, v = some (.str u) ∧ (setUuid v s).uuid = some u) := by
  unfold setUuid
  split
  · exact ⟨rfl, .inr (.inl rfl)⟩
  · split
    · exact ⟨rfl, .inl rfl⟩
    · split
      · exact ⟨rfl, .inl rfl⟩
      · exact ⟨rfl, .inr (.inr ⟨_, rfl, rfl⟩)⟩
  · exact ⟨rfl, .inl rfl⟩

theorem owned_onAssigned {n : Nat} {shake : Bool} {m : Msg} {q : UInt32} {s : State} (h : Owned s)
    (hd : .delivered (.assign n shake) q m ∈ since s.past) : Owned (onAssigned n shake m s) := by
  unfold onAssigned
  cases hb : extract m selfKeyResponse with
  | none => exact h.keeps (keeps_reject _ _)
  | some b =>
    simp only
    have hs : Owned (setUuid (b.prop "uuid".toList) s) := by
      obtain ⟨k1, k2⟩ := setUuid_cases (b.prop "uuid".toList) s
      have kp := setUuid_past (b.prop "uuid".toList) s
      refine ⟨fun u hu => ?_, fun n' shake' m' ht => ?_⟩
      · rw [kp]
        rcases k2 with k2 | k2 | ⟨u', e1, e2⟩
        · rw [k2] at hu; exact h.1 u hu
        · rw [k2] at hu; cases hu
        · rw [e2] at hu
          cases hu
          obtain ⟨ps, rfl, hps⟩ := prop_some e1
          exact ⟨n, shake, q, m, hd, ps, (extract_iff _ _ _).1 hb, hps⟩
      · rw [kp]; rw [k1] at ht; exact h.2 n' shake' m' ht
    split
    · split
      · exact (hs.keeps (Keeps.push _ (a := .assignEnded n (some _)) (by simp))).keeps (Keeps.later _ (by simp))
      · exact hs.keeps (Keeps.push _ (by simp))
    · exact hs.keeps (keeps_reject _ _)

theorem mem_eraseIdx {α : Type} {l : List α} {i : Nat} {a : α} (h : a ∈ l.eraseIdx i) : a ∈ l :=
  (List.eraseIdx_sublist l i).subset h

theorem owned_work {s : State} {i : Nat} {t : Task} (h : Owned s) (hi : s.tasks[i]? = some t) :
    Owned (work cfg env t { s with tasks := s.tasks.eraseIdx i }) := by
  have hk : Keeps s { s with tasks := s.tasks.eraseIdx i } :=
    ⟨rfl, fun w m h => mem_eraseIdx h, ⟨[], rfl, by simp⟩, id⟩
  have h1 := h.keeps hk
  cases t with
  | answered w m =>
    cases w with
    | assign n b =>
      obtain ⟨q, hq⟩ := h.2 n b m (List.mem_of_getElem? hi)
      exact owned_onAssigned h1 hq
    | hash n v => exact h1.keeps (keeps_onHash ..)
    | call n o => exact h1.keeps (keeps_onAnswer ..)
  | failed w => exact h1.keeps (keeps_reject ..)
  | assigned n v =>
    refine h1.keeps ?_
    exact Keeps.trans (Keeps.of rfl rfl rfl (fun _ h => h)) (keeps_request (cfg := cfg) (env := env) (.hash n v) s.sequence .hash
      (getSequence { s with tasks := s.tasks.eraseIdx i }).2)

theorem owned_onMessage {x : Rust.Income Msg} {s : State} (h : Owned s) : Owned (onMessage cfg env x s).2 := by
  have h1 : Owned (s.push (.got x.header.sequence x.msg)) := h.keeps (Keeps.push _ (by simp))
  unfold onMessage
  simp only
  split
  next w _ =>
    have kp : since (Act.delivered w x.header.sequence x.msg :: (s.push (.got x.header.sequence x.msg)).past) =
        .delivered w x.header.sequence x.msg :: since (s.push (.got x.header.sequence x.msg)).past := rfl
    refine ⟨fun u hu => ?_, fun n shake m ht => ?_⟩
    · obtain ⟨n, shake, q, m, g1, g2⟩ := h1.1 u hu
      exact ⟨n, shake, q, m, List.mem_cons_of_mem _ g1, g2⟩
    · rcases List.mem_append.1 ht with ht | ht
      · obtain ⟨q, g⟩ := h1.2 n shake m ht
        exact ⟨q, List.mem_cons_of_mem _ g⟩
      · simp only [List.mem_singleton, Task.answered.injEq] at ht
        obtain ⟨rfl, rfl⟩ := ht
        exact ⟨_, List.mem_cons_self⟩
  next =>
    unfold offer
    split
    · exact h1.keeps (keeps_enter (by simp) _)
    · exact h1.keeps (Keeps.push _ (by simp))

theorem owned_onMessages (l : List (Rust.Income Msg)) {s : State} (h : Owned s) : Owned (onMessages cfg env l s) := by
  induction l generalizing s with
  | nil => exact h
  | cons x l ih =>
    have h2 := owned_onMessage (cfg := cfg) (env := env) (x := x)
      (h.keeps (s' := { s with reader := ⟨s.reader.buffer, l⟩ }) (Keeps.of rfl rfl rfl (fun _ h => h)))
    unfold onMessages
    split
    next s' e => rw [e] at h2; exact h2
    next s' e => rw [e] at h2; exact ih h2

theorem owned_step {s s' : State} {i : Input} (h : Owned s) (hp : i = .disconnected → s.tasks = [])
    (hr : step cfg env s i = some s') : Owned s' := by
  cases i with
  | connected =>
    cases hr
    exact ((h.keeps (Keeps.push s (a := .opened) (by simp))).keeps (keeps_assign true _)).keeps (keeps_enter (by simp) _)
  | disconnected =>
    cases hr
    refine Owned.keeps (s := setUuid none (s.push .closed)) ⟨?_, ?_⟩ (keeps_enter (by simp) _)
    · intro u hu; cases hu
    · intro n shake m ht
      have ht : Task.answered (.assign n shake) m ∈ s.tasks := ht
      rw [hp rfl] at ht
      simp at ht
  | error =>
    cases hr
    exact (h.keeps (Keeps.push s (a := .trouble) (by simp))).keeps (keeps_enter (by simp) _)
  | received b =>
    have h0 : Owned (s.push (.chunk b)) := h.keeps (Keeps.push s (by simp))
    simp only [step, received] at hr
    split at hr
    · cases hr
    · cases hr; exact h0.keeps (Keeps.of rfl rfl rfl (fun _ h => h))
    · cases hr; exact h0.keeps (Keeps.of rfl rfl rfl (fun _ h => h))
    · cases hr; exact owned_onMessages _ (h0.keeps (Keeps.of rfl rfl rfl (fun _ h => h)))
  | user op => cases hr; exact h.keeps (keeps_userOp s op)
  | work i =>
    simp only [step] at hr
    split at hr
    next t ht => cases hr; exact owned_work h ht
    next => cases hr; exact h

theorem run_cons_some {i : Input} {is : List Input} {s s' : State} (h : step cfg env s i = some s') :
    run cfg env (i :: is) s = run cfg env is s' := by
  rw [run]
  simp [h]

theorem run_cons_none {i : Input} {is : List Input} {s : State} (h : step cfg env s i = none) :
    run cfg env (i :: is) s = (true, s) := by
  rw [run]
  simp [h]

theorem run_append_false {is js : List Input} {s : State} (h : (run cfg env is s).1 = false) :
    run cfg env (is ++ js) s = run cfg env js (run cfg env is s).2 := by
  induction is generalizing s with
  | nil => rfl
  | cons i is ih =>
    rw [List.cons_append]
    cases e : step cfg env s i with
    | none => rw [run_cons_none e] at h; cases h
    | some s' => rw [run_cons_some e] at h ⊢; rw [run_cons_some e]; exact ih h

theorem run_append_true {is js : List Input} {s : State} (h : (run cfg env is s).1 = true) :
    run cfg env (is ++ js) s = run cfg env is s := by
  induction is generalizing s with
  | nil => cases h
  | cons i is ih =>
    rw [List.cons_append]
    cases e : step cfg env s i with
    | none => rw [run_cons_none e, run_cons_none e]
    | some s' => rw [run_cons_some e] at h ⊢; rw [run_cons_some e]; exact ih h

theorem run_snoc (is : List Input) (i : Input) (s : State) :
    (run cfg env (is ++ [i]) s).2 = (run cfg env is s).2 ∨
      step cfg env (run cfg env is s).2 i = some (run cfg env (is ++ [i]) s).2 := by
  cases h : (run cfg env is s).1 with
  | true => rw [run_append_true h]; exact .inl rfl
  | false =>
    rw [run_append_false h]
    cases e : step cfg env (run cfg env is s).2 i with
    | none => simp [run, e]
    | some s' => simp [run, e]

theorem owned_run (cfg : Cfg) (env : Env) (is : List Input) (hp : Prompt cfg env is) : Owned (run cfg env is .new).2 := by
  have : ∀ (n : Nat) (is : List Input), is.length = n → Prompt cfg env is → Owned (run cfg env is .new).2 := by
    intro n
    induction n with
    | zero =>
      intro is hn _
      rw [List.length_eq_zero_iff.1 hn]
      exact ⟨by simp [run, State.new], by simp [run, State.new]⟩
    | succ n ih =>
      intro is hn hp
      have hne : is ≠ [] := by rintro rfl; simp at hn
      obtain ⟨js, i, rfl⟩ : ∃ js i, is = js ++ [i] := ⟨is.dropLast, is.getLast hne, (List.dropLast_concat_getLast hne).symm⟩
      have h1 := ih js (by simp at hn; exact hn) (by
        intro before after e
        exact hp before (after ++ [i]) (by rw [e]; simp))
      rcases run_snoc (cfg := cfg) (env := env) js i .new with e | e
      · rw [e]; exact h1
      · exact owned_step h1 (fun hi => hp js [] (by rw [hi])) e
  exact this _ is rfl hp

/-! ### Objects -/

theorem setUuid_objs (v : Option Js) (s : State) : (setUuid v s).objs = s.objs := by
  unfold setUuid
  split
  · rfl
  · split
    · rfl
    · split <;> rfl
  · rfl

theorem whole_setUuid {s : State} (h : Whole s) (v : Option Js) : Whole (setUuid v s) := by
  intro o k b hk
  rw [setUuid_past] at hk
  rw [setUuid_objs]
  exact h o k b hk

theorem Whole.keeps {s s' : State} (h : Whole s) (hk : Keeps s s') : Whole s' := hk.2.2.2 h

theorem whole_onAssigned (n : Nat) (shake : Bool) (m : Msg) {s : State} (h : Whole s) : Whole (onAssigned n shake m s) := by
  unfold onAssigned
  cases hb : extract m selfKeyResponse with
  | none => exact h.keeps (keeps_reject _ _)
  | some b =>
    simp only
    have hs := whole_setUuid h (b.prop "uuid".toList)
    split
    · split
      · exact (hs.keeps (Keeps.push _ (a := .assignEnded n (some _)) (by simp))).keeps (Keeps.later _ (by simp))
      · exact hs.keeps (Keeps.push _ (by simp))
    · exact hs.keeps (keeps_reject _ _)

theorem whole_work (t : Task) {s : State} (h : Whole s) : Whole (work cfg env t s) := by
  cases t with
  | answered w m =>
    cases w with
    | assign n b => exact whole_onAssigned n b m h
    | hash n v => exact h.keeps (keeps_onHash ..)
    | call n o => exact h.keeps (keeps_onAnswer ..)
  | failed w => exact h.keeps (keeps_reject ..)
  | assigned n v =>
    exact h.keeps (Keeps.trans (Keeps.of rfl rfl rfl (fun _ h => h)) (keeps_request (cfg := cfg) (env := env) (.hash n v)
      s.sequence .hash (getSequence s).2))

theorem whole_onMessage {x : Rust.Income Msg} {s : State} (h : Whole s) : Whole (onMessage cfg env x s).2 := by
  have h1 : Whole (s.push (.got x.header.sequence x.msg)) := h.keeps (Keeps.push _ (by simp))
  unfold onMessage
  simp only
  split
  next w _ =>
    intro o k b hk
    rcases List.mem_cons.1 hk with hk | hk
    · cases hk
    · exact h1 o k b hk
  next =>
    unfold offer
    split
    · exact h1.keeps (keeps_enter (by simp) _)
    · exact h1.keeps (Keeps.push _ (by simp))

theorem whole_onMessages (l : List (Rust.Income Msg)) {s : State} (h : Whole s) : Whole (onMessages cfg env l s) := by
  induction l generalizing s with
  | nil => exact h
  | cons x l ih =>
    have h2 := whole_onMessage (cfg := cfg) (env := env) (x := x)
      (h.keeps (s' := { s with reader := ⟨s.reader.buffer, l⟩ }) (Keeps.of rfl rfl rfl (fun _ h => h)))
    unfold onMessages
    split
    next s' e => rw [e] at h2; exact h2
    next s' e => rw [e] at h2; exact ih h2

theorem whole_step {s s' : State} {i : Input} (h : Whole s) (hr : step cfg env s i = some s') : Whole s' := by
  cases i with
  | connected =>
    cases hr
    exact ((h.keeps (Keeps.push s (a := .opened) (by simp))).keeps (keeps_assign true _)).keeps (keeps_enter (by simp) _)
  | disconnected =>
    cases hr
    refine (whole_setUuid (s := s.push .closed) ?_ none).keeps (keeps_enter (by simp) _)
    intro o k b hk
    rcases List.mem_cons.1 hk with hk | hk
    · cases hk
    · exact h o k b hk
  | error =>
    cases hr
    exact (h.keeps (Keeps.push s (a := .trouble) (by simp))).keeps (keeps_enter (by simp) _)
  | received b =>
    have h0 : Whole (s.push (.chunk b)) := h.keeps (Keeps.push s (by simp))
    simp only [step, received] at hr
    split at hr
    · cases hr
    · cases hr; exact h0.keeps (Keeps.of rfl rfl rfl (fun _ h => h))
    · cases hr; exact h0.keeps (Keeps.of rfl rfl rfl (fun _ h => h))
    · cases hr; exact whole_onMessages _ (h0.keeps (Keeps.of rfl rfl rfl (fun _ h => h)))
  | user op => cases hr; exact h.keeps (keeps_userOp s op)
  | work i =>
    simp only [step] at hr
    split at hr
    next t ht => cases hr; exact whole_work t h
    next => cases hr; exact h

theorem whole_run (cfg : Cfg) (env : Env) (is : List Input) : Whole (run cfg env is .new).2 := by
  have : ∀ (is : List Input) (s : State), Whole s → Whole (run cfg env is s).2 := by
    intro is
    induction is with
    | nil => intro s h; exact h
    | cons i is ih =>
      intro s h
      cases e : step cfg env s i with
      | none => rw [run_cons_none e]; exact h
      | some s' => rw [run_cons_some e]; exact ih _ (whole_step h e)
  exact this is .new (by intro o k b h; simp [State.new] at h)

/-! ### Calls -/

theorem settle_ends (n o : Nat) (name : Name) (v : Option Js) (r : Result) (s : State) :
    ∃ r', .ended n r' ∈ (settle cfg env n o name v r s).past := by
  unfold settle
  split
  · split
    · simp only [callUser]
      cases env.throws (s.push (.handled n name v)) (.handled n name v) <;> exact ⟨_, List.mem_cons_self⟩
    · exact ⟨_, List.mem_cons_self⟩
  · exact ⟨_, List.mem_cons_self⟩

theorem onAnswer_ends {xs : List Hand} {n o : Nat} {m : Msg} {s : State} (h : Inv cfg ((n, some o) :: xs) s) :
    ∃ r, .ended n r ∈ (onAnswer cfg env n o m s).past := by
  obtain ⟨x, hx, hne⟩ := h.busy o (by simp)
  unfold onAnswer
  rw [hx]
  simp only
  split
  next hs => exact absurd hs hne
  next => exact ⟨_, List.mem_cons_self⟩
  next =>
    split
    · unfold conclude
      split
      · exact settle_ends ..
      · split
        · exact settle_ends ..
        · exact ⟨_, List.mem_cons_self⟩
    · unfold confirm
      split
      · exact settle_ends ..
      · split <;> exact settle_ends ..

/-- A job of a call. -/
def Task.OfCall (t : Task) (n o : Nat) : Prop := (∃ m, t = .answered (.call n o) m) ∨ t = .failed (.call n o)

theorem job_ends {s : State} {i n o : Nat} {t : Task} (h : Inv cfg [] s) (hi : s.tasks[i]? = some t) (ht : t.OfCall n o) :
    ∃ s' r, step cfg env s (.work i) = some s' ∧ .ended n r ∈ s'.past := by
  obtain ⟨h1, _, _⟩ := h.take hi
  simp only [step, hi]
  rcases ht with ⟨m, rfl⟩ | rfl
  · obtain ⟨r, hr⟩ := onAnswer_ends (env := env) (m := m) (show Inv cfg ((n, some o) :: []) _ from h1)
    exact ⟨_, r, rfl, hr⟩
  · exact ⟨_, .failed, rfl, List.mem_cons_self⟩

theorem law_exclusive {h : List Act} (hl : Lawful cfg h) {n o : Nat} {b : Bool} (h1 : .called n o ∈ h)
    (h2 : .assigning n b ∈ h) : False := by
  induction h with
  | nil => simp at h1
  | cons a h ih =>
    rcases List.mem_cons.1 h1 with k1 | k1
    · subst k1
      rcases List.mem_cons.1 h2 with k2 | k2
      · cases k2
      · exact hl.1.2.2 b k2
    · rcases List.mem_cons.1 h2 with k2 | k2
      · subst k2; exact hl.1.1 o k1
      · exact ih hl.2 k1 k2

theorem law_called_unique {h : List Act} (hl : Lawful cfg h) {n o o' : Nat} (h1 : .called n o ∈ h)
    (h2 : .called n o' ∈ h) : o = o' := by
  induction h with
  | nil => simp at h1
  | cons a h ih =>
    rcases List.mem_cons.1 h1 with k1 | k1
    · subst k1
      rcases List.mem_cons.1 h2 with k2 | k2
      · cases k2; rfl
      · exact absurd k2 (hl.1.2.1 o')
    · rcases List.mem_cons.1 h2 with k2 | k2
      · subst k2; exact absurd k1 (hl.1.2.1 o)
      · exact ih hl.2 k1 k2

theorem law_created_unique {h : List Act} (hl : Lawful cfg h) {o : Nat} {k k' : Kind} {b b' : Js}
    (h1 : .created o k b ∈ h) (h2 : .created o k' b' ∈ h) : k = k' ∧ b = b' := by
  induction h with
  | nil => simp at h1
  | cons a h ih =>
    rcases List.mem_cons.1 h1 with k1 | k1
    · subst k1
      rcases List.mem_cons.1 h2 with k2 | k2
      · cases k2; exact ⟨rfl, rfl⟩
      · exact absurd k2 (hl.1 k' b')
    · rcases List.mem_cons.1 h2 with k2 | k2
      · subst k2; exact absurd k1 (hl.1 k b)
      · exact ih hl.2 k1 k2

/-- A number is answered once. -/
theorem law_delivered_unique {h : List Act} (hl : Lawful cfg h) {q : UInt32} {w w' : Waiter} {m m' : Msg}
    (h1 : .delivered w q m ∈ h) (h2 : .delivered w' q m' ∈ h) : w = w' ∧ m = m' := by
  induction h with
  | nil => simp at h1
  | cons a h ih =>
    rcases List.mem_cons.1 h1 with k1 | k1
    · subst k1
      rcases List.mem_cons.1 h2 with k2 | k2
      · cases k2; exact ⟨rfl, rfl⟩
      · exact absurd k2 (hl.1.2.1 _ _)
    · rcases List.mem_cons.1 h2 with k2 | k2
      · subst k2; exact absurd k1 (hl.1.2.1 _ _)
      · exact ih hl.2 k1 k2

/-- A waiter sends once. -/
theorem law_sent_unique {h : List Act} (hl : Lawful cfg h) {w : Waiter} {q q' : Nat} {out out' : Out}
    (h1 : .sent w q out ∈ h) (h2 : .sent w q' out' ∈ h) : q = q' ∧ out = out' := by
  induction h with
  | nil => simp at h1
  | cons a h ih =>
    rcases List.mem_cons.1 h1 with k1 | k1
    · subst k1
      rcases List.mem_cons.1 h2 with k2 | k2
      · cases k2; exact ⟨rfl, rfl⟩
      · exact absurd k2 (hl.1.2.2.2.1 _ _)
    · rcases List.mem_cons.1 h2 with k2 | k2
      · subst k2; exact absurd k1 (hl.1.2.2.2.1 _ _)
      · exact ih hl.2 k1 k2

/-- So it is answered once. -/
theorem law_answer_unique {h : List Act} (hl : Lawful cfg h) {w : Waiter} {q q' : UInt32} {m m' : Msg}
    (h1 : .delivered w q m ∈ h) (h2 : .delivered w q' m' ∈ h) : q = q' ∧ m = m' := by
  have s1 : ∃ out, .sent w q.toNat out ∈ h := by
    obtain ⟨l1, l2, e⟩ := List.append_of_mem h1
    have hl' := hl
    rw [e] at hl'
    obtain ⟨⟨out, k⟩, _⟩ := hl'.at
    exact ⟨out, by rw [e]; simp [k]⟩
  have s2 : ∃ out, .sent w q'.toNat out ∈ h := by
    obtain ⟨l1, l2, e⟩ := List.append_of_mem h2
    have hl' := hl
    rw [e] at hl'
    obtain ⟨⟨out, k⟩, _⟩ := hl'.at
    exact ⟨out, by rw [e]; simp [k]⟩
  obtain ⟨o1, s1⟩ := s1
  obtain ⟨o2, s2⟩ := s2
  have := (law_sent_unique hl s1 s2).1
  have : q = q' := UInt32.toNat_inj.1 this
  subst this
  exact ⟨rfl, (law_delivered_unique hl h1 h2).2⟩

theorem law_sent_number {h : List Act} (hl : Lawful cfg h) {w w' : Waiter} {q : Nat} {out out' : Out}
    (h1 : .sent w q out ∈ h) (h2 : .sent w' q out' ∈ h) : w = w' ∧ out = out' := by
  induction h with
  | nil => simp at h1
  | cons a h ih =>
    rcases List.mem_cons.1 h1 with k1 | k1
    · subst k1
      rcases List.mem_cons.1 h2 with k2 | k2
      · cases k2; exact ⟨rfl, rfl⟩
      · exact absurd (hl.1.2.2.1 _ _ _ k2) (Nat.lt_irrefl _)
    · rcases List.mem_cons.1 h2 with k2 | k2
      · subst k2; exact absurd (hl.1.2.2.1 _ _ _ k1) (Nat.lt_irrefl _)
      · exact ih hl.2 k1 k2

/-- A call has ended, or waits for an answer, or a job will end it. -/
theorem call_state {s : State} {n o : Nat} (h : Inv cfg [] s) (hc : .called n o ∈ s.past) :
    (∃ r, .ended n r ∈ s.past) ∨ (∃ q out, .sent (.call n o) q out ∈ s.past ∧ ∀ q m, .delivered (.call n o) q m ∉ s.past) ∨
      ∃ (i : Nat) (t : Task), s.tasks[i]? = some t ∧ t.OfCall n o := by
  have hwait : ∀ w ∈ waiters s, w.thread = n → w = .call n o := by
    intro w hw ht
    have := h.waiter w hw
    cases w with
    | call n' o' =>
      have ht : n' = n := ht
      subst ht
      rw [law_called_unique h.law hc this.1]
    | assign n' b =>
      have ht : n' = n := ht
      subst ht
      exact (law_exclusive h.law hc this.1).elim
    | hash n' v =>
      have ht : n' = n := ht
      subst ht
      exact (law_exclusive h.law hc this.1).elim
  rcases h.calls n o hc with ((k | ⟨ok, k⟩) | k | k)
  · exact .inl k
  · exfalso
    obtain ⟨l1, l2, e⟩ := List.append_of_mem k
    have hl := h.law
    rw [e] at hl
    exact law_exclusive h.law hc (by rw [e]; exact List.mem_append_right _ (List.mem_cons_of_mem _ hl.at.2.1))
  · right
    rcases List.mem_append.1 k with k | k
    · left
      obtain ⟨⟨q, w⟩, k1, k2⟩ := List.mem_map.1 k
      have hw := hwait w (List.mem_append_left _ (List.mem_map.2 ⟨_, k1, rfl⟩)) k2
      subst hw
      obtain ⟨⟨out, g1⟩, g2⟩ := h.pend q _ k1
      refine ⟨q, out, g1, fun q' m g3 => g2 _ q' m g3 ?_⟩
      obtain ⟨l1, l2, e⟩ := List.append_of_mem g3
      have hl := h.law
      rw [e] at hl
      obtain ⟨⟨out', g4⟩, _⟩ := hl.at
      have g4 : Act.sent (.call n o) q'.toNat out' ∈ s.past := by
        rw [e]; exact List.mem_append_right _ (List.mem_cons_of_mem _ g4)
      exact (law_sent_unique h.law g4 g1).1
    · right
      obtain ⟨t, k1, k2⟩ := List.mem_map.1 k
      obtain ⟨i, hi, hi'⟩ := List.getElem_of_mem k1
      refine ⟨i, t, by rw [List.getElem?_eq_getElem hi, hi'], ?_⟩
      have hmem : ∀ w, t.waiter = some w → w ∈ waiters s := fun w e =>
        List.mem_append_right _ (List.mem_filterMap.2 ⟨t, k1, e⟩)
      cases t with
      | answered w m => rw [hwait w (hmem w rfl) k2]; exact .inl ⟨m, rfl⟩
      | failed w => rw [hwait w (hmem w rfl) k2]; exact .inr rfl
      | assigned n' v =>
        have k2 : n' = n := k2
        subst k2
        exact (law_exclusive h.law hc (h.task _ k1).1).elim
  · simp at k

/-- An object whose calls have all ended, none of them for lack of a message that was sent, and that was not
destroyed, sends its message. -/
theorem send_goes_out {s : State} {o : Nat} {k : Kind} {b : Js} (h : Inv cfg [] s) (hc : .created o k b ∈ s.past)
    (ho : Whole s) (hd : .destroyed o ∉ s.past) (hcall : ∀ n, .called n o ∈ s.past → ∃ r, .ended n r ∈ s.past ∧ r ≠ .failed)
    {ref : Ref} (hr : k.Asks ref) (hp : cfg.packs (.msg ref b) = true) (hq : s.sequence < 4294967296)
    (hs : ∀ s' out, env.sends s' out = true) :
    ∃ n, (send cfg env o s).past = .sent (.call n o) s.sequence (.msg ref b) :: .called n o :: s.past := by
  obtain ⟨x, hx⟩ := Option.isSome_iff_exists.1 (ho o k b hc)
  obtain ⟨ek, eb⟩ := law_created_unique h.law (h.objs o x hx) hc
  have href : x.kind.ref = ref := by
    rw [ek]
    cases k <;> exact hr
  have hst : x.state = .ready := by
    cases e : x.state with
    | ready => rfl
    | destroyed => exact absurd (h.gone o x hx e) hd
    | pending =>
      exfalso
      obtain ⟨n, k1, k2⟩ := h.used o x hx e
      obtain ⟨r, k3, k4⟩ := hcall n k1
      rcases k2 with k2 | k2 | k2
      · have : r = .failed := by
          have hl := h.law
          clear k1 hcall hx hd hc h
          generalize s.past = past at hl k2 k3
          induction past with
          | nil => simp at k2
          | cons a past ih =>
            rcases List.mem_cons.1 k2 with g2 | g2
            · subst g2
              rcases List.mem_cons.1 k3 with g3 | g3
              · cases g3; rfl
              · exact absurd g3 (hl.1.1 _)
            · rcases List.mem_cons.1 k3 with g3 | g3
              · subst g3; exact absurd g2 (hl.1.1 _)
              · exact ih hl.2 g2 g3
        exact k4 this
      · exact (h.live n (List.mem_append_right _ (thread_mem k2))).2 (.inl ⟨r, k3⟩)
      · simp at k2
  have hnone : s.pending.lookup s.sequence = none := by
    cases e : s.pending.lookup s.sequence with
    | none => rfl
    | some w =>
      exfalso
      have := (lookup_perm h.keys e).mem_iff.2 List.mem_cons_self
      obtain ⟨⟨out, k1⟩, _⟩ := h.pend _ _ this
      exact Nat.lt_irrefl _ (h.sents _ _ _ k1)
  refine ⟨s.next, ?_⟩
  unfold send
  rw [hx]
  simp only [hst, getSequence]
  unfold request
  rw [if_pos (by rw [href, eb]; exact ⟨hp, hq⟩)]
  rw [if_neg (by
    show ¬ (s.pending.lookup s.sequence).isSome = true
    rw [hnone]; simp)]
  rw [if_pos (hs _ _), href, eb]
  rfl

/-! ### What jobs do -/

theorem settle_handles {n o : Nat} {name : Name} {v : Option Js} {r : Result} {s : State} {x : Obj}
    (hx : s.objs.lookup o = some x) (hn : name ∈ x.handlers) :
    .handled n name v ∈ (settle cfg env n o name v r s).past := by
  unfold settle
  rw [hx]
  simp only
  rw [if_pos hn]
  have g := (grows_enter (cfg := cfg) (env := env) (.handled n name v) s).subset List.mem_cons_self
  simp only [callUser]
  cases env.throws (s.push (.handled n name v)) (.handled n name v) <;> exact List.mem_cons_of_mem _ g

theorem handlerOf_eq {r : Flow.Request} {a : Flow.Action} {name : Name} (h : HandlerOf r a name) :
    name = handlerName r a := by
  unfold handlerName
  rcases h with ⟨h1, h2⟩ | ⟨h1, h2⟩
  · rw [if_neg (Nat.not_lt.2 h1), h2]
  · rw [if_pos h1, h2]

theorem pick_of_picks {r : Flow.Request} {m : Msg} {a : Flow.Action} {ref : Ref} {v : Js} (h : Picks r m a ref v) :
    pick r m = some (handlerName r a, ref, v) := by
  obtain ⟨l1, l2, h1, h2, h3, h4⟩ := h
  unfold pick
  rw [List.findSome?_eq_some_iff]
  refine ⟨l1, a, l2, h1, ?_, ?_⟩
  · rw [h2, Option.bind_some, (extract_iff _ _ _).2 h3]; rfl
  · intro b hb
    cases e : b.response with
    | none => rfl
    | some ref' =>
      rw [Option.bind_some]
      cases e2 : extract m ref' with
      | none => rfl
      | some v' => exact absurd ((extract_iff _ _ _).1 e2) (h4 b hb ref' v' e)

theorem pick_of_none {r : Flow.Request} {m : Msg} (h : NoAction r m) : pick r m = none := by
  unfold pick
  rw [List.findSome?_eq_none_iff]
  intro b hb
  cases e : b.response with
  | none => rfl
  | some ref' =>
    rw [Option.bind_some]
    cases e2 : extract m ref' with
    | none => rfl
    | some v' => exact absurd ((extract_iff _ _ _).1 e2) (h b hb ref' v' e)

/-- The handler that is set for an answer is called. -/
theorem onAnswer_handles {n o : Nat} {m : Msg} {s : State} {x : Obj} {name : Name} {v : Option Js}
    (hx : s.objs.lookup o = some x) (hp : x.state = .pending) (hn : name ∈ x.handlers) (hh : Handles x.kind m name v) :
    .handled n name v ∈ (onAnswer cfg env n o m s).past := by
  obtain ⟨k, b, st, hs⟩ := x
  simp only at hp hn hh
  subst hp
  have hy : (s.setObj o ⟨k, b, .ready, hs⟩).objs.lookup o = some ⟨k, b, .ready, hs⟩ := by
    rw [setObj_lookup, if_pos rfl, hx]; rfl
  unfold onAnswer
  rw [hx]
  simp only
  cases hh with
  | action hp ho =>
    simp only [conclude, pick_of_picks hp]
    rw [← handlerOf_eq ho]
    exact settle_handles hy hn
  | error h1 h2 h3 =>
    simp only [conclude, pick_of_none h1, h2, Option.bind_some, (extract_iff _ _ _).2 h3, Option.map_some]
    exact settle_handles hy hn
  | confirmed hc =>
    obtain ⟨w, h1, h2⟩ := hc
    have h1 : Holds m beaconConfirmation w := h1
    simp only [confirm, (extract_iff _ _ _).2 h1]
    split
    next e he =>
      obtain ⟨ps, e1, e2⟩ := prop_some he
      exact absurd (h2.2 ⟨ps, e, e1, e2⟩) (by simp)
    next => exact settle_handles hy hn
  | notConfirmed hc =>
    simp only [confirm]
    cases e : extract m beaconConfirmation with
    | none => exact settle_handles hy hn
    | some w =>
      simp only
      split
      next => exact settle_handles hy hn
      next hne =>
        refine absurd ⟨w, (extract_iff _ _ _).1 e, ?_⟩ hc
        simp only [Bool.false_eq_true, false_iff]
        rintro ⟨ps, t, rfl, h2⟩
        exact hne t h2

/-- What is not waited for goes out. -/
theorem request_goes_out {s : State} {w : Waiter} {out : Out} (hp : cfg.packs out = true) (hq : s.sequence < 4294967296)
    (hs : ∀ s' out, env.sends s' out = true) (hn : s.pending.lookup s.sequence = none) :
    (request cfg env w s.sequence out (getSequence s).2).past = .sent w s.sequence out :: s.past := by
  unfold request
  rw [if_pos ⟨hp, hq⟩, if_neg (by show ¬ (s.pending.lookup s.sequence).isSome = true; rw [hn]; simp), if_pos (hs _ _)]
  rfl

theorem Inv.unused {xs : List Hand} {s : State} (h : Inv cfg xs s) : s.pending.lookup s.sequence = none := by
  cases e : s.pending.lookup s.sequence with
  | none => rfl
  | some w =>
    exfalso
    have := (lookup_perm h.keys e).mem_iff.2 List.mem_cons_self
    obtain ⟨⟨out, k1⟩, _⟩ := h.pend _ _ this
    exact Nat.lt_irrefl _ (h.sents _ _ _ k1)

/-- A connection starts a handshake. -/
theorem connected_asks {s : State} (h : Inv cfg [] s) (hp : cfg.packs .selfKey = true) (hq : s.sequence < 4294967296)
    (hs : ∀ s' out, env.sends s' out = true) :
    ∃ s' n, step cfg env s .connected = some s' ∧
      [.emitted .connected, .sent (.assign n true) s.sequence .selfKey, .assigning n true, .opened] ++ s.past <:+ s'.past := by
  refine ⟨_, s.next, rfl, ?_⟩
  have g := grows_enter (cfg := cfg) (env := env) (.emitted .connected) (assign cfg env true (s.push .opened))
  have e : (assign cfg env true (s.push .opened)).past =
      .sent (.assign s.next true) s.sequence .selfKey :: .assigning s.next true :: .opened :: s.past :=
    request_goes_out (s := ({ s.push .opened with next := s.next + 1 } : State).push (.assigning s.next true)) hp hq hs
      h.unused
  rw [e] at g
  exact g

/-- An id in the answer: the handshake goes on. -/
theorem key_goes_on {s : State} {i n : Nat} {m : Msg} {u : List Char} (hi : s.tasks[i]? = some (.answered (.assign n true) m))
    (hk : GivesKey m (.str u)) (hu : u.all jsSpace = false) :
    ∃ s', step cfg env s (.work i) = some s' ∧ .assigned n (.str u) ∈ s'.tasks ∧
      s'.past = .assignEnded n (some (.str u)) :: s.past := by
  refine ⟨_, by simp only [step, hi]; rfl, ?_⟩
  obtain ⟨ps, h1, h2⟩ := hk
  have h1 : extract m selfKeyResponse = some (.obj ps) := (extract_iff _ _ _).2 h1
  have h2 : TsServer.Js.prop (.obj ps) "uuid".toList = some (.str u) := h2
  simp only [work, onAssigned, h1, h2]
  have hsome : ∃ w, (setUuid (some (.str u)) { s with tasks := s.tasks.eraseIdx i }).uuid = some w := by
    simp only [setUuid, hu]
    cases e : s.uuid <;> simp [e]
  obtain ⟨w, hw⟩ := hsome
  rw [hw]
  refine ⟨?_, ?_⟩
  · simp [State.later]
  · simp [State.later, State.push, setUuid_past]

/-- Then the hashes are sent. -/
theorem assigned_asks {s : State} {i n : Nat} {v : Js} (h : Inv cfg [] s) (hi : s.tasks[i]? = some (.assigned n v))
    (hp : cfg.packs .hash = true) (hq : s.sequence < 4294967296) (hs : ∀ s' out, env.sends s' out = true) :
    ∃ s', step cfg env s (.work i) = some s' ∧ s'.past = .sent (.hash n v) s.sequence .hash :: s.past := by
  refine ⟨_, by simp only [step, hi]; rfl, ?_⟩
  exact request_goes_out (s := { s with tasks := s.tasks.eraseIdx i }) hp hq hs h.unused

/-- Then the client is ready. -/
theorem hash_ready {s : State} {i n : Nat} {v : Js} {m : Msg} (hi : s.tasks[i]? = some (.answered (.hash n v) m))
    (hm : AcceptsHash m) :
    ∃ s', step cfg env s (.work i) = some s' ∧ .emitted (.ready v) :: .shakeEnded n true :: s.past <:+ s'.past := by
  refine ⟨_, by simp only [step, hi]; rfl, ?_⟩
  obtain ⟨b, h1, h2⟩ := hm
  have h1 : extract m hashResponse = some b := (extract_iff _ _ _).2 h1
  have h3 : b.prop "error".toList = none := by
    cases e : b.prop "error".toList with
    | none => rfl
    | some v =>
      obtain ⟨ps, e1, e2⟩ := prop_some e
      rw [h2 ps e1] at e2
      cases e2
  simp only [work, onHash, h1, h3]
  exact grows_enter (.emitted (.ready v)) (({ s with tasks := s.tasks.eraseIdx i } : State).push (.shakeEnded n true))

/-! ### Types of messages -/

theorem get_nest (p : List Name) (b : Js) : get (TsServer.nest p b) p = some b := by
  induction p with
  | nil => rfl
  | cons n p ih => simp [TsServer.nest, get, TsServer.Js.prop, ih]

theorem isA_holds {m : Msg} {ref : Ref} (h : IsA m ref) : Holds m ref m.body := by
  rw [← extract_iff, extract, (isA_iff _ _).1 h]
  exact get_nest _ _

/-! ### Without data -/

theorem adds_quiet (js : List Input) (hj : ∀ j ∈ js, ∀ b, j ≠ .received b) (s : State) :
    Adds Other s (run cfg env js s).2 := by
  induction js generalizing s with
  | nil => exact Adds.refl s
  | cons j js ih =>
    cases e : step cfg env s j with
    | none => rw [run_cons_none e]; exact Adds.refl s
    | some s' =>
      rw [run_cons_some e]
      exact (adds_step (hj j (by simp)) e).trans (ih (fun k hk => hj k (by simp [hk])) s')

/-! ### Ends of calls -/

/-- What was sent and not answered has not ended. -/
theorem law_not_ended {h : List Act} (hl : Lawful cfg h) {n o q : Nat} {out : Out} {r : Result}
    (hs : .sent (.call n o) q out ∈ h) (he : .ended n r ∈ h) : ∃ q m, .delivered (.call n o) q m ∈ h := by
  obtain ⟨l1, l2, e⟩ := List.append_of_mem he
  have hl' := hl
  rw [e] at hl'
  obtain ⟨_, o', k, b, h1, h2, h3⟩ := hl'.at
  have mono : ∀ z ∈ l2, z ∈ h := fun z hz => by rw [e]; simp [hz]
  have hc : .called n o ∈ h := by
    obtain ⟨h', k1, k2⟩ := hl.cause hs
    exact k2 _ k1.1
  have ho := law_called_unique hl hc (mono _ h1)
  subst ho
  -- the message was sent before the end
  have hs2 : .sent (.call n o) q out ∈ l2 := by
    rw [e] at hs
    rcases List.mem_append.1 hs with k1 | k1
    · exfalso
      obtain ⟨a1, a2, ea⟩ := List.append_of_mem k1
      rw [ea] at hl'
      have : (a1 ++ Act.sent (.call n o) q out :: a2) ++ Act.ended n r :: l2 =
        a1 ++ Act.sent (.call n o) q out :: (a2 ++ Act.ended n r :: l2) := by simp
      rw [this] at hl'
      exact (hl'.at).2.2.2.2.2.1 r (by simp)
    · rcases List.mem_cons.1 k1 with k1 | k1
      · cases k1
      · exact k1
  cases r with
  | busy => exact absurd hs2 (h3.2 _ _)
  | gone =>
    rcases h3.2 with ⟨q', m, k1⟩ | k1
    · exact ⟨q', m, mono _ k1⟩
    · exact absurd hs2 (k1 _ _)
  | failed => exact absurd hs2 (h3 _ _)
  | threw =>
    obtain ⟨name, v, k1⟩ := h3
    obtain ⟨a1, a2, ea⟩ := List.append_of_mem k1
    have hl2 : Lawful cfg l2 := (Lawful.tail hl').2
    rw [ea] at hl2
    obtain ⟨_, _, o2, _, _, q', m, g1, _, g2, _⟩ := hl2.at
    have mono2 : ∀ z ∈ a2, z ∈ h := fun z hz => mono _ (by rw [ea]; simp [hz])
    have := law_called_unique hl hc (mono2 _ g1)
    subst this
    exact ⟨q', m, mono2 _ g2⟩
  | resolved ref v => obtain ⟨q', m, k1, _⟩ := h3; exact ⟨q', m, mono _ k1⟩
  | confirmed => obtain ⟨q', m, k1, _⟩ := h3; exact ⟨q', m, mono _ k1⟩
  | refused => obtain ⟨q', m, k1, _⟩ := h3; exact ⟨q', m, mono _ k1⟩
  | unexpected => obtain ⟨q', m, k1, _⟩ := h3; exact ⟨q', m, mono _ k1⟩

end

end Verif.TsClient
