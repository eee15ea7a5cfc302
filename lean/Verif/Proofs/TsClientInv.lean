import Verif.Spec.TsClient
import Verif.Proofs.TsServerBase
set_option autoImplicit false
/-! The invariant of a TypeScript client, and its elementary steps. -/
namespace Verif.TsClient

open Verif

/-- The number of the chain of promises a waiter belongs to. -/
def Waiter.thread : Waiter → Nat
  | .assign n _ => n
  | .hash n _ => n
  | .call n _ => n

def Waiter.obj : Waiter → Option Nat
  | .call _ o => some o
  | _ => none

def Task.thread : Task → Nat
  | .answered w _ => w.thread
  | .failed w => w.thread
  | .assigned n _ => n

def Task.waiter : Task → Option Waiter
  | .answered w _ => some w
  | .failed w => some w
  | .assigned _ _ => none

def threads (s : State) : List Nat := s.pending.map (fun p => p.2.thread) ++ s.tasks.map Task.thread

def waiters (s : State) : List Waiter := s.pending.map Prod.snd ++ s.tasks.filterMap Task.waiter

/-- The chain is finished. -/
def Ended (t : Nat) (h : List Act) : Prop := (∃ r, .ended t r ∈ h) ∨ ∃ ok, .shakeEnded t ok ∈ h

/-- Why a waiter waits. -/
def WaiterOK (w : Waiter) (h : List Act) : Prop :=
  match w with
  | .call n o => .called n o ∈ h ∧ ∀ name v, .handled n name v ∉ h
  | .assign n shake => .assigning n shake ∈ h ∧ (∀ r, .assignEnded n r ∉ h) ∧
      ∀ v q out, .sent (.hash n v) q out ∉ h
  | .hash n v => .assigning n true ∈ h ∧ KeyGiven n v h

/-- Why a job is there. -/
def TaskOK (t : Task) (h : List Act) : Prop :=
  match t with
  | .answered w m => ∃ q, .delivered w q m ∈ h
  | .failed w => ∀ q out, .sent w q out ∉ h
  | .assigned n v => .assigning n true ∈ h ∧ KeyGiven n v h ∧ ∀ v q out, .sent (.hash n v) q out ∉ h

/-- What a chain that runs at the moment has in its hands: its number, and the object it makes busy. -/
abbrev Hand := Nat × Option Nat

structure Inv (cfg : Cfg) (xs : List Hand) (s : State) : Prop where
  law : Lawful cfg s.past
  seq : 1 ≤ s.sequence
  keys : (s.pending.map Prod.fst).Nodup
  sents : ∀ w q out, .sent w q out ∈ s.past → q < s.sequence
  pend : ∀ q w, (q, w) ∈ s.pending → (∃ out, .sent w q out ∈ s.past) ∧
    ∀ w' q' m, .delivered w' q' m ∈ s.past → q'.toNat ≠ q
  waits : ∀ w q out, .sent w q out ∈ s.past →
    (∃ q' m, q'.toNat = q ∧ .delivered w q' m ∈ s.past) ∨ (q, w) ∈ s.pending
  nodup : (xs.map Prod.fst ++ threads s).Nodup
  live : ∀ t ∈ xs.map Prod.fst ++ threads s, t < s.next ∧ ¬ Ended t s.past
  waiter : ∀ w ∈ waiters s, WaiterOK w s.past
  task : ∀ t ∈ s.tasks, TaskOK t s.past
  fresh : ∀ n, s.next ≤ n → (∀ k b, .created n k b ∉ s.past) ∧ (∀ o, .called n o ∉ s.past) ∧
    ∀ b, .assigning n b ∉ s.past
  objs : ∀ o x, s.objs.lookup o = some x → .created o x.kind x.body ∈ s.past
  busy : ∀ o ∈ xs.filterMap Prod.snd ++ (waiters s).filterMap Waiter.obj,
    ∃ x, s.objs.lookup o = some x ∧ x.state ≠ .ready
  one : (xs.filterMap Prod.snd ++ (waiters s).filterMap Waiter.obj).Nodup
  used : ∀ o x, s.objs.lookup o = some x → x.state = .pending → ∃ n, .called n o ∈ s.past ∧
    (.ended n .failed ∈ s.past ∨ .call n o ∈ waiters s ∨ (n, some o) ∈ xs)
  gone : ∀ o x, s.objs.lookup o = some x → x.state = .destroyed → .destroyed o ∈ s.past
  calls : ∀ n o, .called n o ∈ s.past → Ended n s.past ∨ n ∈ threads s ∨ n ∈ xs.map Prod.fst
  shakes : ∀ n, .assigning n true ∈ s.past → Ended n s.past ∨ n ∈ threads s ∨ n ∈ xs.map Prod.fst

/-- The acts the invariant does not look at. -/
def Plain : Act → Prop
  | .created .. => False
  | .called .. => False
  | .assigning .. => False
  | .sent .. => False
  | .delivered .. => False
  | .ended .. => False
  | .shakeEnded .. => False
  | .assignEnded .. => False
  | .handled .. => False
  | _ => True

theorem Lawful.at {cfg : Cfg} {newer older : List Act} {a : Act} (h : Lawful cfg (newer ++ a :: older)) :
    Allowed cfg older a := by
  induction newer with
  | nil => exact h.1
  | cons b newer ih => exact ih h.2

theorem Lawful.tail {cfg : Cfg} {newer older : List Act} (h : Lawful cfg (newer ++ older)) :
    Lawful cfg older := by
  induction newer with
  | nil => exact h
  | cons b newer ih => exact ih h.2

theorem KeyGiven.cons {n : Nat} {v : Js} {h : List Act} (k : KeyGiven n v h) (a : Act) :
    KeyGiven n v (a :: h) := by
  obtain ⟨q, m, k1, k2⟩ := k
  exact ⟨q, m, List.mem_cons_of_mem _ k1, k2⟩

theorem inv_new (cfg : Cfg) : Inv cfg [] .new := by
  constructor <;> simp [State.new, Lawful, threads, waiters]

section
variable {cfg : Cfg} {xs : List Hand} {s : State}

/-- An act that changes nothing the invariant looks at. -/
theorem Inv.push (h : Inv cfg xs s) {a : Act} (hp : Plain a) (ha : Allowed cfg s.past a) :
    Inv cfg xs (s.push a) := by
  have e : ∀ b : Act, ¬ Plain b → (b ∈ (s.push a).past ↔ b ∈ s.past) := by
    intro b hb
    simp only [State.push, List.mem_cons]
    constructor
    · rintro (rfl | k)
      · exact absurd hp hb
      · exact k
    · exact .inr
  have mono : ∀ b ∈ s.past, b ∈ (s.push a).past := fun b hb => List.mem_cons_of_mem _ hb
  obtain ⟨h1, h2, h3, h4, h5, h6, h7, h8, h9, h10, h11, h12, h13, h14, h15, h16, h17, h18⟩ := h
  have hE : ∀ t, Ended t (s.push a).past ↔ Ended t s.past := by
    intro t
    simp only [Ended, e _ (show ¬ Plain (.ended t _) from id), e _ (show ¬ Plain (.shakeEnded t _) from id)]
  refine ⟨⟨ha, h1⟩, h2, h3, ?_, ?_, ?_, h7, ?_, ?_, ?_, ?_, ?_, h13, h14, ?_, ?_, ?_, ?_⟩
  · intro w q out k; exact h4 w q out ((e _ id).1 k)
  · intro q w k
    obtain ⟨⟨out, k1⟩, k2⟩ := h5 q w k
    exact ⟨⟨out, mono _ k1⟩, fun w' q' m k3 => k2 w' q' m ((e _ id).1 k3)⟩
  · intro w q out k
    rcases h6 w q out ((e _ id).1 k) with ⟨q', m, k1, k2⟩ | k1
    · exact .inl ⟨q', m, k1, mono _ k2⟩
    · exact .inr k1
  · intro t ht
    exact ⟨(h8 t ht).1, fun k => (h8 t ht).2 ((hE t).1 k)⟩
  · intro w hw
    have := h9 w hw
    cases w with
    | call n o => exact ⟨mono _ this.1, fun name v k => this.2 name v ((e _ id).1 k)⟩
    | assign n b => exact ⟨mono _ this.1, fun r k => this.2.1 r ((e _ id).1 k),
        fun v q out k => this.2.2 v q out ((e _ id).1 k)⟩
    | hash n v => exact ⟨mono _ this.1, this.2.cons a⟩
  · intro t ht
    have := h10 t ht
    cases t with
    | answered w m => obtain ⟨q, k⟩ := this; exact ⟨q, mono _ k⟩
    | failed w => exact fun q out k => this q out ((e _ id).1 k)
    | assigned n v =>
      exact ⟨mono _ this.1, this.2.1.cons a, fun v q out k => this.2.2 v q out ((e _ id).1 k)⟩
  · intro n hn
    obtain ⟨k1, k2, k3⟩ := h11 n hn
    exact ⟨fun k b j => k1 k b ((e _ id).1 j), fun o j => k2 o ((e _ id).1 j), fun b j => k3 b ((e _ id).1 j)⟩
  · intro o x hx; exact mono _ (h12 o x hx)
  · intro o x hx hs
    obtain ⟨n, k1, k2⟩ := h15 o x hx hs
    refine ⟨n, mono _ k1, ?_⟩
    rcases k2 with k2 | k2
    · exact .inl (mono _ k2)
    · exact .inr k2
  · intro o x hx hs; exact mono _ (h16 o x hx hs)
  · intro n o k
    rw [hE]
    exact h17 n o ((e _ id).1 k)
  · intro n k
    rw [hE]
    exact h18 n ((e _ id).1 k)

/-- The reader and the id do not matter. -/
theorem Inv.same {s' : State} (h : Inv cfg xs s) (h1 : s'.pending = s.pending) (h2 : s'.sequence = s.sequence)
    (h3 : s'.objs = s.objs) (h4 : s'.tasks = s.tasks) (h5 : s'.next = s.next) (h6 : s'.past = s.past) :
    Inv cfg xs s' := by
  obtain ⟨r, p, u, q, o, t, n, past⟩ := s
  obtain ⟨r', p', u', q', o', t', n', past'⟩ := s'
  simp only at h1 h2 h3 h4 h5 h6
  subst h1 h2 h3 h4 h5 h6
  obtain ⟨h1, h2, h3, h4, h5, h6, h7, h8, h9, h10, h11, h12, h13, h14, h15, h16, h17, h18⟩ := h
  exact ⟨h1, h2, h3, h4, h5, h6, h7, h8, h9, h10, h11, h12, h13, h14, h15, h16, h17, h18⟩

theorem Inv.number (h : Inv cfg xs s) : Inv cfg xs { s with sequence := s.sequence + 1 } := by
  obtain ⟨h1, h2, h3, h4, h5, h6, h7, h8, h9, h10, h11, h12, h13, h14, h15, h16, h17, h18⟩ := h
  refine ⟨h1, Nat.le_succ_of_le h2, h3, ?_, h5, h6, h7, h8, h9, h10, h11, h12, h13, h14, h15, h16, h17, h18⟩
  intro w q out k
  exact Nat.lt_succ_of_lt (h4 w q out k)

/-! ### Chains start and end -/

theorem thread_mem {w : Waiter} (hw : w ∈ waiters s) : w.thread ∈ threads s := by
  simp only [waiters, threads, List.mem_append, List.mem_map, List.mem_filterMap] at hw ⊢
  rcases hw with ⟨p, k1, k2⟩ | ⟨t, k1, k2⟩
  · exact .inl ⟨p, k1, by rw [k2]⟩
  · refine .inr ⟨t, k1, ?_⟩
    cases t <;> simp [Task.waiter] at k2 <;> subst k2 <;> rfl

theorem task_thread_mem {t : Task} (ht : t ∈ s.tasks) : t.thread ∈ threads s := by
  simp only [threads, List.mem_append, List.mem_map]
  exact .inr ⟨t, ht, rfl⟩

theorem hand_ne {n t : Nat} {ho : Option Nat} (h : Inv cfg ((n, ho) :: xs) s) (ht : t ∈ threads s) : t ≠ n := by
  have := h.nodup
  simp only [List.map_cons, List.cons_append, List.nodup_cons, List.mem_append] at this
  rintro rfl
  exact this.1 (.inr ht)

/-- `n` is the number of a chain that starts with the act. -/
theorem Inv.start (h : Inv cfg xs s) {a : Act}
    (ha : (∃ o k b, a = .called s.next o ∧ .created o k b ∈ s.past) ∨
      ∃ b, a = .assigning s.next b ∧ (b = true → ∃ h', s.past = .opened :: h')) :
    Inv cfg ((s.next, none) :: xs) (({ s with next := s.next + 1 } : State).push a) := by
  have e : ∀ b : Act, (∀ n o, b ≠ .called n o) → (∀ n c, b ≠ .assigning n c) → (b ∈ a :: s.past ↔ b ∈ s.past) := by
    intro b h1 h2
    simp only [List.mem_cons]
    constructor
    · rintro (rfl | k)
      · rcases ha with ⟨o, _, _, rfl, _⟩ | ⟨c, rfl, _⟩
        · exact absurd rfl (h1 _ _)
        · exact absurd rfl (h2 _ _)
      · exact k
    · exact .inr
  have mono : ∀ b ∈ s.past, b ∈ a :: s.past := fun b hb => List.mem_cons_of_mem _ hb
  have hf := h.fresh s.next (Nat.le_refl _)
  have hl : ∀ t, t ∈ xs.map Prod.fst ++ threads s → t ≠ s.next := by
    rintro t ht rfl
    exact absurd (h.live _ ht).1 (Nat.lt_irrefl _)
  have hE : ∀ t, Ended t (a :: s.past) ↔ Ended t s.past := by
    intro t
    simp only [Ended]
    rw [exists_congr (fun r => e (.ended t r) (by simp) (by simp)),
      exists_congr (fun r => e (.shakeEnded t r) (by simp) (by simp))]
  have hnE : ¬ Ended s.next s.past := by
    rintro (⟨r, k⟩ | ⟨ok, k⟩)
    · obtain ⟨l1, l2, e1⟩ := List.append_of_mem k
      have := h.law
      rw [e1] at this
      obtain ⟨_, o, _, _, k2, _⟩ := this.at
      exact hf.2.1 o (by rw [e1]; simp [k2])
    · obtain ⟨l1, l2, e1⟩ := List.append_of_mem k
      have := h.law
      rw [e1] at this
      exact hf.2.2 true (by rw [e1]; simp [this.at.2.1])
  obtain ⟨h1, h2, h3, h4, h5, h6, h7, h8, h9, h10, h11, h12, h13, h14, h15, h16, h17, h18⟩ := h
  refine ⟨⟨?_, h1⟩, h2, h3, ?_, ?_, ?_, ?_, ?_, ?_, ?_, ?_, ?_, h13, h14, ?_, ?_, ?_, ?_⟩
  · rcases ha with ⟨o, k, b, rfl, hc⟩ | ⟨b, rfl, hb⟩
    · exact ⟨⟨k, b, hc⟩, hf.2.1, hf.2.2⟩
    · exact ⟨hf.2.1, hf.2.2, hb⟩
  · intro w q out k; exact h4 w q out ((e _ (by simp) (by simp)).1 k)
  · intro q w k
    obtain ⟨⟨out, k1⟩, k2⟩ := h5 q w k
    exact ⟨⟨out, mono _ k1⟩, fun w' q' m k3 => k2 w' q' m ((e _ (by simp) (by simp)).1 k3)⟩
  · intro w q out k
    rcases h6 w q out ((e _ (by simp) (by simp)).1 k) with ⟨q', m, k1, k2⟩ | k1
    · exact .inl ⟨q', m, k1, mono _ k2⟩
    · exact .inr k1
  · rw [List.map_cons, List.cons_append, List.nodup_cons]
    exact ⟨fun k => hl _ k rfl, h7⟩
  · intro t ht
    rw [List.map_cons, List.cons_append, List.mem_cons] at ht
    refine ⟨?_, fun k => ?_⟩
    · rcases ht with rfl | ht
      · exact Nat.lt_succ_self _
      · exact Nat.lt_succ_of_lt (h8 t ht).1
    · rcases ht with rfl | ht
      · exact hnE ((hE _).1 k)
      · exact (h8 t ht).2 ((hE t).1 k)
  · intro w hw
    have := h9 w hw
    cases w with
    | call n o => exact ⟨mono _ this.1, fun name v k => this.2 name v ((e _ (by simp) (by simp)).1 k)⟩
    | assign n b => exact ⟨mono _ this.1, fun r k => this.2.1 r ((e _ (by simp) (by simp)).1 k),
        fun v q out k => this.2.2 v q out ((e _ (by simp) (by simp)).1 k)⟩
    | hash n v => exact ⟨mono _ this.1, this.2.cons a⟩
  · intro t ht
    have := h10 t ht
    cases t with
    | answered w m => obtain ⟨q, k⟩ := this; exact ⟨q, mono _ k⟩
    | failed w => exact fun q out k => this q out ((e _ (by simp) (by simp)).1 k)
    | assigned n v =>
      exact ⟨mono _ this.1, this.2.1.cons a, fun v q out k => this.2.2 v q out ((e _ (by simp) (by simp)).1 k)⟩
  · intro n hn
    have hn : s.next + 1 ≤ n := hn
    obtain ⟨k1, k2, k3⟩ := h11 n (by omega)
    refine ⟨fun k b j => k1 k b ((e _ (by simp) (by simp)).1 j), fun o j => ?_, fun b j => ?_⟩
    · rcases List.mem_cons.1 j with j | j
      · rcases ha with ⟨o', _, _, rfl, _⟩ | ⟨c, rfl, _⟩
        · cases j; omega
        · cases j
      · exact k2 o j
    · rcases List.mem_cons.1 j with j | j
      · rcases ha with ⟨o', _, _, rfl, _⟩ | ⟨c, rfl, _⟩
        · cases j
        · cases j; omega
      · exact k3 b j
  · intro o x hx; exact mono _ (h12 o x hx)
  · intro o x hx hs
    obtain ⟨n, k1, k2⟩ := h15 o x hx hs
    refine ⟨n, mono _ k1, ?_⟩
    rcases k2 with k2 | k2 | k2
    · exact .inl (mono _ k2)
    · exact .inr (.inl k2)
    · exact .inr (.inr (List.mem_cons_of_mem _ k2))
  · intro o x hx hs; exact mono _ (h16 o x hx hs)
  · intro n o k
    have hE' := hE n
    show Ended n (a :: s.past) ∨ _
    rw [hE']
    rcases List.mem_cons.1 k with k | k
    · rcases ha with ⟨o', _, _, rfl, _⟩ | ⟨c, rfl, _⟩
      · cases k; exact .inr (.inr List.mem_cons_self)
      · cases k
    · rcases h17 n o k with k | k | k
      · exact .inl k
      · exact .inr (.inl k)
      · exact .inr (.inr (List.mem_cons_of_mem _ k))
  · intro n k
    show Ended n (a :: s.past) ∨ _
    rw [hE n]
    rcases List.mem_cons.1 k with k | k
    · rcases ha with ⟨o', _, _, rfl, _⟩ | ⟨c, rfl, _⟩
      · cases k
      · cases k; exact .inr (.inr List.mem_cons_self)
    · rcases h18 n k with k | k | k
      · exact .inl k
      · exact .inr (.inl k)
      · exact .inr (.inr (List.mem_cons_of_mem _ k))

/-- Acts of the chain in hand. -/
def Own (n : Nat) (a : Act) : Prop :=
  (∃ r, a = .ended n r) ∨ (∃ ok, a = .shakeEnded n ok) ∨ (∃ r, a = .assignEnded n r) ∨
    ∃ name v, a = .handled n name v

/-- The parts of the invariant that an act of the chain in hand keeps. -/
theorem own_keeps {n : Nat} {ho : Option Nat} (h : Inv cfg ((n, ho) :: xs) s) {a : Act} (hn : Own n a) :
    (∀ w q out, .sent w q out ∈ a :: s.past → q < s.sequence) ∧
    (∀ q w, (q, w) ∈ s.pending → (∃ out, .sent w q out ∈ a :: s.past) ∧
      ∀ w' q' m, .delivered w' q' m ∈ a :: s.past → q'.toNat ≠ q) ∧
    (∀ w q out, .sent w q out ∈ a :: s.past →
      (∃ q' m, q'.toNat = q ∧ .delivered w q' m ∈ a :: s.past) ∨ (q, w) ∈ s.pending) ∧
    (∀ t ∈ xs.map Prod.fst ++ threads s, t < s.next ∧ ¬ Ended t (a :: s.past)) ∧
    (∀ w ∈ waiters s, WaiterOK w (a :: s.past)) ∧
    (∀ t ∈ s.tasks, TaskOK t (a :: s.past)) ∧
    (∀ n, s.next ≤ n → (∀ k b, .created n k b ∉ a :: s.past) ∧ (∀ o, .called n o ∉ a :: s.past) ∧
      ∀ b, .assigning n b ∉ a :: s.past) := by
  have e : ∀ b : Act, ¬ Own n b → (b ∈ a :: s.past ↔ b ∈ s.past) := by
    intro b hb
    simp only [List.mem_cons]
    constructor
    · rintro (rfl | k)
      · exact absurd hn hb
      · exact k
    · exact .inr
  have mono : ∀ b ∈ s.past, b ∈ a :: s.past := fun b hb => List.mem_cons_of_mem _ hb
  have hnd := h.nodup
  simp only [List.map_cons, List.cons_append, List.nodup_cons] at hnd
  have hne : ∀ t ∈ xs.map Prod.fst ++ threads s, t ≠ n := by
    rintro t ht rfl
    exact hnd.1 ht
  have hne' : ∀ t ∈ threads s, t ≠ n := fun t ht => hne t (List.mem_append_right _ ht)
  refine ⟨?_, ?_, ?_, ?_, ?_, ?_, ?_⟩
  · intro w q out k; exact h.sents w q out ((e _ (by simp [Own])).1 k)
  · intro q w k
    obtain ⟨⟨out, k1⟩, k2⟩ := h.pend q w k
    exact ⟨⟨out, mono _ k1⟩, fun w' q' m k3 => k2 w' q' m ((e _ (by simp [Own])).1 k3)⟩
  · intro w q out k
    rcases h.waits w q out ((e _ (by simp [Own])).1 k) with ⟨q', m, k1, k2⟩ | k1
    · exact .inl ⟨q', m, k1, mono _ k2⟩
    · exact .inr k1
  · intro t ht
    have := h.live t (by rw [List.map_cons, List.cons_append]; exact List.mem_cons_of_mem _ ht)
    refine ⟨this.1, ?_⟩
    rintro (⟨r, k⟩ | ⟨ok, k⟩)
    · exact this.2 (.inl ⟨r, (e _ (by simp [Own, hne t ht])).1 k⟩)
    · exact this.2 (.inr ⟨ok, (e _ (by simp [Own, hne t ht])).1 k⟩)
  · intro w hw
    have := h.waiter w hw
    have hw' := hne' _ (thread_mem hw)
    cases w with
    | call m o => exact ⟨mono _ this.1, fun name v k => this.2 name v ((e _ (by simpa [Own, Waiter.thread] using hw')).1 k)⟩
    | assign m b => exact ⟨mono _ this.1, fun r k => this.2.1 r ((e _ (by simpa [Own, Waiter.thread] using hw')).1 k),
        fun v q out k => this.2.2 v q out ((e _ (by simp [Own])).1 k)⟩
    | hash m v => exact ⟨mono _ this.1, this.2.cons a⟩
  · intro t ht
    have := h.task t ht
    cases t with
    | answered w m => obtain ⟨q, k⟩ := this; exact ⟨q, mono _ k⟩
    | failed w => exact fun q out k => this q out ((e _ (by simp [Own])).1 k)
    | assigned m v =>
      exact ⟨mono _ this.1, this.2.1.cons a, fun v q out k => this.2.2 v q out ((e _ (by simp [Own])).1 k)⟩
  · intro m hm
    obtain ⟨k1, k2, k3⟩ := h.fresh m hm
    exact ⟨fun k b j => k1 k b ((e _ (by simp [Own])).1 j), fun o j => k2 o ((e _ (by simp [Own])).1 j),
      fun b j => k3 b ((e _ (by simp [Own])).1 j)⟩

/-- The chain in hand goes on. -/
theorem Inv.note {n : Nat} {ho : Option Nat} (h : Inv cfg ((n, ho) :: xs) s) {a : Act}
    (hn : (∃ r, a = .assignEnded n r) ∨ ∃ name v, a = .handled n name v) (ha : Allowed cfg s.past a) :
    Inv cfg ((n, ho) :: xs) (s.push a) := by
  obtain ⟨k1, k2, k3, k4, k5, k6, k7⟩ := own_keeps h (.inr (.inr hn))
  have e : ∀ t, Ended t (a :: s.past) ↔ Ended t s.past := by
    intro t
    rcases hn with ⟨r, rfl⟩ | ⟨name, v, rfl⟩ <;> simp [Ended]
  have e2 : ∀ m o, .called m o ∈ a :: s.past → .called m o ∈ s.past := by
    intro m o; rcases hn with ⟨r, rfl⟩ | ⟨name, v, rfl⟩ <;> simp
  have e3 : ∀ m, .assigning m true ∈ a :: s.past → .assigning m true ∈ s.past := by
    intro m; rcases hn with ⟨r, rfl⟩ | ⟨name, v, rfl⟩ <;> simp
  refine ⟨⟨ha, h.law⟩, h.seq, h.keys, k1, k2, k3, h.nodup, ?_, k5, k6, k7, ?_, h.busy, h.one, ?_, ?_, ?_, ?_⟩
  · intro t ht
    exact ⟨(h.live t ht).1, fun k => (h.live t ht).2 ((e t).1 k)⟩
  · intro o x hx; exact List.mem_cons_of_mem _ (h.objs o x hx)
  · intro o x hx hs
    obtain ⟨m, j1, j2⟩ := h.used o x hx hs
    refine ⟨m, List.mem_cons_of_mem _ j1, ?_⟩
    rcases j2 with j2 | j2
    · exact .inl (List.mem_cons_of_mem _ j2)
    · exact .inr j2
  · intro o x hx hs; exact List.mem_cons_of_mem _ (h.gone o x hx hs)
  · intro m o k
    show Ended m (a :: s.past) ∨ _
    rw [e]
    exact h.calls m o (e2 m o k)
  · intro m k
    show Ended m (a :: s.past) ∨ _
    rw [e]
    exact h.shakes m (e3 m k)

/-- The chain in hand ends. -/
theorem Inv.finish {n : Nat} {ho : Option Nat} (h : Inv cfg ((n, ho) :: xs) s) {a : Act}
    (hn : (∃ r, a = .ended n r) ∨ ∃ ok, a = .shakeEnded n ok) (ha : Allowed cfg s.past a)
    (hf : ∀ o x, ho = some o → s.objs.lookup o = some x → x.state = .pending → a = .ended n .failed) :
    Inv cfg xs (s.push a) := by
  obtain ⟨k1, k2, k3, k4, k5, k6, k7⟩ := own_keeps h (by rcases hn with k | k; exact .inl k; exact .inr (.inl k))
  have e : ∀ t, Ended t s.past ∨ t = n → Ended t (a :: s.past) := by
    rintro t ((⟨r, k⟩ | ⟨ok, k⟩) | rfl)
    · exact .inl ⟨r, List.mem_cons_of_mem _ k⟩
    · exact .inr ⟨ok, List.mem_cons_of_mem _ k⟩
    · rcases hn with ⟨r, rfl⟩ | ⟨ok, rfl⟩
      · exact .inl ⟨r, List.mem_cons_self⟩
      · exact .inr ⟨ok, List.mem_cons_self⟩
  have e2 : ∀ m o, .called m o ∈ a :: s.past → .called m o ∈ s.past := by
    intro m o; rcases hn with ⟨r, rfl⟩ | ⟨ok, rfl⟩ <;> simp
  have e3 : ∀ m, .assigning m true ∈ a :: s.past → .assigning m true ∈ s.past := by
    intro m; rcases hn with ⟨r, rfl⟩ | ⟨ok, rfl⟩ <;> simp
  have hnd := h.nodup
  simp only [List.map_cons, List.cons_append, List.nodup_cons] at hnd
  refine ⟨⟨ha, h.law⟩, h.seq, h.keys, k1, k2, k3, hnd.2, k4, k5, k6, k7, ?_, ?_, ?_, ?_, ?_, ?_, ?_⟩
  · intro o x hx; exact List.mem_cons_of_mem _ (h.objs o x hx)
  · intro o ho'
    refine h.busy o ?_
    cases ho with
    | none => exact ho'
    | some z => simp only [List.filterMap_cons, List.cons_append, List.mem_cons]; exact .inr ho'
  · have := h.one
    cases ho with
    | none => exact this
    | some z => simp only [List.filterMap_cons, List.cons_append, List.nodup_cons] at this; exact this.2
  · intro o x hx hs
    obtain ⟨m, j1, j2⟩ := h.used o x hx hs
    refine ⟨m, List.mem_cons_of_mem _ j1, ?_⟩
    rcases j2 with j2 | j2 | j2
    · exact .inl (List.mem_cons_of_mem _ j2)
    · exact .inr (.inl j2)
    · rcases List.mem_cons.1 j2 with j2 | j2
      · cases j2
        left
        rw [hf o x rfl hx hs]
        exact List.mem_cons_self
      · exact .inr (.inr j2)
  · intro o x hx hs; exact List.mem_cons_of_mem _ (h.gone o x hx hs)
  · intro m o k
    rcases h.calls m o (e2 m o k) with k | k | k
    · exact .inl (e m (.inl k))
    · exact .inr (.inl k)
    · rcases List.mem_cons.1 k with k | k
      · exact .inl (e m (.inr k))
      · exact .inr (.inr k)
  · intro m k
    rcases h.shakes m (e3 m k) with k | k | k
    · exact .inl (e m (.inl k))
    · exact .inr (.inl k)
    · rcases List.mem_cons.1 k with k | k
      · exact .inl (e m (.inr k))
      · exact .inr (.inr k)

/-- The chain in hand needs no end. -/
theorem Inv.forget {n : Nat} (h : Inv cfg ((n, none) :: xs) s) (hn : .assigning n false ∈ s.past) :
    Inv cfg xs s := by
  have hnd := h.nodup
  simp only [List.map_cons, List.cons_append, List.nodup_cons] at hnd
  have hc : ∀ o, .called n o ∉ s.past := by
    intro o ho
    obtain ⟨l1, l2, e1⟩ := List.append_of_mem hn
    have hl := h.law
    rw [e1] at hl ho
    rcases List.mem_append.1 ho with k | k
    · obtain ⟨l3, l4, e2⟩ := List.append_of_mem k
      rw [e2, List.append_assoc] at hl
      exact hl.at.2.2 false (by simp)
    · rcases List.mem_cons.1 k with k | k
      · cases k
      · exact hl.at.1 o k
  have ha : .assigning n true ∉ s.past := by
    intro ho
    obtain ⟨l1, l2, e1⟩ := List.append_of_mem hn
    have hl := h.law
    rw [e1] at hl ho
    rcases List.mem_append.1 ho with k | k
    · obtain ⟨l3, l4, e2⟩ := List.append_of_mem k
      rw [e2, List.append_assoc] at hl
      exact hl.at.2.1 false (by simp)
    · rcases List.mem_cons.1 k with k | k
      · cases k
      · exact hl.at.2.1 true k
  refine ⟨h.law, h.seq, h.keys, h.sents, h.pend, h.waits, hnd.2, ?_, h.waiter, h.task, h.fresh, h.objs, ?_, ?_, ?_, h.gone, ?_, ?_⟩
  · intro t ht
    exact h.live t (by rw [List.map_cons, List.cons_append]; exact List.mem_cons_of_mem _ ht)
  · intro o ho'; exact h.busy o (by simpa using ho')
  · simpa using h.one
  · intro o x hx hs
    obtain ⟨m, j1, j2⟩ := h.used o x hx hs
    refine ⟨m, j1, ?_⟩
    rcases j2 with j2 | j2 | j2
    · exact .inl j2
    · exact .inr (.inl j2)
    · rcases List.mem_cons.1 j2 with j2 | j2
      · cases j2
      · exact .inr (.inr j2)
  · intro m o k
    rcases h.calls m o k with j | j | j
    · exact .inl j
    · exact .inr (.inl j)
    · rcases List.mem_cons.1 j with j | j
      · have j : m = n := j
        subst j; exact absurd k (hc o)
      · exact .inr (.inr j)
  · intro m k
    rcases h.shakes m k with j | j | j
    · exact .inl j
    · exact .inr (.inl j)
    · rcases List.mem_cons.1 j with j | j
      · have j : m = n := j
        subst j; exact absurd k ha
      · exact .inr (.inr j)

end

end Verif.TsClient
