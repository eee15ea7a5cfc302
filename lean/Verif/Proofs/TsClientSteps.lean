import Verif.Proofs.TsClientInv
set_option autoImplicit false
/-!
The remaining small steps of a TypeScript client: chains are parked and taken up again, objects change.
-/
namespace Verif.TsClient

open Verif

section
variable {cfg : Cfg} {xs : List Hand} {s : State}

/-- The hand a job makes when it runs. -/
def Task.hand (t : Task) : Hand := (t.thread, t.waiter.bind Waiter.obj)

/-- The hand of a waiter. -/
def Waiter.hand (w : Waiter) : Hand := (w.thread, w.obj)

theorem hand_call {w : Waiter} {n o : Nat} (h : w.hand = (n, some o)) : w = .call n o := by
  cases w <;> simp_all [Waiter.hand, Waiter.thread, Waiter.obj]

theorem task_hand_call {t : Task} {n o : Nat} (h : t.hand = (n, some o)) : t.waiter = some (.call n o) := by
  cases t with
  | assigned => simp [Task.hand, Task.waiter] at h
  | answered w m =>
    have : w.hand = (n, some o) := h
    rw [hand_call this]; rfl
  | failed w =>
    have : w.hand = (n, some o) := h
    rw [hand_call this]; rfl

theorem task_hand_waiter {t : Task} {w : Waiter} (h : t.waiter = some w) : t.hand = w.hand := by
  cases t <;> simp [Task.waiter] at h <;> subst h <;> rfl

theorem threads_perm {p p' : List (Nat × Waiter)} {ts ts' : List Task} {s : State} (h1 : p.Perm p') (h2 : ts.Perm ts') :
    (threads { s with pending := p, tasks := ts }).Perm (threads { s with pending := p', tasks := ts' }) :=
  (h1.map _).append (h2.map _)

theorem waiters_perm {p p' : List (Nat × Waiter)} {ts ts' : List Task} {s : State} (h1 : p.Perm p') (h2 : ts.Perm ts') :
    (waiters { s with pending := p, tasks := ts }).Perm (waiters { s with pending := p', tasks := ts' }) :=
  (h1.map _).append (h2.filterMap _)

theorem threads_task (t : Task) (ts : List Task) (s : State) :
    (threads { s with tasks := t :: ts }).Perm (t.thread :: threads { s with tasks := ts }) := by
  simp only [threads, List.map_cons]
  exact List.perm_middle

theorem waiters_task (t : Task) (ts : List Task) (s : State) :
    (waiters { s with tasks := t :: ts }).Perm (t.waiter.toList ++ waiters { s with tasks := ts }) := by
  simp only [waiters, List.filterMap_cons]
  cases t.waiter with
  | none => exact List.Perm.refl _
  | some w => exact List.perm_middle

/-- All that is in hand or waits, when a job is parked. -/
theorem perms {ts ts' : List Task} {t : Task} (hp : ts'.Perm (t :: ts)) :
    (xs.map Prod.fst ++ threads { s with tasks := ts' }).Perm
      ((t.hand :: xs).map Prod.fst ++ threads { s with tasks := ts }) ∧
    (xs.filterMap Prod.snd ++ (waiters { s with tasks := ts' }).filterMap Waiter.obj).Perm
      ((t.hand :: xs).filterMap Prod.snd ++ (waiters { s with tasks := ts }).filterMap Waiter.obj) := by
  have h1 : (threads { s with tasks := ts' }).Perm (t.thread :: threads { s with tasks := ts }) :=
    (threads_perm (s := s) (List.Perm.refl s.pending) hp).trans (threads_task t ts s)
  have h2 : (waiters { s with tasks := ts' }).Perm (t.waiter.toList ++ waiters { s with tasks := ts }) :=
    (waiters_perm (s := s) (List.Perm.refl s.pending) hp).trans (waiters_task t ts s)
  refine ⟨?_, ?_⟩
  · refine ((List.Perm.refl _).append h1).trans ?_
    simp only [List.map_cons, List.cons_append]
    exact List.perm_middle
  · refine ((List.Perm.refl _).append (h2.filterMap _)).trans ?_
    cases e : t.waiter with
    | none => simp [Task.hand, e]
    | some w =>
      cases e2 : w.obj with
      | none => simp [Task.hand, e, e2]
      | some o => simp only [Task.hand, e, e2, Option.toList, Option.bind_some, List.filterMap_cons, List.filterMap_append, List.cons_append]
                  simp

/-- A chain in hand is parked as a job. -/
theorem Inv.parkTask {ts' : List Task} {t : Task} (h : Inv cfg (t.hand :: xs) s) (hp : ts'.Perm (t :: s.tasks))
    (hw : ∀ w, t.waiter = some w → WaiterOK w s.past) (ht : TaskOK t s.past) :
    Inv cfg xs { s with tasks := ts' } := by
  obtain ⟨p1, p2⟩ := perms (xs := xs) (s := s) hp
  have e : ({ s with tasks := s.tasks } : State) = s := rfl
  rw [e] at p1 p2
  have h2 : (waiters { s with tasks := ts' }).Perm (t.waiter.toList ++ waiters s) :=
    (waiters_perm (s := s) (List.Perm.refl s.pending) hp).trans (waiters_task t s.tasks s)
  have m1 : ∀ n, n ∈ threads s ∨ n ∈ (t.hand :: xs).map Prod.fst →
      n ∈ threads { s with tasks := ts' } ∨ n ∈ xs.map Prod.fst := by
    intro n hn
    have : n ∈ (t.hand :: xs).map Prod.fst ++ threads s := List.mem_append.2 hn.symm
    exact (List.mem_append.1 (p1.mem_iff.2 this)).symm
  refine ⟨h.law, h.seq, h.keys, h.sents, h.pend, h.waits, p1.nodup_iff.2 h.nodup, ?_, ?_, ?_, h.fresh, h.objs, ?_,
    p2.nodup_iff.2 h.one, ?_, h.gone, ?_, ?_⟩
  · intro n hn; exact h.live n (p1.mem_iff.1 hn)
  · intro w k
    rcases List.mem_append.1 (h2.mem_iff.1 k) with k | k
    · exact hw w (by simpa using k)
    · exact h.waiter w k
  · intro t' k
    rcases List.mem_cons.1 (hp.mem_iff.1 k) with rfl | k
    · exact ht
    · exact h.task t' k
  · intro o ho; exact h.busy o (p2.mem_iff.1 ho)
  · intro o x hx hs
    obtain ⟨n, k1, k2⟩ := h.used o x hx hs
    refine ⟨n, k1, ?_⟩
    rcases k2 with k2 | k2 | k2
    · exact .inl k2
    · exact .inr (.inl (h2.mem_iff.2 (List.mem_append_right _ k2)))
    · rcases List.mem_cons.1 k2 with k2 | k2
      · refine .inr (.inl (h2.mem_iff.2 (List.mem_append_left _ ?_)))
        rw [task_hand_call k2.symm]; simp
      · exact .inr (.inr k2)
  · intro n o k
    rcases h.calls n o k with k | k
    · exact .inl k
    · exact .inr (m1 n k)
  · intro n k
    rcases h.shakes n k with k | k
    · exact .inl k
    · exact .inr (m1 n k)

theorem Inv.later {t : Task} (h : Inv cfg (t.hand :: xs) s)
    (hw : ∀ w, t.waiter = some w → WaiterOK w s.past) (ht : TaskOK t s.past) : Inv cfg xs (s.later t) :=
  h.parkTask (ts' := s.tasks ++ [t]) (by simp) hw ht

theorem getElem_erase_perm {α : Type} (l : List α) (i : Nat) (h : i < l.length) :
    (l[i] :: l.eraseIdx i).Perm l := by
  induction l generalizing i with
  | nil => simp at h
  | cons a l ih =>
    cases i with
    | zero => exact List.Perm.refl _
    | succ i =>
      have := ih i (by simpa using h)
      exact (List.Perm.swap _ _ _).trans (this.cons a)

/-- A job is taken up. -/
theorem Inv.take {i : Nat} {t : Task} (h : Inv cfg xs s) (hi : s.tasks[i]? = some t) :
    Inv cfg (t.hand :: xs) { s with tasks := s.tasks.eraseIdx i } ∧ TaskOK t s.past ∧
      ∀ w, t.waiter = some w → WaiterOK w s.past := by
  obtain ⟨hl, hi'⟩ := List.getElem?_eq_some_iff.1 hi
  have hp : s.tasks.Perm (t :: s.tasks.eraseIdx i) := by
    rw [← hi']
    exact (getElem_erase_perm s.tasks i hl).symm
  have htm : t ∈ s.tasks := hi' ▸ List.getElem_mem hl
  obtain ⟨p1, p2⟩ := perms (xs := xs) (s := s) hp
  have e : ({ s with tasks := s.tasks } : State) = s := rfl
  rw [e] at p1 p2
  have h2 : (waiters s).Perm (t.waiter.toList ++ waiters { s with tasks := s.tasks.eraseIdx i }) := by
    have := (waiters_perm (s := s) (List.Perm.refl s.pending) hp).trans (waiters_task t (s.tasks.eraseIdx i) s)
    rwa [show ({ s with pending := s.pending, tasks := s.tasks } : State) = s from rfl] at this
  have m1 : ∀ n, n ∈ threads s ∨ n ∈ xs.map Prod.fst →
      n ∈ threads { s with tasks := s.tasks.eraseIdx i } ∨ n ∈ (t.hand :: xs).map Prod.fst := by
    intro n hn
    have : n ∈ xs.map Prod.fst ++ threads s := List.mem_append.2 hn.symm
    exact (List.mem_append.1 (p1.mem_iff.1 this)).symm
  refine ⟨⟨h.law, h.seq, h.keys, h.sents, h.pend, h.waits, p1.nodup_iff.1 h.nodup, ?_, ?_, ?_, h.fresh, h.objs, ?_,
    p2.nodup_iff.1 h.one, ?_, h.gone, ?_, ?_⟩, h.task t htm, ?_⟩
  · intro n hn; exact h.live n (p1.mem_iff.2 hn)
  · intro w k; exact h.waiter w (h2.mem_iff.2 (List.mem_append_right _ k))
  · intro t' k; exact h.task t' (hp.mem_iff.2 (List.mem_cons_of_mem _ k))
  · intro o ho; exact h.busy o (p2.mem_iff.2 ho)
  · intro o x hx hs
    obtain ⟨n, k1, k2⟩ := h.used o x hx hs
    refine ⟨n, k1, ?_⟩
    rcases k2 with k2 | k2 | k2
    · exact .inl k2
    · rcases List.mem_append.1 (h2.mem_iff.1 k2) with k2 | k2
      · refine .inr (.inr (List.mem_cons.2 (.inl ?_)))
        have : t.waiter = some (.call n o) := by simpa using k2
        rw [task_hand_waiter this]; rfl
      · exact .inr (.inl k2)
    · exact .inr (.inr (List.mem_cons_of_mem _ k2))
  · intro n o k
    rcases h.calls n o k with k | k
    · exact .inl k
    · exact .inr (m1 n k)
  · intro n k
    rcases h.shakes n k with k | k
    · exact .inl k
    · exact .inr (m1 n k)
  · intro w k
    exact h.waiter w (h2.mem_iff.2 (List.mem_append_left _ (by simp [k])))

/-- What is sent has a cause. -/
theorem Lawful.cause {h : List Act} (hl : Lawful cfg h) {w : Waiter} {q : Nat} {out : Out} (k : .sent w q out ∈ h) :
    ∃ h', Cause w out h' ∧ ∀ a ∈ h', a ∈ h := by
  obtain ⟨l1, l2, e⟩ := List.append_of_mem k
  rw [e] at hl
  exact ⟨l2, hl.at.2.2.2.2, fun a ha => by rw [e]; simp [ha]⟩

/-- A chain in hand sends a message and waits for the answer. -/
theorem Inv.parkSent {w : Waiter} {q : Nat} {out : Out} (h : Inv cfg (w.hand :: xs) s)
    (hq : 1 ≤ q) (hq2 : q < 4294967296) (hs : q < s.sequence) (hm : ∀ w q' out, .sent w q' out ∈ s.past → q' < q)
    (hn : ∀ q out, .sent w q out ∉ s.past) (hc : Cause w out s.past) (hw : WaiterOK w s.past) :
    Inv cfg xs (({ s with pending := (q, w) :: s.pending } : State).push (.sent w q out)) := by
  have mono : ∀ b ∈ s.past, b ∈ Act.sent w q out :: s.past := fun b hb => List.mem_cons_of_mem _ hb
  have e : ∀ b : Act, (∀ w q out, b ≠ .sent w q out) → (b ∈ Act.sent w q out :: s.past ↔ b ∈ s.past) := by
    intro b hb
    simp only [List.mem_cons]
    constructor
    · rintro (rfl | k)
      · exact absurd rfl (hb _ _ _)
      · exact k
    · exact .inr
  have hE : ∀ t, Ended t (Act.sent w q out :: s.past) ↔ Ended t s.past := by
    intro t
    simp [Ended]
  have hk : ∀ w', (q, w') ∉ s.pending := by
    intro w' k
    obtain ⟨⟨out', k1⟩, _⟩ := h.pend q w' k
    exact absurd (hm _ _ _ k1) (Nat.lt_irrefl _)
  have hnd := h.nodup
  have hmid : ((w.hand :: xs).map Prod.fst ++ threads s).Perm
      (xs.map Prod.fst ++ (w.thread :: threads s)) := by
    simp only [List.map_cons, List.cons_append]
    exact List.perm_middle.symm
  have hone : ((w.hand :: xs).filterMap Prod.snd ++ (waiters s).filterMap Waiter.obj).Perm
      (xs.filterMap Prod.snd ++ (w :: waiters s).filterMap Waiter.obj) := by
    cases e2 : w.obj with
    | none => simp [Waiter.hand, e2]
    | some o => simpa [Waiter.hand, e2] using List.perm_middle.symm
  have m1 : ∀ n, n ∈ threads s ∨ n ∈ (w.hand :: xs).map Prod.fst →
      n ∈ w.thread :: threads s ∨ n ∈ xs.map Prod.fst := by
    intro n hn
    have : n ∈ (w.hand :: xs).map Prod.fst ++ threads s := List.mem_append.2 hn.symm
    exact (List.mem_append.1 (hmid.mem_iff.1 this)).symm
  have hne : ∀ t ∈ threads s, t ≠ w.thread := by
    intro t ht
    exact hand_ne (n := w.thread) (ho := w.obj) h ht
  refine ⟨⟨⟨hq, hq2, hm, hn, hc⟩, h.law⟩, h.seq, ?_, ?_, ?_, ?_, hmid.nodup_iff.1 h.nodup, ?_, ?_, ?_, ?_, ?_, ?_,
    hone.nodup_iff.1 h.one, ?_, ?_, ?_, ?_⟩
  · show (q :: s.pending.map Prod.fst).Nodup
    rw [List.nodup_cons]
    refine ⟨fun k => ?_, h.keys⟩
    obtain ⟨⟨q', w'⟩, k1, k2⟩ := List.mem_map.1 k
    have k2 : q' = q := k2
    subst k2
    exact hk w' k1
  · intro w' q' out' k
    rcases List.mem_cons.1 k with k | k
    · cases k; exact hs
    · exact h.sents w' q' out' k
  · intro q' w' k
    rcases List.mem_cons.1 k with k | k
    · cases k
      refine ⟨⟨out, List.mem_cons_self⟩, fun w'' q'' m k2 k3 => ?_⟩
      have k2 := (e _ (by simp)).1 k2
      obtain ⟨l1, l2, e1⟩ := List.append_of_mem k2
      have hl := h.law
      rw [e1] at hl
      obtain ⟨⟨out', k4⟩, _⟩ := hl.at
      have := hm w'' q''.toNat out' (by rw [e1]; simp [k4])
      omega
    · obtain ⟨⟨out', k1⟩, k2⟩ := h.pend q' w' k
      exact ⟨⟨out', mono _ k1⟩, fun w'' q'' m k3 => k2 w'' q'' m ((e _ (by simp)).1 k3)⟩
  · intro w' q' out' k
    rcases List.mem_cons.1 k with k | k
    · cases k; exact .inr List.mem_cons_self
    · rcases h.waits w' q' out' k with ⟨q'', m, k1, k2⟩ | k1
      · exact .inl ⟨q'', m, k1, mono _ k2⟩
      · exact .inr (List.mem_cons_of_mem _ k1)
  · intro t ht
    have := h.live t (hmid.mem_iff.2 ht)
    exact ⟨this.1, fun k => this.2 ((hE t).1 k)⟩
  · intro w' k
    rcases List.mem_cons.1 k with rfl | k
    · cases w' with
      | call n o => exact ⟨mono _ hw.1, fun name v k => hw.2 name v ((e _ (by simp)).1 k)⟩
      | assign n b =>
        refine ⟨mono _ hw.1, fun r k => hw.2.1 r ((e _ (by simp)).1 k), fun v q out k => hw.2.2 v q out ?_⟩
        rcases List.mem_cons.1 k with k | k
        · cases k
        · exact k
      | hash n v => exact ⟨mono _ hw.1, hw.2.cons _⟩
    · have this := h.waiter w' k
      have hne' := hne _ (thread_mem k)
      cases w' with
      | call n o => exact ⟨mono _ this.1, fun name v k => this.2 name v ((e _ (by simp)).1 k)⟩
      | assign n b =>
        refine ⟨mono _ this.1, fun r k => this.2.1 r ((e _ (by simp)).1 k), fun v q' out' k => ?_⟩
        rcases List.mem_cons.1 k with k | k
        · cases k; exact hne' rfl
        · exact this.2.2 v q' out' k
      | hash n v => exact ⟨mono _ this.1, this.2.cons _⟩
  · intro t k
    have this := h.task t k
    have hne' := hne _ (task_thread_mem k)
    cases t with
    | answered w m => obtain ⟨q, k⟩ := this; exact ⟨q, mono _ k⟩
    | failed w' =>
      intro q' out' k
      rcases List.mem_cons.1 k with k | k
      · cases k; exact hne' rfl
      · exact this q' out' k
    | assigned n v =>
      refine ⟨mono _ this.1, this.2.1.cons _, fun v q' out' k => ?_⟩
      rcases List.mem_cons.1 k with k | k
      · cases k; exact hne' rfl
      · exact this.2.2 v q' out' k
  · intro n hn
    obtain ⟨k1, k2, k3⟩ := h.fresh n hn
    exact ⟨fun k b j => k1 k b ((e _ (by simp)).1 j), fun o j => k2 o ((e _ (by simp)).1 j),
      fun b j => k3 b ((e _ (by simp)).1 j)⟩
  · intro o x hx; exact mono _ (h.objs o x hx)
  · intro o ho; exact h.busy o (hone.mem_iff.2 ho)
  · intro o x hx hs'
    obtain ⟨n, k1, k2⟩ := h.used o x hx hs'
    refine ⟨n, mono _ k1, ?_⟩
    rcases k2 with k2 | k2 | k2
    · exact .inl (mono _ k2)
    · exact .inr (.inl (List.mem_cons_of_mem _ k2))
    · rcases List.mem_cons.1 k2 with k2 | k2
      · right; left
        rw [← hand_call k2.symm]
        exact List.mem_cons_self
      · exact .inr (.inr k2)
  · intro o x hx hs'; exact mono _ (h.gone o x hx hs')
  · intro n o k
    show Ended n (_ :: s.past) ∨ _
    rw [hE n]
    rcases h.calls n o ((e _ (by simp)).1 k) with k | k
    · exact .inl k
    · exact .inr (m1 n k)
  · intro n k
    show Ended n (_ :: s.past) ∨ _
    rw [hE n]
    rcases h.shakes n ((e _ (by simp)).1 k) with k | k
    · exact .inl k
    · exact .inr (m1 n k)

theorem lookup_perm {β : Type} {l : List (Nat × β)} {q : Nat} {w : β} (hn : (l.map Prod.fst).Nodup)
    (h : l.lookup q = some w) : l.Perm ((q, w) :: l.filter (fun p => p.1 ≠ q)) := by
  induction l with
  | nil => simp at h
  | cons p l ih =>
    obtain ⟨k, v⟩ := p
    rw [List.map_cons, List.nodup_cons] at hn
    rw [List.lookup_cons] at h
    by_cases hk : q = k
    · subst hk
      have : v = w := by simpa using h
      subst this
      have hf : l.filter (fun p => decide (p.1 ≠ q)) = l := by
        rw [List.filter_eq_self]
        rintro ⟨a, b⟩ hab
        have : a ≠ q := by
          rintro rfl
          exact hn.1 (List.mem_map.2 ⟨(a, b), hab, rfl⟩)
        simpa using this
      rw [List.filter_cons_of_neg (by simp), hf]
    · have : (q == k) = false := by simpa using hk
      rw [this] at h
      have := ih hn.2 h
      have hk' : decide (k ≠ q) = true := by simpa using fun e => hk e.symm
      rw [List.filter_cons_of_pos (by simpa using hk')]
      exact (this.cons (k, v)).trans (List.Perm.swap _ _ _)

/-- An answer is delivered: the chain that waits becomes a job. -/
theorem Inv.deliver {q : UInt32} {w : Waiter} {m : Msg} {h' : List Act} (h : Inv cfg xs s)
    (hl : s.pending.lookup q.toNat = some w) (hg : s.past = .got q m :: h') :
    Inv cfg xs (((({ s with pending := s.pending.filter (fun p => p.1 ≠ q.toNat) } : State).later
      (.answered w m))).push (.delivered w q m)) := by
  have mono : ∀ b ∈ s.past, b ∈ Act.delivered w q m :: s.past := fun b hb => List.mem_cons_of_mem _ hb
  have e : ∀ b : Act, (∀ w q m, b ≠ .delivered w q m) → (b ∈ Act.delivered w q m :: s.past ↔ b ∈ s.past) := by
    intro b hb
    simp only [List.mem_cons]
    constructor
    · rintro (rfl | k)
      · exact absurd rfl (hb _ _ _)
      · exact k
    · exact .inr
  have hE : ∀ t, Ended t (Act.delivered w q m :: s.past) ↔ Ended t s.past := by
    intro t
    simp [Ended]
  have hp := lookup_perm h.keys hl
  have hmem : (q.toNat, w) ∈ s.pending := hp.mem_iff.2 List.mem_cons_self
  obtain ⟨⟨out, hsent⟩, hnd⟩ := h.pend _ _ hmem
  let s' : State := ((({ s with pending := s.pending.filter (fun p => p.1 ≠ q.toNat) } : State).later
      (.answered w m))).push (.delivered w q m)
  have pt : (threads s').Perm (threads s) := by
    have h1 : (threads s).Perm (w.thread :: (threads { s with pending := s.pending.filter (fun p => p.1 ≠ q.toNat) })) :=
      (threads_perm (s := s) hp (List.Perm.refl s.tasks))
    refine List.Perm.trans ?_ h1.symm
    simp only [s', threads, State.push, State.later, List.map_append, List.map_cons, List.map_nil, ← List.append_assoc]
    exact List.perm_append_singleton _ _
  have pw : (waiters s').Perm (waiters s) := by
    have h1 : (waiters s).Perm (w :: (waiters { s with pending := s.pending.filter (fun p => p.1 ≠ q.toNat) })) :=
      (waiters_perm (s := s) hp (List.Perm.refl s.tasks))
    refine List.Perm.trans ?_ h1.symm
    simp only [s', waiters, State.push, State.later, List.filterMap_append, List.filterMap_cons, List.filterMap_nil, Task.waiter,
      ← List.append_assoc]
    exact List.perm_append_singleton _ _
  have pn : (xs.map Prod.fst ++ threads s').Perm (xs.map Prod.fst ++ threads s) := (List.Perm.refl _).append pt
  have po : (xs.filterMap Prod.snd ++ (waiters s').filterMap Waiter.obj).Perm
      (xs.filterMap Prod.snd ++ (waiters s).filterMap Waiter.obj) := (List.Perm.refl _).append (pw.filterMap _)
  refine ⟨⟨⟨⟨out, hsent⟩, fun w' m' k => hnd w' q m' k rfl, h', hg⟩, h.law⟩, h.seq, ?_, ?_, ?_, ?_, pn.nodup_iff.2 h.nodup,
    ?_, ?_, ?_, ?_, ?_, ?_, po.nodup_iff.2 h.one, ?_, ?_, ?_, ?_⟩
  · exact h.keys.sublist (List.filter_sublist.map _)
  · intro w' q' out' k; exact h.sents w' q' out' ((e _ (by simp)).1 k)
  · intro q' w' k
    obtain ⟨k1, k2⟩ := List.mem_filter.1 k
    have k2 : q' ≠ q.toNat := by simpa using k2
    obtain ⟨⟨out', k3⟩, k4⟩ := h.pend q' w' k1
    refine ⟨⟨out', mono _ k3⟩, fun w'' q'' m' k5 => ?_⟩
    rcases List.mem_cons.1 k5 with k5 | k5
    · cases k5; exact fun k => k2 k.symm
    · exact k4 w'' q'' m' k5
  · intro w' q' out' k
    have k := (e _ (by simp)).1 k
    rcases h.waits w' q' out' k with ⟨q'', m', k1, k2⟩ | k1
    · exact .inl ⟨q'', m', k1, mono _ k2⟩
    · by_cases hq : q' = q.toNat
      · subst hq
        rcases List.mem_cons.1 (hp.mem_iff.1 k1) with k2 | k2
        · cases k2; exact .inl ⟨q, m, rfl, List.mem_cons_self⟩
        · have := (List.mem_filter.1 k2).2
          simp at this
      · exact .inr (List.mem_filter.2 ⟨k1, by simpa using hq⟩)
  · intro t ht
    have := h.live t (pn.mem_iff.1 ht)
    exact ⟨this.1, fun k => this.2 ((hE t).1 k)⟩
  · intro w' k
    have := h.waiter w' (pw.mem_iff.1 k)
    cases w' with
    | call n o => exact ⟨mono _ this.1, fun name v k => this.2 name v ((e _ (by simp)).1 k)⟩
    | assign n b => exact ⟨mono _ this.1, fun r k => this.2.1 r ((e _ (by simp)).1 k),
        fun v q out k => this.2.2 v q out ((e _ (by simp)).1 k)⟩
    | hash n v => exact ⟨mono _ this.1, this.2.cons _⟩
  · intro t k
    rcases List.mem_append.1 k with k | k
    · have := h.task t k
      cases t with
      | answered w m => obtain ⟨q, k⟩ := this; exact ⟨q, mono _ k⟩
      | failed w => exact fun q out k => this q out ((e _ (by simp)).1 k)
      | assigned n v =>
        exact ⟨mono _ this.1, this.2.1.cons _, fun v q out k => this.2.2 v q out ((e _ (by simp)).1 k)⟩
    · have : t = .answered w m := by simpa using k
      subst this
      exact ⟨q, List.mem_cons_self⟩
  · intro n hn
    obtain ⟨k1, k2, k3⟩ := h.fresh n hn
    exact ⟨fun k b j => k1 k b ((e _ (by simp)).1 j), fun o j => k2 o ((e _ (by simp)).1 j),
      fun b j => k3 b ((e _ (by simp)).1 j)⟩
  · intro o x hx; exact mono _ (h.objs o x hx)
  · intro o ho; exact h.busy o (po.mem_iff.1 ho)
  · intro o x hx hs'
    obtain ⟨n, k1, k2⟩ := h.used o x hx hs'
    refine ⟨n, mono _ k1, ?_⟩
    rcases k2 with k2 | k2 | k2
    · exact .inl (mono _ k2)
    · exact .inr (.inl (pw.mem_iff.2 k2))
    · exact .inr (.inr k2)
  · intro o x hx hs'; exact mono _ (h.gone o x hx hs')
  · intro n o k
    show Ended n (_ :: s.past) ∨ _
    rw [hE n]
    rcases h.calls n o ((e _ (by simp)).1 k) with k | k | k
    · exact .inl k
    · exact .inr (.inl (pt.mem_iff.2 k))
    · exact .inr (.inr k)
  · intro n k
    show Ended n (_ :: s.past) ∨ _
    rw [hE n]
    rcases h.shakes n ((e _ (by simp)).1 k) with k | k | k
    · exact .inl k
    · exact .inr (.inl (pt.mem_iff.2 k))
    · exact .inr (.inr k)

end

end Verif.TsClient
