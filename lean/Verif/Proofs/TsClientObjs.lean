import Verif.Proofs.TsClientSteps
set_option autoImplicit false
/-!
Request objects of a TypeScript client: how the invariant survives their changes.
-/
namespace Verif.TsClient

open Verif

section
variable {cfg : Cfg} {xs xs' : List Hand} {s : State}

theorem lookup_set {β : Type} (l : List (Nat × β)) (o k : Nat) (y : β) :
    (l.map (fun p => if p.1 = o then (o, y) else p)).lookup k =
      if k = o then (l.lookup o).map (fun _ => y) else l.lookup k := by
  induction l with
  | nil => simp
  | cons p l ih =>
    obtain ⟨a, b⟩ := p
    rw [List.map_cons]
    by_cases hao : a = o
    · subst hao
      simp only [if_true]
      rw [List.lookup_cons, List.lookup_cons]
      by_cases hk : k = a
      · subst hk; simp
      · have : (k == a) = false := by simpa using hk
        rw [this]
        simp only [if_neg hk]
        rw [ih, if_neg hk, List.lookup_cons, this]
    · simp only [if_neg hao]
      rw [List.lookup_cons]
      by_cases hk : k = a
      · subst hk; simp [hao]
      · have : (k == a) = false := by simpa using hk
        rw [this]
        simp only
        rw [ih]
        by_cases hko : k = o
        · subst hko
          simp [List.lookup_cons, this]
        · simp [hko, List.lookup_cons, this]

theorem setObj_lookup (o k : Nat) (y : Obj) :
    (s.setObj o y).objs.lookup k = if k = o then (s.objs.lookup o).map (fun _ => y) else s.objs.lookup k :=
  lookup_set _ _ _ _

/-- An object changes. -/
theorem Inv.change {o : Nat} {x y : Obj} (h : Inv cfg xs s) (hx : s.objs.lookup o = some x)
    (hk : y.kind = x.kind) (hb : y.body = x.body) (hf : xs'.map Prod.fst = xs.map Prod.fst)
    (busy : ∀ p ∈ xs'.filterMap Prod.snd ++ (waiters s).filterMap Waiter.obj,
      (p = o ∧ y.state ≠ .ready) ∨ (p ≠ o ∧ p ∈ xs.filterMap Prod.snd ++ (waiters s).filterMap Waiter.obj))
    (one : (xs'.filterMap Prod.snd ++ (waiters s).filterMap Waiter.obj).Nodup)
    (used : y.state = .pending → ∃ n, .called n o ∈ s.past ∧
      (.ended n .failed ∈ s.past ∨ .call n o ∈ waiters s ∨ (n, some o) ∈ xs'))
    (other : ∀ p n, p ≠ o → (n, some p) ∈ xs → (n, some p) ∈ xs')
    (gone : y.state = .destroyed → .destroyed o ∈ s.past) :
    Inv cfg xs' (s.setObj o y) := by
  refine ⟨h.law, h.seq, h.keys, h.sents, h.pend, h.waits, ?_, ?_, h.waiter, h.task, h.fresh, ?_, ?_, one, ?_, ?_, ?_, ?_⟩
  · rw [hf]; exact h.nodup
  · rw [hf]; exact h.live
  · intro p z hz
    rw [setObj_lookup] at hz
    by_cases hp : p = o
    · subst hp
      simp only [if_true, hx, Option.map_some, Option.some.injEq] at hz
      subst hz
      rw [hk, hb]
      exact h.objs p x hx
    · rw [if_neg hp] at hz
      exact h.objs p z hz
  · intro p hp
    rw [setObj_lookup]
    rcases busy p hp with ⟨rfl, k⟩ | ⟨k1, k2⟩
    · exact ⟨y, by simp [hx], k⟩
    · rw [if_neg k1]; exact h.busy p k2
  · intro p z hz hs
    rw [setObj_lookup] at hz
    by_cases hp : p = o
    · subst hp
      simp only [if_true, hx, Option.map_some, Option.some.injEq] at hz
      subst hz
      exact used hs
    · rw [if_neg hp] at hz
      obtain ⟨n, k1, k2⟩ := h.used p z hz hs
      refine ⟨n, k1, ?_⟩
      rcases k2 with k2 | k2 | k2
      · exact .inl k2
      · exact .inr (.inl k2)
      · exact .inr (.inr (other p n hp k2))
  · intro p z hz hs
    rw [setObj_lookup] at hz
    by_cases hp : p = o
    · subst hp
      simp only [if_true, hx, Option.map_some, Option.some.injEq] at hz
      subst hz
      exact gone hs
    · rw [if_neg hp] at hz
      exact h.gone p z hz hs
  · rw [hf]; exact h.calls
  · rw [hf]; exact h.shakes

/-- Handlers of an object change. -/
theorem Inv.handlers {o : Nat} {x y : Obj} (h : Inv cfg xs s) (hx : s.objs.lookup o = some x)
    (hk : y.kind = x.kind) (hb : y.body = x.body) (hs : y.state = x.state) : Inv cfg xs (s.setObj o y) := by
  refine h.change hx hk hb rfl ?_ h.one ?_ (fun _ _ _ k => k) ?_
  · intro p hp
    by_cases hpo : p = o
    · subst hpo
      obtain ⟨z, k1, k2⟩ := h.busy p hp
      rw [hx] at k1
      cases k1
      exact .inl ⟨rfl, by rw [hs]; exact k2⟩
    · exact .inr ⟨hpo, hp⟩
  · intro k; exact h.used o x hx (by rw [← hs]; exact k)
  · intro k; exact h.gone o x hx (by rw [← hs]; exact k)

/-- An object is destroyed. -/
theorem Inv.destroy {o : Nat} {x y : Obj} (h : Inv cfg xs s) (hx : s.objs.lookup o = some x)
    (hk : y.kind = x.kind) (hb : y.body = x.body) (hs : y.state = .destroyed) :
    Inv cfg xs ((s.setObj o y).push (.destroyed o)) := by
  have h' : Inv cfg xs (s.push (.destroyed o)) := h.push trivial trivial
  show Inv cfg xs ((s.push (.destroyed o)).setObj o y)
  refine h'.change (x := x) hx hk hb rfl ?_ h'.one ?_ (fun _ _ _ k => k) ?_
  · intro p hp
    by_cases hpo : p = o
    · exact .inl ⟨hpo, by rw [hs]; simp⟩
    · exact .inr ⟨hpo, hp⟩
  · intro k; rw [hs] at k; cases k
  · intro _; exact List.mem_cons_self

/-- The object of the call in hand is ready again. -/
theorem Inv.release {n o : Nat} {x y : Obj} (h : Inv cfg ((n, some o) :: xs) s) (hx : s.objs.lookup o = some x)
    (hk : y.kind = x.kind) (hb : y.body = x.body) (hs : y.state = .ready) :
    Inv cfg ((n, none) :: xs) (s.setObj o y) := by
  have ho := h.one
  simp only [List.filterMap_cons, List.cons_append, List.nodup_cons] at ho
  refine h.change hx hk hb rfl ?_ ho.2 ?_ ?_ ?_
  · intro p hp
    have hp : p ∈ xs.filterMap Prod.snd ++ (waiters s).filterMap Waiter.obj := hp
    refine .inr ⟨?_, by simp only [List.filterMap_cons, List.cons_append]; exact List.mem_cons_of_mem _ hp⟩
    rintro rfl
    exact ho.1 hp
  · intro k; rw [hs] at k; cases k
  · intro p k hp hk
    rcases List.mem_cons.1 hk with e | e
    · cases e; exact absurd rfl hp
    · exact List.mem_cons_of_mem _ e
  · intro k; rw [hs] at k; cases k

/-- The call in hand takes its object. -/
theorem Inv.hold {n o : Nat} {x y : Obj} (h : Inv cfg ((n, none) :: xs) s) (hx : s.objs.lookup o = some x)
    (hr : x.state = .ready) (hc : .called n o ∈ s.past)
    (hk : y.kind = x.kind) (hb : y.body = x.body) (hs : y.state = .pending) :
    Inv cfg ((n, some o) :: xs) (s.setObj o y) := by
  have hno : o ∉ xs.filterMap Prod.snd ++ (waiters s).filterMap Waiter.obj := by
    intro k
    obtain ⟨z, k1, k2⟩ := h.busy o k
    rw [hx] at k1
    cases k1
    exact k2 hr
  refine h.change hx hk hb rfl ?_ ?_ ?_ ?_ ?_
  · intro p hp
    simp only [List.filterMap_cons, List.cons_append, List.mem_cons] at hp
    rcases hp with hp | hp
    · exact .inl ⟨hp, by rw [hs]; simp⟩
    · refine .inr ⟨?_, hp⟩
      rintro rfl
      exact hno hp
  · simp only [List.filterMap_cons, List.cons_append, List.nodup_cons]
    exact ⟨hno, h.one⟩
  · intro _; exact ⟨n, hc, .inr (.inr List.mem_cons_self)⟩
  · intro p k hp hk
    rcases List.mem_cons.1 hk with e | e
    · cases e
    · exact List.mem_cons_of_mem _ e
  · intro k; rw [hs] at k; cases k

theorem lookup_append {β : Type} (l : List (Nat × β)) (k a : Nat) (y : β) :
    (l ++ [(a, y)]).lookup k = match l.lookup k with
      | some z => some z
      | none => if k = a then some y else none := by
  induction l with
  | nil =>
    by_cases h : k = a
    · subst h; simp
    · have : (k == a) = false := by simpa using h
      simp [List.lookup_cons, this, h]
  | cons p l ih =>
    obtain ⟨b, c⟩ := p
    rw [List.cons_append, List.lookup_cons, List.lookup_cons]
    cases k == b
    · exact ih
    · rfl

/-- A new object. -/
theorem Inv.create (h : Inv cfg xs s) (k : Kind) (b : Js) :
    Inv cfg xs (({ s with objs := s.objs ++ [(s.next, ⟨k, b, .ready, []⟩)], next := s.next + 1 } : State).push
      (.created s.next k b)) := by
  have hf := h.fresh s.next (Nat.le_refl _)
  have hnone : s.objs.lookup s.next = none := by
    cases e : s.objs.lookup s.next with
    | none => rfl
    | some x => exact absurd (h.objs _ x e) (hf.1 _ _)
  have e : ∀ a : Act, (∀ o k b, a ≠ .created o k b) → (a ∈ Act.created s.next k b :: s.past ↔ a ∈ s.past) := by
    intro a ha
    simp only [List.mem_cons]
    constructor
    · rintro (rfl | k)
      · exact absurd rfl (ha _ _ _)
      · exact k
    · exact .inr
  have mono : ∀ a ∈ s.past, a ∈ Act.created s.next k b :: s.past := fun a ha => List.mem_cons_of_mem _ ha
  have hE : ∀ t, Ended t (Act.created s.next k b :: s.past) ↔ Ended t s.past := by
    intro t
    simp [Ended]
  have look : ∀ o x, (s.objs ++ [(s.next, (⟨k, b, .ready, []⟩ : Obj))]).lookup o = some x →
      s.objs.lookup o = some x ∨ (o = s.next ∧ x = ⟨k, b, .ready, []⟩) := by
    intro o x hx
    rw [lookup_append] at hx
    cases e : s.objs.lookup o with
    | some z => rw [e] at hx; exact .inl hx
    | none =>
      rw [e] at hx
      by_cases ho : o = s.next
      · simp only [if_pos ho] at hx
        cases hx
        exact .inr ⟨ho, rfl⟩
      · simp only [if_neg ho] at hx
        cases hx
  obtain ⟨h1, h2, h3, h4, h5, h6, h7, h8, h9, h10, h11, h12, h13, h14, h15, h16, h17, h18⟩ := h
  refine ⟨⟨hf.1, h1⟩, h2, h3, ?_, ?_, ?_, h7, ?_, ?_, ?_, ?_, ?_, ?_, h14, ?_, ?_, ?_, ?_⟩
  · intro w q out k; exact h4 w q out ((e _ (by simp)).1 k)
  · intro q w k
    obtain ⟨⟨out, k1⟩, k2⟩ := h5 q w k
    exact ⟨⟨out, mono _ k1⟩, fun w' q' m k3 => k2 w' q' m ((e _ (by simp)).1 k3)⟩
  · intro w q out k
    rcases h6 w q out ((e _ (by simp)).1 k) with ⟨q', m, k1, k2⟩ | k1
    · exact .inl ⟨q', m, k1, mono _ k2⟩
    · exact .inr k1
  · intro t ht
    exact ⟨Nat.lt_succ_of_lt (h8 t ht).1, fun k => (h8 t ht).2 ((hE t).1 k)⟩
  · intro w hw
    have := h9 w hw
    cases w with
    | call n o => exact ⟨mono _ this.1, fun name v k => this.2 name v ((e _ (by simp)).1 k)⟩
    | assign n b => exact ⟨mono _ this.1, fun r k => this.2.1 r ((e _ (by simp)).1 k),
        fun v q out k => this.2.2 v q out ((e _ (by simp)).1 k)⟩
    | hash n v => exact ⟨mono _ this.1, this.2.cons _⟩
  · intro t ht
    have := h10 t ht
    cases t with
    | answered w m => obtain ⟨q, k⟩ := this; exact ⟨q, mono _ k⟩
    | failed w => exact fun q out k => this q out ((e _ (by simp)).1 k)
    | assigned n v =>
      exact ⟨mono _ this.1, this.2.1.cons _, fun v q out k => this.2.2 v q out ((e _ (by simp)).1 k)⟩
  · intro n hn
    have hn : s.next + 1 ≤ n := hn
    obtain ⟨k1, k2, k3⟩ := h11 n (by omega)
    refine ⟨fun k' b' j => ?_, fun o j => k2 o ((e _ (by simp)).1 j), fun b j => k3 b ((e _ (by simp)).1 j)⟩
    rcases List.mem_cons.1 j with j | j
    · cases j; omega
    · exact k1 _ _ j
  · intro o x hx
    rcases look o x hx with hx | ⟨rfl, rfl⟩
    · exact mono _ (h12 o x hx)
    · exact List.mem_cons_self
  · intro o ho
    obtain ⟨x, k1, k2⟩ := h13 o ho
    refine ⟨x, ?_, k2⟩
    show (s.objs ++ [_]).lookup o = some x
    rw [lookup_append, k1]
  · intro o x hx hs
    rcases look o x hx with hx | ⟨rfl, rfl⟩
    · obtain ⟨n, k1, k2⟩ := h15 o x hx hs
      refine ⟨n, mono _ k1, ?_⟩
      rcases k2 with k2 | k2
      · exact .inl (mono _ k2)
      · exact .inr k2
    · cases hs
  · intro o x hx hs
    rcases look o x hx with hx | ⟨rfl, rfl⟩
    · exact mono _ (h16 o x hx hs)
    · cases hs
  · intro n o k
    show Ended n (_ :: s.past) ∨ _
    rw [hE n]
    exact h17 n o ((e _ (by simp)).1 k)
  · intro n k
    show Ended n (_ :: s.past) ∨ _
    rw [hE n]
    exact h18 n ((e _ (by simp)).1 k)

end

end Verif.TsClient
