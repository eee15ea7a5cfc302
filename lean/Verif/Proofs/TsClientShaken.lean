import Verif.Proofs.TsClientMore
set_option autoImplicit false
/-!
Why a handshake of the generated TypeScript client fails, and what follows when it does not.
-/
namespace Verif.TsClient

open Verif Verif.Flow Verif.TsServer

/-- An answer to handshake `n` was not the one it needs. -/
def Fails (n : Nat) (h : List Act) : Prop :=
  (∃ q m, .delivered (.assign n true) q m ∈ h ∧ ¬ ∃ u, GivesKey m (.str u) ∧ u.all jsSpace = false) ∨
    ∃ v q m, .delivered (.hash n v) q m ∈ h ∧ ¬ AcceptsHash m

theorem Fails.mono {n : Nat} {h h' : List Act} (hf : Fails n h) (hs : ∀ a ∈ h, a ∈ h') : Fails n h' := by
  rcases hf with ⟨q, m, h1, h2⟩ | ⟨v, q, m, h1, h2⟩
  · exact .inl ⟨q, m, hs _ h1, h2⟩
  · exact .inr ⟨v, q, m, hs _ h1, h2⟩

structure Shaken (s : State) : Prop where
  num : ∀ q w, (q, w) ∈ s.pending → q < s.sequence
  task : ∀ w m, .answered w m ∈ s.tasks → ∃ q, .delivered w q m ∈ s.past
  failed : ∀ w, .failed w ∈ s.tasks → ∃ n o, w = .call n o
  why : ∀ n, .shakeEnded n false ∈ s.past → Fails n s.past ∨ 4294967296 < s.sequence
  ready : ∀ n, .shakeEnded n true ∈ s.past → ∃ v q m, .emitted (.ready v) ∈ s.past ∧ .delivered (.hash n v) q m ∈ s.past
  told : .emitted .connected ∈ s.past → ∃ n, .assigning n true ∈ s.past

/-- An act that neither ends a handshake nor says that there is a connection. -/
def Aside (a : Act) : Prop := (∀ n ok, a ≠ .shakeEnded n ok) ∧ a ≠ .emitted .connected

/-- The past grows by acts that do not end a handshake, the numbers grow, jobs and waiters get fewer. -/
theorem Shaken.grow {s s' : State} (h : Shaken s) (hp : ∀ x ∈ s'.pending, x ∈ s.pending) (ht : ∀ x ∈ s'.tasks, x ∈ s.tasks)
    (hq : s.sequence ≤ s'.sequence) (ha : ∀ a ∈ s.past, a ∈ s'.past)
    (hn : ∀ n ok, .shakeEnded n ok ∈ s'.past → .shakeEnded n ok ∈ s.past)
    (hc : .emitted .connected ∈ s'.past → .emitted .connected ∈ s.past) : Shaken s' := by
  refine ⟨?_, ?_, ?_, ?_, ?_, fun k => (h.told (hc k)).imp (fun _ g => ha _ g)⟩
  · exact fun q w k => Nat.lt_of_lt_of_le (h.num q w (hp _ k)) hq
  · intro w m k
    obtain ⟨q, g⟩ := h.task w m (ht _ k)
    exact ⟨q, ha _ g⟩
  · exact fun w k => h.failed w (ht _ k)
  · intro n k
    rcases h.why n (hn _ _ k) with g | g
    · exact .inl (g.mono ha)
    · exact .inr (Nat.lt_of_lt_of_le g hq)
  · intro n k
    obtain ⟨v, q, m, g1, g2⟩ := h.ready n (hn _ _ k)
    exact ⟨v, q, m, ha _ g1, ha _ g2⟩

theorem Shaken.same {s s' : State} (h : Shaken s) (hp : s'.pending = s.pending) (ht : s'.tasks = s.tasks)
    (hq : s'.sequence = s.sequence) (ha : s'.past = s.past) : Shaken s' :=
  h.grow (by rw [hp]; exact fun _ k => k) (by rw [ht]; exact fun _ k => k) (by rw [hq]; exact Nat.le_refl _)
    (by rw [ha]; exact fun _ k => k) (by rw [ha]; exact fun _ _ k => k) (by rw [ha]; exact id)

theorem Shaken.push {s : State} (h : Shaken s) {a : Act} (hn : Aside a) : Shaken (s.push a) := by
  refine h.grow (fun _ k => k) (fun _ k => k) (Nat.le_refl _) (fun _ k => List.mem_cons_of_mem _ k) ?_ ?_
  · intro n ok k
    rcases List.mem_cons.1 k with k | k
    · exact absurd k.symm (hn.1 n ok)
    · exact k
  · intro k
    rcases List.mem_cons.1 k with k | k
    · exact absurd k.symm hn.2
    · exact k

theorem Shaken.tell {s : State} (h : Shaken s) {n : Nat} (hn : .assigning n true ∈ s.past) : Shaken (s.push (.emitted .connected)) := by
  have hm : ∀ a ∈ s.past, a ∈ (s.push (.emitted .connected)).past := fun _ k => List.mem_cons_of_mem _ k
  have hb : ∀ n ok, .shakeEnded n ok ∈ (s.push (.emitted .connected)).past → .shakeEnded n ok ∈ s.past := by
    intro n ok k
    rcases List.mem_cons.1 k with k | k
    · cases k
    · exact k
  refine ⟨h.num, fun w m k => ?_, h.failed, fun k g => (h.why k (hb _ _ g)).imp (fun g => g.mono hm) id, fun k g => ?_, fun _ => ⟨n, hm _ hn⟩⟩
  · obtain ⟨q, g⟩ := h.task w m k
    exact ⟨q, hm _ g⟩
  · obtain ⟨v, q, m, g1, g2⟩ := h.ready k (hb _ _ g)
    exact ⟨v, q, m, hm _ g1, hm _ g2⟩

theorem Shaken.gave_up {s : State} (h : Shaken s) {n : Nat} (hw : Fails n s.past ∨ 4294967296 < s.sequence) :
    Shaken (s.push (.shakeEnded n false)) := by
  have hm : ∀ a ∈ s.past, a ∈ (s.push (.shakeEnded n false)).past := fun _ k => List.mem_cons_of_mem _ k
  refine ⟨h.num, fun w m k => ?_, h.failed, ?_, ?_, fun k => (h.told (by simpa [State.push] using k)).imp (fun _ g => hm _ g)⟩
  · obtain ⟨q, g⟩ := h.task w m k
    exact ⟨q, hm _ g⟩
  · intro n' k
    have : Fails n' s.past ∨ 4294967296 < s.sequence := by
      rcases List.mem_cons.1 k with k | k
      · cases k; exact hw
      · exact h.why n' k
    exact this.imp (fun g => g.mono hm) id
  · intro n' k
    rcases List.mem_cons.1 k with k | k
    · cases k
    · obtain ⟨v, q, m, g1, g2⟩ := h.ready n' k
      exact ⟨v, q, m, hm _ g1, hm _ g2⟩

theorem Shaken.done {s : State} (h : Shaken s) {n : Nat} {v : Js} {q : UInt32} {m : Msg} (hd : .delivered (.hash n v) q m ∈ s.past) :
    Shaken ((s.push (.shakeEnded n true)).push (.emitted (.ready v))) := by
  have hm : ∀ a ∈ s.past, a ∈ ((s.push (.shakeEnded n true)).push (.emitted (.ready v))).past :=
    fun _ k => List.mem_cons_of_mem _ (List.mem_cons_of_mem _ k)
  refine ⟨h.num, fun w m k => ?_, h.failed, ?_, ?_, fun k => (h.told (by simpa [State.push] using k)).imp (fun _ g => hm _ g)⟩
  · obtain ⟨q, g⟩ := h.task w m k
    exact ⟨q, hm _ g⟩
  · intro n' k
    rcases List.mem_cons.1 k with k | k
    · cases k
    rcases List.mem_cons.1 k with k | k
    · cases k
    · exact (h.why n' k).imp (fun g => g.mono hm) id
  · intro n' k
    rcases List.mem_cons.1 k with k | k
    · cases k
    rcases List.mem_cons.1 k with k | k
    · cases k
      exact ⟨v, q, m, List.mem_cons_self, hm _ hd⟩
    · obtain ⟨v, q, m, g1, g2⟩ := h.ready n' k
      exact ⟨v, q, m, hm _ g1, hm _ g2⟩

theorem Shaken.later {s : State} (h : Shaken s) {t : Task} (h1 : ∀ w m, t = .answered w m → ∃ q, .delivered w q m ∈ s.past)
    (h2 : ∀ w, t = .failed w → ∃ n o, w = .call n o) : Shaken (s.later t) := by
  refine ⟨h.num, ?_, ?_, h.why, h.ready, h.told⟩
  · intro w m k
    rcases List.mem_append.1 k with k | k
    · exact h.task w m k
    · exact h1 w m (List.mem_singleton.1 k).symm
  · intro w k
    rcases List.mem_append.1 k with k | k
    · exact h.failed w k
    · exact h2 w (List.mem_singleton.1 k).symm

theorem pending_mem : ∀ {l : List (Nat × Waiter)} {q : Nat} {w : Waiter}, l.lookup q = some w → (q, w) ∈ l
  | (q', w') :: l, q, w, h => by
    rw [List.lookup_cons] at h
    split at h
    · next e =>
      cases h
      rw [beq_iff_eq] at e
      subst e
      exact List.mem_cons_self
    · exact List.mem_cons_of_mem _ (pending_mem h)

section
variable {cfg : Cfg} {env : Env} (hx : ∀ s out, env.sends s out = true)
include hx

theorem shaken_request {w : Waiter} {o : Out} {s : State} (h : Shaken s) (hw : (∃ n o', w = .call n o') ∨ cfg.packs o = true)
    {q : Nat} (hq : q + 1 = s.sequence) (hl : ∀ q' w', (q', w') ∈ s.pending → q' < q) : Shaken (request cfg env w q o s) := by
  have hnone : s.pending.lookup q = none := by
    cases e : s.pending.lookup q with
    | none => rfl
    | some w' =>
      have := hl q w' (pending_mem e)
      omega
  unfold request
  rw [hnone, hx]
  simp only [Option.isSome_none, Bool.false_eq_true, if_false, if_true]
  split
  · refine Shaken.push ?_ (by simp [Aside])
    refine ⟨?_, h.task, h.failed, h.why, h.ready, h.told⟩
    intro q' w' k
    rcases List.mem_cons.1 k with k | k
    · cases k
      show q < s.sequence
      omega
    · exact h.num q' w' k
  · next hn =>
    rcases hw with ⟨n, o', rfl⟩ | hw
    · exact h.push (by simp [Aside])
    · have hbig : 4294967296 < s.sequence := by
        have : ¬ q < 4294967296 := fun k => hn ⟨hw, k⟩
        omega
      cases w with
      | call n o' => exact h.push (by simp [Aside])
      | assign n shake =>
        have h1 : Shaken (s.push (.assignEnded n none)) := h.push (by simp [Aside])
        cases shake with
        | false => exact h1
        | true => exact h1.gave_up (.inr hbig)
      | hash n v => exact h.gave_up (.inr hbig)

/-- A request with a new number. -/
theorem shaken_numbered {w : Waiter} {o : Out} {s : State} (h : Shaken s) (hw : (∃ n o', w = .call n o') ∨ cfg.packs o = true) :
    Shaken (request cfg env w s.sequence o { s with sequence := s.sequence + 1 }) :=
  shaken_request hx (h.grow (s' := { s with sequence := s.sequence + 1 }) (fun _ k => k) (fun _ k => k) (Nat.le_succ _) (fun _ k => k) (fun _ _ k => k) id) hw rfl h.num

theorem shaken_assign (hp : cfg.packs .selfKey = true ∧ cfg.packs .hash = true) {shake : Bool} {s : State} (h : Shaken s) : Shaken (assign cfg env shake s) :=
  shaken_numbered hx (s := ({ s with next := s.next + 1 } : State).push (.assigning s.next shake))
    ((h.same (s' := { s with next := s.next + 1 }) rfl rfl rfl rfl).push (by simp [Aside])) (.inr hp.1)

theorem shaken_send {o : Nat} {s : State} (h : Shaken s) : Shaken (send cfg env o s) := by
  unfold send
  split
  · exact h
  next x _ =>
    have h1 : Shaken (({ s with next := s.next + 1 } : State).push (.called s.next o)) :=
      (h.same (s' := { s with next := s.next + 1 }) rfl rfl rfl rfl).push (by simp [Aside])
    dsimp only
    split
    · exact h1.push (by simp [Aside])
    · exact h1.push (by simp [Aside])
    · exact shaken_numbered hx (s := (({ s with next := s.next + 1 } : State).push (.called s.next o)).setObj o { x with state := .pending })
        (h1.same rfl rfl rfl rfl) (.inl ⟨_, _, rfl⟩)

theorem shaken_userOp (hp : cfg.packs .selfKey = true ∧ cfg.packs .hash = true) (op : Op) {s : State} (h : Shaken s) : Shaken (userOp cfg env s op) := by
  cases op with
  | create k b => exact (h.same (s' := { s with objs := s.objs ++ [(s.next, ⟨k, b, .ready, []⟩)], next := s.next + 1 }) rfl rfl rfl rfl).push (by simp [Aside])
  | on o name =>
    unfold userOp
    dsimp only
    split
    · exact h.same rfl rfl rfl rfl
    · exact h
  | send o => exact shaken_send hx h
  | destroy o =>
    unfold userOp
    dsimp only
    split
    · next x _ =>
      have h1 : Shaken (s.setObj o { x with state := .destroyed, handlers := [] }) := h.same rfl rfl rfl rfl
      exact h1.push (by simp [Aside])
    · exact h
  | assign => exact shaken_assign hx hp h

theorem shaken_ops (hp : cfg.packs .selfKey = true ∧ cfg.packs .hash = true) (ops : List Op) {s : State} (h : Shaken s) : Shaken (ops.foldl (userOp cfg env) s) := by
  induction ops generalizing s with
  | nil => exact h
  | cons op ops ih => exact ih (shaken_userOp hx hp op h)

theorem shaken_enter (hp : cfg.packs .selfKey = true ∧ cfg.packs .hash = true) {a : Act} (ha : Aside a) {s : State} (h : Shaken s) :
    Shaken (enter cfg env a s) :=
  shaken_ops hx hp _ (h.push ha)

omit hx in
theorem shaken_setUuid {v : Option Js} {s : State} (h : Shaken s) : Shaken (setUuid v s) := by
  unfold setUuid
  split
  · exact h.same rfl rfl rfl rfl
  · split
    · exact h
    · split
      · exact h
      · exact h.same rfl rfl rfl rfl
  · exact h

omit hx in
theorem shaken_onAssigned {n : Nat} {shake : Bool} {m : Msg} {s : State} (h : Shaken s) {q : UInt32}
    (hd : .delivered (.assign n shake) q m ∈ s.past) : Shaken (onAssigned n shake m s) := by
  have hrej : ∀ s' : State, Shaken s' → s'.past = s.past → (¬ ∃ u, GivesKey m (.str u) ∧ u.all jsSpace = false) →
      Shaken (reject (.assign n shake) s') := by
    intro s' h' e hn
    have h1 : Shaken (s'.push (.assignEnded n none)) := h'.push (by simp [Aside])
    cases shake with
    | false => exact h1
    | true => exact h1.gave_up (.inl (.inl ⟨q, m, List.mem_cons_of_mem _ (by rw [e]; exact hd), hn⟩))
  unfold onAssigned
  split
  · next e =>
    refine hrej _ h rfl ?_
    rintro ⟨u, ⟨ps, k, _⟩, _⟩
    exact extract_none e _ k
  · next b e =>
    dsimp only
    split
    · next w v e1 e2 =>
      have h1 : Shaken ((setUuid (some v) s).push (.assignEnded n (some v))) := (shaken_setUuid h).push (by simp [Aside])
      rw [e2]
      split
      · exact h1.later (by intros; contradiction) (by intros; contradiction)
      · exact h1
    · next hno =>
      refine hrej _ (shaken_setUuid h) (setUuid_past _ _) ?_
      rintro ⟨u, ⟨ps, k1, k2⟩, k3⟩
      have e' := (extract_iff m selfKeyResponse _).2 k1
      rw [e] at e'
      cases e'
      have h2 : TsServer.Js.prop (.obj ps) "uuid".toList = some (.str u) := k2
      rw [h2] at hno
      have hsome : ∃ w, (setUuid (some (.str u)) s).uuid = some w := by
        simp only [setUuid, k3]
        cases e : s.uuid <;> simp [e]
      obtain ⟨w, hw⟩ := hsome
      exact hno w _ hw rfl

theorem shaken_onHash (hp : cfg.packs .selfKey = true ∧ cfg.packs .hash = true) {n : Nat} {v : Js} {m : Msg} {s : State} (h : Shaken s) {q : UInt32}
    (hd : .delivered (.hash n v) q m ∈ s.past) : Shaken (onHash cfg env n v m s) := by
  unfold onHash
  split
  · next e =>
    refine h.gave_up (.inl (.inr ⟨v, q, m, hd, ?_⟩))
    rintro ⟨b, k, _⟩
    exact extract_none e _ k
  · next b e =>
    split
    · next x e2 =>
      refine h.gave_up (.inl (.inr ⟨v, q, m, hd, ?_⟩))
      rintro ⟨b', k, k2⟩
      have e' := (extract_iff m hashResponse _).2 k
      rw [e] at e'
      cases e'
      obtain ⟨ps, e3, e4⟩ := prop_some e2
      rw [k2 ps e3] at e4
      cases e4
    · exact shaken_ops hx hp _ (h.done hd)

theorem shaken_settle (hp : cfg.packs .selfKey = true ∧ cfg.packs .hash = true) {n o : Nat} {name : Name} {v : Option Js} {r : Result} {s : State}
    (h : Shaken s) : Shaken (settle cfg env n o name v r s) := by
  unfold settle
  split
  · split
    · have h1 := shaken_enter hx hp (a := .handled n name v) (by simp [Aside]) h
      split
      · next e =>
        have e := congrArg Prod.snd e
        dsimp only [callUser] at e
        subst e
        exact h1.push (by simp [Aside])
      · next e =>
        have e := congrArg Prod.snd e
        dsimp only [callUser] at e
        subst e
        exact h1.push (by simp [Aside])
    · exact h.push (by simp [Aside])
  · exact h.push (by simp [Aside])

theorem shaken_onAnswer (hp : cfg.packs .selfKey = true ∧ cfg.packs .hash = true) {n o : Nat} {m : Msg} {s : State} (h : Shaken s) :
    Shaken (onAnswer cfg env n o m s) := by
  unfold onAnswer
  split
  · exact h
  · next x _ =>
    split
    · exact h
    · exact h.push (by simp [Aside])
    · have h1 : Shaken (s.setObj o { x with state := .ready }) := h.same rfl rfl rfl rfl
      dsimp only
      split
      · unfold conclude
        split
        · exact shaken_settle hx hp h1
        · split
          · exact shaken_settle hx hp h1
          · exact h1.push (by simp [Aside])
      · unfold confirm
        split
        · exact shaken_settle hx hp h1
        · split
          · exact shaken_settle hx hp h1
          · exact shaken_settle hx hp h1

theorem shaken_onMessage (hp : cfg.packs .selfKey = true ∧ cfg.packs .hash = true) {x : Rust.Income Msg} {s : State} (h : Shaken s) :
    Shaken (onMessage cfg env x s).2 := by
  have h1 : Shaken (s.push (.got x.header.sequence x.msg)) := h.push (by simp [Aside])
  unfold onMessage
  dsimp only
  split
  · next w e =>
    have h2 : Shaken ({ s.push (.got x.header.sequence x.msg) with pending := (s.push (.got x.header.sequence x.msg)).pending.filter (fun p => p.1 ≠ x.header.sequence.toNat) }) :=
      h1.grow (fun _ k => (List.mem_filter.1 k).1) (fun _ k => k) (Nat.le_refl _) (fun _ k => k) (fun _ _ k => k) id
    have h3 := (h2.push (a := .delivered w x.header.sequence x.msg) (by simp [Aside])).later (t := .answered w x.msg)
      (by rintro w' m' e; cases e; exact ⟨_, List.mem_cons_self⟩) (by intros; contradiction)
    exact h3.same rfl rfl rfl rfl
  · unfold offer
    split
    · exact shaken_enter hx hp (by simp [Aside]) h1
    · exact h1.push (by simp [Aside])

theorem shaken_onMessages (hp : cfg.packs .selfKey = true ∧ cfg.packs .hash = true) (xs : List (Rust.Income Msg)) {s : State} (h : Shaken s) :
    Shaken (onMessages cfg env xs s) := by
  induction xs generalizing s with
  | nil => exact h
  | cons x xs ih =>
    unfold onMessages
    have h1 := shaken_onMessage hx hp (x := x) (h.same (s' := { s with reader := ⟨s.reader.buffer, xs⟩ }) rfl rfl rfl rfl)
    split
    · next e => rw [e] at h1; exact h1
    · next e => rw [e] at h1; exact ih h1

omit hx in
theorem assign_starts (s : State) : .assigning s.next true ∈ (assign cfg env true s).past := by
  unfold assign getSequence request
  dsimp only
  split
  · split
    · simp [State.later, State.push]
    · split
      · simp [State.push]
      · simp [State.later, State.push]
  · simp [reject, State.push]

theorem shaken_step (hp : cfg.packs .selfKey = true ∧ cfg.packs .hash = true) {s s' : State} {i : Input} (h : Shaken s)
    (hs : step cfg env s i = some s') : Shaken s' := by
  cases i with
  | connected =>
    cases hs
    exact shaken_ops hx hp _ ((shaken_assign hx hp (h.push (by simp [Aside]))).tell (assign_starts (s.push .opened)))
  | disconnected =>
    cases hs
    exact shaken_enter hx hp (by simp [Aside]) (shaken_setUuid (h.push (by simp [Aside])))
  | error =>
    cases hs
    exact shaken_enter hx hp (by simp [Aside]) (h.push (by simp [Aside]))
  | user op => cases hs; exact shaken_userOp hx hp op h
  | received bytes =>
    have h1 : Shaken (s.push (.chunk bytes)) := h.push (by simp [Aside])
    unfold step received at hs
    dsimp only at hs
    split at hs
    · cases hs
    · cases hs; exact h1.same rfl rfl rfl rfl
    · cases hs; exact h1.same rfl rfl rfl rfl
    · cases hs; exact shaken_onMessages hx hp _ (h1.same rfl rfl rfl rfl)
  | work i =>
    unfold step at hs
    dsimp only at hs
    split at hs
    · next t e =>
      cases hs
      have hm : t ∈ s.tasks := List.mem_of_getElem? e
      have h1 : Shaken { s with tasks := s.tasks.eraseIdx i } :=
        h.grow (fun _ k => k) (fun _ k => List.mem_of_mem_eraseIdx k) (Nat.le_refl _) (fun _ k => k) (fun _ _ k => k) id
      cases t with
      | answered w m =>
        obtain ⟨q, hd⟩ := h.task w m hm
        cases w with
        | assign n shake => exact shaken_onAssigned h1 hd
        | hash n v => exact shaken_onHash hx hp h1 hd
        | call n o => exact shaken_onAnswer hx hp h1
      | failed w =>
        obtain ⟨n, o, rfl⟩ := h.failed w hm
        exact h1.push (by simp [Aside])
      | assigned n v =>
        exact shaken_numbered hx (s := { s with tasks := s.tasks.eraseIdx i }) h1 (.inr hp.2)
    · cases hs; exact h

theorem shaken_run (hp : cfg.packs .selfKey = true ∧ cfg.packs .hash = true) (is : List Input) : Shaken (run cfg env is .new).2 := by
  suffices h : ∀ s, Shaken s → Shaken (run cfg env is s).2 by
    refine h _ ⟨?_, ?_, ?_, ?_, ?_, ?_⟩ <;> intros <;> rename_i k <;> simp [State.new] at k
  induction is with
  | nil => exact fun s h => h
  | cons i is ih =>
    intro s h
    unfold run
    split
    · next s' e => exact ih s' (shaken_step hx hp h e)
    · exact h

end
end Verif.TsClient
