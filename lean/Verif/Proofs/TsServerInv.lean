import Verif.Proofs.TsServerBase
set_option autoImplicit false
/-! The invariant of the TypeScript server. -/
namespace Verif.TsServer

open Verif

/-! ### Lists -/

theorem since_cons {u : Uuid} {a : Act} {h : List Act} (ha : a ≠ .opened u) :
    since u (a :: h) = a :: since u h := by
  cases a <;> simp [since]
  rename_i v
  intro e
  exact absurd (by rw [e]) ha

theorem since_opened {u : Uuid} {h : List Act} : since u (.opened u :: h) = [] := by
  simp [since]

theorem since_sub {u : Uuid} {h : List Act} {a : Act} (m : a ∈ since u h) : a ∈ h := by
  induction h with
  | nil => simp [since] at m
  | cons b h ih =>
    by_cases hb : b = .opened u
    · rw [hb, since_opened] at m; simp at m
    · rw [since_cons hb] at m
      rcases List.mem_cons.1 m with rfl | m
      · exact List.mem_cons_self
      · exact List.mem_cons_of_mem _ (ih m)

section
variable {α : Type}

theorem lookup_map_self (l : List (Nat × α)) (u : Nat) (c d : α) (h : l.lookup u = some d) :
    (l.map (fun p => if p.1 = u then (u, c) else p)).lookup u = some c := by
  induction l with
  | nil => simp at h
  | cons p l ih =>
    obtain ⟨v, e⟩ := p
    by_cases hv : v = u
    · subst hv; simp
    · have hv' : (u == v) = false := by simp; exact fun e => hv e.symm
      rw [List.lookup_cons, hv'] at h
      simp only [List.map_cons, if_neg hv]
      rw [List.lookup_cons, hv']
      exact ih h

theorem lookup_map_other (l : List (Nat × α)) (u v : Nat) (c : α) (hv : v ≠ u) :
    (l.map (fun p => if p.1 = u then (u, c) else p)).lookup v = l.lookup v := by
  induction l with
  | nil => rfl
  | cons p l ih =>
    obtain ⟨w, e⟩ := p
    by_cases hw : w = u
    · subst hw
      have : (v == w) = false := by simp [hv]
      simp only [List.map_cons, if_pos]
      rw [List.lookup_cons, this, List.lookup_cons, this]
      exact ih
    · simp only [List.map_cons, if_neg hw]
      rw [List.lookup_cons, List.lookup_cons, ih]

theorem lookup_filter_self (l : List (Nat × α)) (u : Nat) :
    (l.filter (fun p => p.1 ≠ u)).lookup u = none := by
  induction l with
  | nil => rfl
  | cons p l ih =>
    obtain ⟨w, e⟩ := p
    by_cases hw : w = u
    · simp [hw]; simpa using ih
    · have : (u == w) = false := by simp; exact fun e => hw e.symm
      simp only [List.filter_cons, ne_eq, hw, not_false_eq_true, decide_true, if_true]
      rw [List.lookup_cons, this]
      simpa using ih

theorem lookup_filter_other (l : List (Nat × α)) (u v : Nat) (hv : v ≠ u) :
    (l.filter (fun p => p.1 ≠ u)).lookup v = l.lookup v := by
  induction l with
  | nil => rfl
  | cons p l ih =>
    obtain ⟨w, e⟩ := p
    by_cases hw : w = u
    · subst hw
      have : (v == w) = false := by simp [hv]
      rw [List.lookup_cons, this]
      simpa using ih
    · simp only [List.filter_cons, ne_eq, hw, not_false_eq_true, decide_true, if_true]
      rw [List.lookup_cons, List.lookup_cons]
      split <;> simp_all

theorem lookup_mem : ∀ {l : List (Nat × α)} {t : Nat} {x : α}, l.lookup t = some x → (t, x) ∈ l
  | (v, y) :: l, t, x, h => by
    rw [List.lookup_cons] at h
    by_cases e : t = v
    · subst e
      simp only [beq_self_eq_true] at h
      cases h
      exact List.mem_cons_self
    · rw [show (t == v) = false by simp [e]] at h
      exact List.mem_cons_of_mem _ (lookup_mem h)

theorem lookup_of_mem : ∀ {l : List (Nat × α)} {t : Nat} {x : α}, (l.map Prod.fst).Nodup →
    (t, x) ∈ l → l.lookup t = some x
  | (k, y) :: l, t, x, hn, h => by
    rw [List.map_cons, List.nodup_cons] at hn
    rw [List.lookup_cons]
    rcases List.mem_cons.1 h with e | h
    · cases e
      simp
    · have : t ≠ k := fun e => hn.1 (List.mem_map.2 ⟨(t, x), h, e⟩)
      rw [beq_false_of_ne this]
      exact lookup_of_mem hn.2 h

theorem lookup_append_new (l : List (Nat × α)) (u v : Nat) (c : α) (h : l.lookup u = none) :
    (l ++ [(u, c)]).lookup v = if v = u then some c else l.lookup v := by
  induction l with
  | nil =>
    by_cases e : v = u
    · subst e; simp
    · have : (v == u) = false := by simp [e]
      simp [List.lookup_cons, this, e]
  | cons p l ih =>
    obtain ⟨w, d⟩ := p
    rw [List.lookup_cons] at h
    by_cases hw : u = w
    · subst hw; simp at h
    · have h1 : (u == w) = false := by simp [hw]
      rw [h1] at h
      rw [List.cons_append, List.lookup_cons, List.lookup_cons, ih h]
      by_cases hv : v = w
      · subst hv
        have : ¬ v = u := fun e => hw e.symm
        simp [this]
      · have : (v == w) = false := by simp [hv]
        simp [this]

theorem keys_map (l : List (Nat × α)) (u : Nat) (c : α) :
    (l.map (fun p => if p.1 = u then (u, c) else p)).map Prod.fst = l.map Prod.fst := by
  rw [List.map_map]
  apply List.map_congr_left
  intro p _
  simp only [Function.comp]
  split
  · rename_i h; exact h.symm
  · rfl

theorem lookup_none_iff (l : List (Nat × α)) (u : Nat) : l.lookup u = none ↔ u ∉ l.map Prod.fst := by
  induction l with
  | nil => simp
  | cons p l ih =>
    obtain ⟨w, d⟩ := p
    rw [List.lookup_cons]
    by_cases e : u = w
    · subst e; simp
    · have : (u == w) = false := by simp [e]
      rw [this]
      simp only [List.map_cons, List.mem_cons, e, false_or]
      exact ih

end

theorem find_set_self {s : State} {u : Uuid} {c d : Consumer} (h : s.find u = some d) :
    (s.set u c).find u = some c := lookup_map_self _ _ _ _ h

theorem find_set_other {s : State} {u v : Uuid} {c : Consumer} (hv : v ≠ u) :
    (s.set u c).find v = s.find v := lookup_map_other _ _ _ _ hv

@[simp] theorem find_push {s : State} {u : Uuid} {a : Act} : (s.push a).find u = s.find u := rfl
@[simp] theorem past_push {s : State} {a : Act} : (s.push a).past = a :: s.past := rfl
@[simp] theorem past_set {s : State} {u : Uuid} {c : Consumer} : (s.set u c).past = s.past := rfl

/-! ### The invariant -/

/-- What the record of a connected client says about the past. -/
structure Known (cfg : Cfg) (u : Uuid) (c : Consumer) (h : List Act) : Prop where
  online : Online u h
  hash : c.hash = true → HashShown cfg u h
  key : c.key.isSome = true → KeyGiven cfg u h
  trusted : c.discredited = false → .discredited u ∉ since u h

/-- A handler was started right after its message was looked at. -/
def StartsRight (cfg : Cfg) (t : Nat) (u : Uuid) (ref : Ref) (b : Js) (seq : UInt32) (h : List Act) :
    Prop :=
  Handshake cfg u h ∧ Trusted u h ∧ (∀ a ∈ h, taskOf a ≠ some t) ∧
    ∃ m older, h = .got u m seq :: older ∧ Found m ref b

/-- The right hashes are in the body. -/
def RightHash (cfg : Cfg) (b : Js) : Prop :=
  ∃ ps, b = .obj ps ∧ ps.lookup "protocol".toList = some (.str cfg.protocolHash) ∧
    ps.lookup "workflow".toList = some (.str cfg.workflowHash)

/-- When an act is in order after a history. -/
def Fine (cfg : Cfg) (h : List Act) : Act → Prop
  | .respond t u ref b seq => StartsRight cfg t u ref b seq h ∧
      ∃ r ∈ cfg.workflow.requests, r.request = some ref
  | .beacon t u ref b seq => StartsRight cfg t u ref b seq h ∧
      ∃ x ∈ cfg.workflow.beacons, x.reference = ref
  | .send (.answer t) u seq o => Started cfg t u seq o h ∧ ∀ v q x, .send (.answer t) v q x ∉ h
  | .send (.cast t) _ seq _ => seq = 0 ∧
      ((∃ v q x, .send (.answer t) v q x ∈ h) ∨ ∃ ref, .event t ref ∈ h)
  | .send .handshake u seq o => ∃ m older, h = .got u m seq :: older ∧
      ((∃ k, Found m cfg.selfKey k ∧ o = .selfKey u) ∨
        ∃ b e, Found m "InternalServiceGroup.HashRequest".toList b ∧ o = .hash e ∧
          (e = false ↔ RightHash cfg b))
  | .deferred t => (∃ v q x, .send (.answer t) v q x ∈ h) ∧ .deferred t ∉ h
  | .got u _ _ => Online u h ∧ Trusted u h
  | .opened u => ¬ Online u h
  | .closed u => Online u h
  | _ => True

/-- All acts of a history are in order. -/
def AllFine (cfg : Cfg) : List Act → Prop
  | [] => True
  | a :: h => Fine cfg h a ∧ AllFine cfg h

theorem allFine_at {cfg : Cfg} : ∀ {newer : List Act} {a : Act} {older : List Act},
    AllFine cfg (newer ++ a :: older) → Fine cfg older a
  | [], _, _, h => h.1
  | _ :: newer, _, _, h => allFine_at (newer := newer) h.2

/-- What is known about an unfinished handler. -/
def TaskOk (cfg : Cfg) (t : Nat) (task : Task) (h : List Act) : Prop :=
  (match task.job with
    | .request r => r ∈ cfg.workflow.requests ∧
        ∃ ref b, r.request = some ref ∧ .respond t task.u ref b task.seq ∈ h
    | .beacon => ∃ ref b, .beacon t task.u ref b task.seq ∈ h
    | .event _ => ∃ ref, .event t ref ∈ h) ∧
  (match task.phase with
    | .user => ∀ v q x, .send (.answer t) v q x ∉ h
    | .sending _ => ∃ v q x, .send (.answer t) v q x ∈ h
    | .casting => (∃ e, task.job = .event e) ∨ ∃ v q x, .send (.answer t) v q x ∈ h) ∧
  .deferred t ∉ h

/-- The invariant. `x` is the handler that is going on, `ctx` the client whose messages are looked
at. -/
structure Inv (cfg : Cfg) (x : Option Nat) (ctx : Option Uuid) (s : State) : Prop where
  fine : AllFine cfg s.past
  known : ∀ u c, s.find u = some c → Known cfg u c s.past
  gone : ∀ u, s.find u = none → ¬ Online u s.past
  distinct : (s.consumers.map Prod.fst).Nodup
  fresh : ∀ a ∈ s.past, ∀ t, taskOf a = some t → t < s.next
  ids : ∀ p ∈ s.tasks, p.1 < s.next
  once : (s.tasks.map Prod.fst).Nodup
  tasks : ∀ p ∈ s.tasks, some p.1 ≠ x → TaskOk cfg p.1 p.2 s.past
  during : ∀ u, ctx = some u → (s.find u).isSome = true ∧ Trusted u s.past

theorem inv_new {cfg : Cfg} : Inv cfg none none State.new where
  fine := trivial
  known := by intro u c h; cases h
  gone := by rintro u _ ⟨h, _⟩; cases h
  distinct := List.nodup_nil
  fresh := by intro a h; cases h
  ids := by intro a h; cases h
  once := List.nodup_nil
  tasks := by intro a h; cases h
  during := by intro u h; cases h

/-! ### One more act -/

/-- Acts that do not change who is connected, trusted, or sending data. -/
def Calm : Act → Prop
  | .opened _ => False
  | .closed _ => False
  | .chunk _ => False
  | .discredited _ => False
  | _ => True

theorem mem_since_mono {u : Uuid} {a b : Act} {h : List Act} (ha : a ≠ .opened u)
    (hb : b ∈ since u h) : b ∈ since u (a :: h) := by
  rw [since_cons ha]; exact List.mem_cons_of_mem _ hb

theorem online_mono {u : Uuid} {a : Act} {h : List Act} (h1 : a ≠ .opened u) (h2 : a ≠ .closed u) :
    Online u (a :: h) ↔ Online u h := by
  unfold Online
  rw [since_cons h1]
  simp only [List.mem_cons]
  constructor
  · rintro ⟨h3 | h3, h4⟩
    · exact absurd h3.symm h1
    · exact ⟨h3, fun h5 => h4 (.inr h5)⟩
  · rintro ⟨h3, h4⟩
    exact ⟨.inr h3, fun h5 => h5.elim (fun e => h2 e.symm) h4⟩

theorem hashShown_mono {cfg : Cfg} {u : Uuid} {a : Act} {h : List Act} (ha : a ≠ .opened u)
    (hs : HashShown cfg u h) : HashShown cfg u (a :: h) := by
  obtain ⟨m, seq, ps, h1, h2⟩ := hs
  exact ⟨m, seq, ps, mem_since_mono ha h1, h2⟩

theorem keyGiven_mono {cfg : Cfg} {u : Uuid} {a : Act} {h : List Act} (ha : a ≠ .opened u)
    (hs : KeyGiven cfg u h) : KeyGiven cfg u (a :: h) := by
  rcases hs with ⟨m, seq, k, h1, h2⟩ | h1
  · exact .inl ⟨m, seq, k, mem_since_mono ha h1, h2⟩
  · exact .inr (mem_since_mono ha h1)

theorem trusted_mono {u : Uuid} {a : Act} {h : List Act} (h1 : a ≠ .opened u) (h2 : a ≠ .chunk u)
    (ht : Trusted u h) : Trusted u (a :: h) := by
  obtain ⟨n, o, e, h3, h4, h5⟩ := ht
  refine ⟨a :: n, o, by rw [e]; rfl, ?_, ?_, h5⟩
  · intro hm
    rcases List.mem_cons.1 hm with e | e
    · exact h2 e.symm
    · exact h3 e
  · intro hm
    rcases List.mem_cons.1 hm with e | e
    · exact h1 e.symm
    · exact h4 e

theorem known_mono {cfg : Cfg} {u : Uuid} {c : Consumer} {a : Act} {h : List Act}
    (h1 : a ≠ .opened u) (h2 : a ≠ .closed u) (h3 : a ≠ .discredited u) (hk : Known cfg u c h) :
    Known cfg u c (a :: h) where
  online := (online_mono h1 h2).2 hk.online
  hash e := hashShown_mono h1 (hk.hash e)
  key e := keyGiven_mono h1 (hk.key e)
  trusted e hm := by
    rw [since_cons h1] at hm
    rcases List.mem_cons.1 hm with e2 | e2
    · exact h3 e2.symm
    · exact hk.trusted e e2

theorem calm_opened {a : Act} (h : Calm a) (u : Uuid) : a ≠ .opened u := by rintro rfl; exact h
theorem calm_closed {a : Act} (h : Calm a) (u : Uuid) : a ≠ .closed u := by rintro rfl; exact h
theorem calm_chunk {a : Act} (h : Calm a) (u : Uuid) : a ≠ .chunk u := by rintro rfl; exact h
theorem calm_discredited {a : Act} (h : Calm a) (u : Uuid) : a ≠ .discredited u := by
  rintro rfl; exact h

theorem taskOk_mono {cfg : Cfg} {t : Nat} {task : Task} {a : Act} {h : List Act}
    (ha : taskOf a ≠ some t) (hk : TaskOk cfg t task h) : TaskOk cfg t task (a :: h) := by
  obtain ⟨h1, h2, h3⟩ := hk
  refine ⟨?_, ?_, ?_⟩
  · cases hj : task.job with
    | request r =>
      rw [hj] at h1
      obtain ⟨h4, ref, b, h5, h6⟩ := h1
      exact ⟨h4, ref, b, h5, List.mem_cons_of_mem _ h6⟩
    | beacon =>
      rw [hj] at h1
      obtain ⟨ref, b, h6⟩ := h1
      exact ⟨ref, b, List.mem_cons_of_mem _ h6⟩
    | event e =>
      rw [hj] at h1
      obtain ⟨ref, h6⟩ := h1
      exact ⟨ref, List.mem_cons_of_mem _ h6⟩
  · cases hp : task.phase with
    | user =>
      rw [hp] at h2
      intro v q x hm
      rcases List.mem_cons.1 hm with e | e
      · rw [← e] at ha; exact ha rfl
      · exact h2 v q x e
    | sending c =>
      rw [hp] at h2
      obtain ⟨v, q, x, h4⟩ := h2
      exact ⟨v, q, x, List.mem_cons_of_mem _ h4⟩
    | casting =>
      rw [hp] at h2
      rcases h2 with h2 | ⟨v, q, x, h4⟩
      · exact .inl h2
      · exact .inr ⟨v, q, x, List.mem_cons_of_mem _ h4⟩
  · intro hm
    rcases List.mem_cons.1 hm with e | e
    · rw [← e] at ha; exact ha rfl
    · exact h3 e

theorem inv_push {cfg : Cfg} {x : Option Nat} {ctx : Option Uuid} {s : State} (hs : Inv cfg x ctx s)
    {a : Act} (hc : Calm a) (hf : Fine cfg s.past a)
    (ht : ∀ t, taskOf a = some t → some t = x ∧ t < s.next) : Inv cfg x ctx (s.push a) where
  fine := ⟨hf, hs.fine⟩
  known u c h := known_mono (calm_opened hc u) (calm_closed hc u) (calm_discredited hc u)
    (hs.known u c h)
  gone u h := fun ho => hs.gone u h ((online_mono (calm_opened hc u) (calm_closed hc u)).1 ho)
  distinct := hs.distinct
  fresh b hb t h := by
    rcases List.mem_cons.1 hb with e | e
    · exact (ht t (e ▸ h)).2
    · exact hs.fresh b e t h
  ids := hs.ids
  once := hs.once
  tasks p hp hx := taskOk_mono (fun e => hx (ht p.1 e).1) (hs.tasks p hp hx)
  during u h := ⟨(hs.during u h).1,
    trusted_mono (calm_opened hc u) (calm_chunk hc u) (hs.during u h).2⟩

/-- The record of a client is replaced. -/
theorem inv_set {cfg : Cfg} {x : Option Nat} {ctx : Option Uuid} {s : State} (hs : Inv cfg x ctx s)
    {u : Uuid} {c d : Consumer} (hd : s.find u = some d) (hk : Known cfg u c s.past) :
    Inv cfg x ctx (s.set u c) where
  fine := hs.fine
  known v e h := by
    by_cases hv : v = u
    · subst hv
      rw [find_set_self hd] at h
      cases h
      exact hk
    · rw [find_set_other hv] at h
      exact hs.known v e h
  gone v h := by
    by_cases hv : v = u
    · subst hv
      rw [find_set_self hd] at h
      cases h
    · rw [find_set_other hv] at h
      exact hs.gone v h
  distinct := by
    show ((s.consumers.map _).map Prod.fst).Nodup
    rw [keys_map]
    exact hs.distinct
  fresh := hs.fresh
  ids := hs.ids
  once := hs.once
  tasks := hs.tasks
  during v h := by
    refine ⟨?_, (hs.during v h).2⟩
    by_cases hv : v = u
    · subst hv
      rw [find_set_self hd]; rfl
    · rw [find_set_other hv]
      exact (hs.during v h).1

/-- The client is discredited by user code. -/
theorem inv_discredit {cfg : Cfg} {x : Option Nat} {ctx : Option Uuid} {s : State}
    (hs : Inv cfg x ctx s) {u : Uuid} {c : Consumer} (hd : s.find u = some c) :
    Inv cfg x ctx ((s.set u { c with discredited := true }).push (.discredited u)) where
  fine := ⟨trivial, hs.fine⟩
  known v e h := by
    have h' : (s.set u { c with discredited := true }).find v = some e := h
    by_cases hv : v = u
    · subst hv
      rw [find_set_self hd] at h'
      cases h'
      have hk := hs.known v c hd
      exact ⟨(online_mono (by simp) (by simp)).2 hk.online,
        fun e => hashShown_mono (by simp) (hk.hash e),
        fun e => keyGiven_mono (by simp) (hk.key e), by simp⟩
    · rw [find_set_other hv] at h'
      exact known_mono (by simp) (by simp)
        (by intro e; injection e with e; exact hv e.symm) (hs.known v e h')
  gone v h := by
    have h' : (s.set u { c with discredited := true }).find v = none := h
    have : s.find v = none := by
      by_cases hv : v = u
      · subst hv
        rw [find_set_self hd] at h'
        cases h'
      · rw [find_set_other hv] at h'
        exact h'
    exact fun ho => hs.gone v this ((online_mono (by simp) (by simp)).1 ho)
  distinct := by
    show ((s.consumers.map _).map Prod.fst).Nodup
    rw [keys_map]
    exact hs.distinct
  fresh b hb t h := by
    rcases List.mem_cons.1 hb with e | e
    · rw [e] at h; cases h
    · exact hs.fresh b e t h
  ids := hs.ids
  once := hs.once
  tasks p hp hx := taskOk_mono (by simp [taskOf]) (hs.tasks p hp hx)
  during v h := by
    refine ⟨?_, trusted_mono (by simp) (by simp) (hs.during v h).2⟩
    show ((s.set u { c with discredited := true }).find v).isSome = true
    by_cases hv : v = u
    · subst hv
      rw [find_set_self hd]; rfl
    · rw [find_set_other hv]
      exact (hs.during v h).1

/-! ### User code -/

theorem change_inv {cfg : Cfg} {x : Option Nat} {ctx : Option Uuid} {s : State}
    (hs : Inv cfg x ctx s) (ch : Change) : Inv cfg x ctx (change cfg s ch) := by
  cases ch with
  | key u k o =>
    unfold change
    dsimp only
    split
    · rename_i c hc
      have hk := hs.known u c hc
      have h1 : Inv cfg x ctx (s.push (.keyChange u)) :=
        inv_push hs trivial trivial (by simp [taskOf])
      refine inv_set (s := s.push (.keyChange u)) h1 hc ?_
      have hk2 := h1.known u c hc
      refine ⟨hk2.online, ?_, ?_, ?_⟩
      · intro e
        refine hk2.hash ?_
        unfold Consumer.setKey at e
        split at e <;> exact e
      · intro _
        refine .inr ?_
        simp [since]
      · intro e
        refine hk2.trusted ?_
        unfold Consumer.setKey at e
        split at e <;> exact e
    · exact hs
  | assign u k o =>
    unfold change
    dsimp only
    split
    · rename_i c hc
      have h1 : Inv cfg x ctx (s.push (.assignment u)) :=
        inv_push hs trivial trivial (by simp [taskOf])
      refine inv_set (s := s.push (.assignment u)) h1 hc ?_
      have hk2 := h1.known u c hc
      refine ⟨hk2.online, ?_, ?_, ?_⟩
      · intro e
        refine hk2.hash ?_
        unfold Consumer.assign at e
        split at e <;> exact e
      · intro e
        refine hk2.key ?_
        unfold Consumer.assign at e
        split at e <;> exact e
      · intro e
        refine hk2.trusted ?_
        unfold Consumer.assign at e
        split at e <;> exact e
    · exact hs
  | discredit u =>
    unfold change
    dsimp only
    split
    · rename_i c hc
      exact inv_discredit hs hc
    · exact hs

theorem changes_inv {cfg : Cfg} {x : Option Nat} {ctx : Option Uuid} : ∀ (cs : List Change) {s : State},
    Inv cfg x ctx s → Inv cfg x ctx (cs.foldl (change cfg) s)
  | [], _, h => h
  | c :: cs, _, h => changes_inv cs (change_inv h c)

theorem enter_inv {cfg : Cfg} {env : Env} {x : Option Nat} {ctx : Option Uuid} {s : State} {a : Act}
    (hs : Inv cfg x ctx (s.push a)) : Inv cfg x ctx (enter cfg env a s) := changes_inv _ hs

/-- A piece of the server keeps the invariant. -/
def Keeps (cfg : Cfg) (x : Option Nat) (ctx : Option Uuid) (p : Proc) : Prop :=
  ∀ s, Inv cfg x ctx s → Inv cfg x ctx (p s).2

theorem keeps_andThen {cfg : Cfg} {x : Option Nat} {ctx : Option Uuid} {p q : Proc}
    (hp : Keeps cfg x ctx p) (hq : Keeps cfg x ctx q) : Keeps cfg x ctx (Proc.andThen p q) := by
  intro s hs
  have h := hp s hs
  unfold Proc.andThen
  split
  · rename_i s' e
    rw [e] at h
    exact hq _ h
  · exact h

theorem keeps_skip {cfg : Cfg} {x : Option Nat} {ctx : Option Uuid} : Keeps cfg x ctx .skip :=
  fun _ h => h

theorem keeps_callUser {cfg : Cfg} {env : Env} {x : Option Nat} {ctx : Option Uuid} {a : Act}
    (hc : Calm a) (hf : ∀ h, Fine cfg h a) (ht : taskOf a = none) :
    Keeps cfg x ctx (callUser cfg env a) := fun _ hs =>
  enter_inv (inv_push hs hc (hf _) (by rw [ht]; simp))

theorem keeps_note {cfg : Cfg} {x : Option Nat} {ctx : Option Uuid} {a : Act}
    (hc : Calm a) (hf : ∀ h, Fine cfg h a) (ht : taskOf a = none) :
    Keeps cfg x ctx (Proc.note a) := fun _ hs => inv_push hs hc (hf _) (by rw [ht]; simp)

theorem keeps_receivingErr {cfg : Cfg} {env : Env} {opts : Server.Options} {u : Uuid} {k : Bool}
    {x : Option Nat} {ctx : Option Uuid} : Keeps cfg x ctx (receivingErr cfg env opts u k) := by
  unfold receivingErr
  refine keeps_andThen ?_ ?_
  · split
    · exact keeps_note trivial (fun _ => trivial) rfl
    · exact keeps_skip
  · split
    · exact keeps_callUser trivial (fun _ => trivial) rfl
    · exact keeps_skip

theorem keeps_kick {cfg : Cfg} {env : Env} {u : Uuid} {x : Option Nat} {ctx : Option Uuid} :
    Keeps cfg x ctx (kick cfg env u) :=
  keeps_andThen (keeps_note trivial (fun _ => trivial) rfl)
    (keeps_callUser trivial (fun _ => trivial) rfl)

end Verif.TsServer
