import Verif.Spec.Client
set_option autoImplicit false
/-! What holds in every state of a Rust client. -/
namespace Verif.Client

open Verif

variable {P : Type}

/-! ### Lists as maps -/

section
variable {β : Type}

theorem lookup_cons_if (l : List (Nat × β)) (a m : Nat) (b : β) :
    ((a, b) :: l).lookup m = if m = a then some b else l.lookup m := by
  by_cases h : m = a
  · simp [h]
  · have : (m == a) = false := by simpa using h
    simp [List.lookup_cons, this, h]

theorem lookup_mapSet (l : List (Nat × β)) (n m : Nat) (c : β) :
    (l.map (fun p => if p.1 = n then (n, c) else p)).lookup m =
      if m = n then (l.lookup n).map (fun _ => c) else l.lookup m := by
  induction l with
  | nil => simp
  | cons p l ih =>
    obtain ⟨a, b⟩ := p
    by_cases h1 : a = n <;> by_cases h2 : m = n <;> by_cases h3 : m = a <;>
      simp_all [lookup_cons_if]

theorem lookup_filterNe (l : List (Nat × β)) (n m : Nat) :
    (l.filter (fun p => p.1 ≠ n)).lookup m = if m = n then none else l.lookup m := by
  induction l with
  | nil => simp
  | cons p l ih =>
    obtain ⟨a, b⟩ := p
    by_cases h1 : a = n
    · rw [List.filter_cons_of_neg (by simpa using h1), ih, lookup_cons_if]
      subst h1
      split <;> rfl
    · rw [List.filter_cons_of_pos (by simpa using h1), lookup_cons_if, lookup_cons_if, ih]
      by_cases h2 : m = a
      · subst h2; simp [h1]
      · simp [h2]

theorem lookup_snoc (l : List (Nat × β)) (n m : Nat) (c : β) :
    (l ++ [(n, c)]).lookup m = if (l.lookup m).isSome then l.lookup m else if m = n then some c else none := by
  induction l with
  | nil => by_cases h : m = n <;> simp_all [lookup_cons_if]
  | cons p l ih =>
    obtain ⟨a, b⟩ := p
    rw [List.cons_append, lookup_cons_if, lookup_cons_if, ih]
    by_cases h3 : m = a
    · simp [h3]
    · simp only [if_neg h3]

theorem lookup_mapVal (l : List (Nat × β)) (f : Nat → β → β) (m : Nat) :
    (l.map (fun p => (p.1, f p.1 p.2))).lookup m = (l.lookup m).map (f m) := by
  induction l with
  | nil => simp
  | cons p l ih =>
    obtain ⟨a, b⟩ := p
    by_cases h3 : m = a <;> simp_all [lookup_cons_if]

end

theorem lookup_pending {l : List (UInt32 × Who)} {q : UInt32} {w : Who} (h : l.lookup q = some w) :
    (q, w) ∈ l := by
  induction l with
  | nil => simp at h
  | cons p l ih =>
    obtain ⟨a, b⟩ := p
    by_cases h1 : q = a
    · subst h1
      simp at h
      simp [h]
    · have : (q == a) = false := by simpa using h1
      simp only [List.lookup_cons, this] at h
      exact List.mem_cons_of_mem _ (ih h)

theorem lookup_pending_none {l : List (UInt32 × Who)} {q : UInt32} (h : l.lookup q = none) (w : Who) :
    (q, w) ∉ l := by
  induction l with
  | nil => simp
  | cons p l ih =>
    obtain ⟨a, b⟩ := p
    by_cases h1 : q = a
    · subst h1; simp at h
    · have h2 : (q == a) = false := by simpa using h1
      simp only [List.lookup_cons, h2] at h
      simp [h1, ih h]

/-! ### The invariant -/

/-- The state of the last message. -/
def status : Option (Msgs P) → Status P
  | some ⟨_, .accepting _ _ (.ready true), _⟩ => .free
  | some ⟨_, .accepting q m _, _⟩ => .open_ q m
  | _ => .free

/-- The message for which `api.accept` was called. -/
def asking : Option (Msgs P) → List (UInt32 × In P)
  | some ⟨_, .accepting q m .waiting, _⟩ => [(q, m)]
  | _ => []

def Cmd.acceptOf : Cmd P → Option (UInt32 × In P)
  | .accept q m => some (q, m)
  | _ => none

def Cmd.requestOf : Cmd P → Option (Who × UInt32)
  | .request w q _ => some (w, q)
  | _ => none

/-- The requests under way. -/
def State.pend (s : State P) : List (UInt32 × Who) :=
  match s.api with
  | some a => a.pending
  | none => []

/-- Nothing was asked for this one with this number. -/
def Unasked (queue : List (Cmd P)) (past : List (Act P)) (who : Who) (q : UInt32) : Prop :=
  (∀ o, .request who q o ∉ queue) ∧ ∀ o, .sent who q o ∉ past

def PhaseOK (cfg : Cfg P) (queue : List (Cmd P)) (aq : List AuthMsg) (pend : List (UInt32 × Who))
    (past : List (Act P)) (n : Nat) : Phase P → Prop
  | .sequence .waiting => (∀ q, .numbered n q ∉ past) ∧ (∀ q, Unasked queue past (.call n) q) ∧
      .sequence n ∈ queue
  | .sequence (.ready q) => .numbered n q ∈ past ∧ ∀ q, Unasked queue past (.call n) q
  | .sequence .closed => True
  | .uuid q .waiting => .numbered n q ∈ past ∧ (∀ q, Unasked queue past (.call n) q) ∧
      (.uuid n ∈ queue ∨ .getUuid n ∈ aq)
  | .uuid q (.ready u) => .numbered n q ∈ past ∧ (∀ q, Unasked queue past (.call n) q) ∧
      ∀ v, u = some v → Assigned cfg v past
  | .uuid _ .closed => True
  | .response q .waiting => .numbered n q ∈ past ∧
      ((∃ o, .request (.call n) q o ∈ queue) ∨ (q, .call n) ∈ pend)
  | .response q (.ready m) => .numbered n q ∈ past ∧ .delivered (.call n) q m ∈ past
  | .response q .closed => .numbered n q ∈ past

def CallOK (cfg : Cfg P) (queue : List (Cmd P)) (aq : List AuthMsg) (pend : List (UInt32 × Who))
    (past : List (Act P)) (n : Nat) (c : Call P) : Prop :=
  .called n c.job c.body ∈ past ∧ (∀ r, .ended n r ∉ past) ∧ PhaseOK cfg queue aq pend past n c.phase

def AuthPhaseOK (queue : List (Cmd P)) (pend : List (UInt32 × Who)) (past : List (Act P)) (n : Nat) :
    AuthPhase P → Prop
  | .start => ∀ q, Unasked queue past (.auth n) q
  | .key .waiting => Unasked queue past (.auth n) 1 ∧
      ((∃ o, .request (.auth n) 0 o ∈ queue) ∨ (0, .auth n) ∈ pend)
  | .key (.ready m) => Unasked queue past (.auth n) 1 ∧ .delivered (.auth n) 0 m ∈ past
  | .key .closed => True
  | .hash u .waiting => .delivered (.auth n) 0 (.selfKey u) ∈ past ∧
      ((∃ o, .request (.auth n) 1 o ∈ queue) ∨ (1, .auth n) ∈ pend)
  | .hash u (.ready m) => ∃ newer older, past = newer ++ .delivered (.auth n) 1 m :: older ∧
      .delivered (.auth n) 0 (.selfKey u) ∈ older
  | .hash _ .closed => True

def AuthOK (queue : List (Cmd P)) (pend : List (UInt32 × Who)) (past : List (Act P)) (n : Nat)
    (p : AuthPhase P) : Prop :=
  .authStarted n ∈ past ∧ (∀ r, .authEnded n r ∉ past) ∧ AuthPhaseOK queue pend past n p

structure Inv (cfg : Cfg P) (s : State P) : Prop where
  lawful : Lawful cfg s.past
  handled : Handled cfg.broadcasts s.past (status s.msgs)
  fresh : ∀ n, s.next ≤ n → (∀ job body, .called n job body ∉ s.past) ∧ .authStarted n ∉ s.past
  calls : ∀ n c, s.calls.lookup n = some c → CallOK cfg s.queue s.authQueue s.pend s.past n c
  auths : ∀ n p, s.auths.lookup n = some p → AuthOK s.queue s.pend s.past n p
  requests : ∀ who q o, .request who q o ∈ s.queue → Cause cfg who q o s.past ∧
    ∀ o, .sent who q o ∉ s.past
  once : (s.queue.filterMap Cmd.requestOf).Nodup
  accepts : s.queue.filterMap Cmd.acceptOf = asking s.msgs
  keys : (s.pend.map Prod.fst).Nodup
  pending : ∀ q who, (q, who) ∈ s.pend → (∃ o, .sent who q o ∈ s.past) ∧
    ∀ m, .delivered who q m ∉ s.past
  waits : s.api.isSome → ∀ who q o, .sent who q o ∈ s.past →
    (∃ m, .delivered who q m ∈ s.past) ∨ (q, who) ∈ s.pend
  dead : s.api = none → s.queue = []
  assigned : ∀ u, .setUuid (some u) ∈ s.authQueue → ∃ n, .authEnded n (some u) ∈ s.past
  uuid : ∀ m u, s.msgs = some m → m.uuid = some u → Assigned cfg u s.past
  silent : s.msgs = none → s.authQueue = []

/-- Nobody is asked for a confirmation. -/
def Asks (s : State P) : Prop :=
  ∀ reader q m rp uuid, s.msgs = some ⟨reader, .accepting q m rp, uuid⟩ → m ≠ .confirmation

/-! ### Consequences of lawfulness -/

theorem Assigned.cons {cfg : Cfg P} {u : List Char} {h : List (Act P)} (x : Act P)
    (k : Assigned cfg u h) : Assigned cfg u (x :: h) := by
  obtain ⟨n, w, h1, h2⟩ := k
  exact ⟨n, w, List.mem_cons_of_mem _ h1, h2⟩

theorem Cause.cons {cfg : Cfg P} {who : Who} {q : UInt32} {o : Out P} {h : List (Act P)} (x : Act P)
    (k : Cause cfg who q o h) : Cause cfg who q o (x :: h) := by
  cases who with
  | call n =>
    obtain ⟨job, body, u, ref, h1, h2, h3, h4, h5⟩ := k
    exact ⟨job, body, u, ref, List.mem_cons_of_mem _ h1, List.mem_cons_of_mem _ h2, h3, h4,
      fun v hv => (h5 v hv).cons x⟩
  | auth n =>
    obtain ⟨h1, h2⟩ := k
    refine ⟨List.mem_cons_of_mem _ h1, ?_⟩
    rcases h2 with h2 | ⟨h2, h3, u, h4⟩
    · exact .inl h2
    · exact .inr ⟨h2, h3, u, List.mem_cons_of_mem _ h4⟩

theorem lawful_sent {cfg : Cfg P} {h : List (Act P)} (hl : Lawful cfg h) {who : Who} {q : UInt32}
    {o : Out P} (hm : .sent who q o ∈ h) : Cause cfg who q o h := by
  induction h with
  | nil => simp at hm
  | cons a h ih =>
    rcases List.mem_cons.1 hm with rfl | hm
    · exact hl.1.1.cons _
    · exact (ih hl.2 hm).cons _

theorem lawful_numbered {cfg : Cfg P} {h : List (Act P)} (hl : Lawful cfg h) {n : Nat} {q q' : UInt32}
    (h1 : .numbered n q ∈ h) (h2 : .numbered n q' ∈ h) : q = q' := by
  induction h with
  | nil => simp at h1
  | cons a h ih =>
    rcases List.mem_cons.1 h1 with rfl | k1
    · rcases List.mem_cons.1 h2 with e | k2
      · cases e; rfl
      · exact absurd k2 (hl.1.2 _)
    · rcases List.mem_cons.1 h2 with rfl | k2
      · exact absurd k1 (hl.1.2 _)
      · exact ih hl.2 k1 k2

theorem lawful_delivered {cfg : Cfg P} {h : List (Act P)} (hl : Lawful cfg h) {who : Who} {q : UInt32}
    {m : In P} (hm : .delivered who q m ∈ h) : ∃ o, .sent who q o ∈ h := by
  induction h with
  | nil => simp at hm
  | cons a h ih =>
    rcases List.mem_cons.1 hm with rfl | hm
    · obtain ⟨o, ho⟩ := hl.1.1
      exact ⟨o, List.mem_cons_of_mem _ ho⟩
    · obtain ⟨o, ho⟩ := ih hl.2 hm
      exact ⟨o, List.mem_cons_of_mem _ ho⟩

theorem inv_new (cfg : Cfg P) : Inv cfg (State.new : State P) := by
  constructor <;> simp [State.new, Lawful, State.pend, asking, status]
  · exact .nil
  · rintro _ _ rfl h
    cases h

end Verif.Client
