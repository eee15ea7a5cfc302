import Verif.Model.RustProducer
import Verif.Spec.Server
set_option autoImplicit false
/-!
The invariant of the server loop.
-/
namespace Verif.Server

open Verif

variable {P : Type}

/-! ### Lists -/

theorem since_cons {u : Uuid} {a : Act P} {h : List (Act P)} (ha : a ≠ .opened u) :
    since u (a :: h) = a :: since u h := by
  cases a <;> simp [since]
  rename_i v
  intro e
  exact absurd (by rw [e]) ha

theorem since_opened {u : Uuid} {h : List (Act P)} : since u (.opened u :: h) = [] := by
  simp [since]

theorem since_sub {u : Uuid} {h : List (Act P)} {a : Act P} (m : a ∈ since u h) : a ∈ h := by
  induction h with
  | nil => simp [since] at m
  | cons b h ih =>
    by_cases hb : b = .opened u
    · rw [hb, since_opened] at m; simp at m
    · rw [since_cons hb] at m
      rcases List.mem_cons.1 m with rfl | m
      · exact List.mem_cons_self
      · exact List.mem_cons_of_mem _ (ih m)

theorem lookup_map_self (l : List (Uuid × Consumer P)) (u : Uuid) (c d : Consumer P)
    (h : l.lookup u = some d) :
    (l.map (fun p => if p.1 = u then (u, c) else p)).lookup u = some c := by
  induction l with
  | nil => simp at h
  | cons p l ih =>
    obtain ⟨v, e⟩ := p
    by_cases hv : v = u
    · subst hv; simp
    · have hv' : (u == v) = false := by simp; exact fun e => hv e.symm
      rw [List.lookup_cons, hv'] at h
      simp only [List.map_cons, if_neg hv]
      rw [List.lookup_cons, hv']
      exact ih h

theorem lookup_map_other (l : List (Uuid × Consumer P)) (u v : Uuid) (c : Consumer P) (hv : v ≠ u) :
    (l.map (fun p => if p.1 = u then (u, c) else p)).lookup v = l.lookup v := by
  induction l with
  | nil => rfl
  | cons p l ih =>
    obtain ⟨w, e⟩ := p
    by_cases hw : w = u
    · subst hw
      have : (v == w) = false := by simp [hv]
      simp only [List.map_cons, if_pos]
      rw [List.lookup_cons, this, List.lookup_cons, this]
      exact ih
    · simp only [List.map_cons, if_neg hw]
      rw [List.lookup_cons, List.lookup_cons, ih]

theorem lookup_filter_self (l : List (Uuid × Consumer P)) (u : Uuid) :
    (l.filter (fun p => p.1 ≠ u)).lookup u = none := by
  induction l with
  | nil => rfl
  | cons p l ih =>
    obtain ⟨w, e⟩ := p
    by_cases hw : w = u
    · simp [hw]; simpa using ih
    · have : (u == w) = false := by simp; exact fun e => hw e.symm
      simp only [List.filter_cons, ne_eq, hw, not_false_eq_true, decide_true, if_true]
      rw [List.lookup_cons, this]
      simpa using ih

theorem lookup_filter_other (l : List (Uuid × Consumer P)) (u v : Uuid) (hv : v ≠ u) :
    (l.filter (fun p => p.1 ≠ u)).lookup v = l.lookup v := by
  induction l with
  | nil => rfl
  | cons p l ih =>
    obtain ⟨w, e⟩ := p
    by_cases hw : w = u
    · subst hw
      have : (v == w) = false := by simp [hv]
      rw [List.lookup_cons, this]
      simpa using ih
    · simp only [List.filter_cons, ne_eq, hw, not_false_eq_true, decide_true, if_true]
      rw [List.lookup_cons, List.lookup_cons]
      split <;> simp_all

theorem find_set_self {s : State P} {u : Uuid} {c d : Consumer P} (h : s.find u = some d) :
    (s.set u c).find u = some c := lookup_map_self _ _ _ _ h

theorem find_set_other {s : State P} {u v : Uuid} {c : Consumer P} (hv : v ≠ u) :
    (s.set u c).find v = s.find v := lookup_map_other _ _ _ _ hv

@[simp] theorem find_push {s : State P} {u : Uuid} {a : Act P} : (s.push a).find u = s.find u := rfl
@[simp] theorem past_push {s : State P} {a : Act P} : (s.push a).past = a :: s.past := rfl
@[simp] theorem past_set {s : State P} {u : Uuid} {c : Consumer P} : (s.set u c).past = s.past := rfl

/-! ### The invariant -/

/-- What the record of a connected client says about the past. -/
structure Known (cfg : Cfg P) (u : Uuid) (c : Consumer P) (h : List (Act P)) : Prop where
  online : Online u h
  confirmed : c.confirmed = true ↔ .confirmed u ∈ since u h
  hash : c.hashAccepted = true ↔ HashShown u cfg.protocolHash cfg.workflowHash h
  key : c.key.isSome = true → KeyGiven u cfg.selfKey h
  assigned : c.assigned.isSome = true → .assignment u ∈ since u h
  discredited : c.discredited = true ↔ Kicked u h

/-- When an act is in order after a history. -/
def Fine (cfg : Cfg P) (opts : Options) (h : List (Act P)) : Act P → Prop
  | .respond u _ _ => Handshake cfg opts u h ∧ FreshData u h
  | .beacon u _ _ => Handshake cfg opts u h ∧ FreshData u h
  | .drop u => Online u h ∧ ¬ Kicked u h
  | .opened u => ¬ Online u h
  | .closed u => Online u h
  | _ => True

/-- All acts of a history are in order. -/
def AllFine (cfg : Cfg P) (opts : Options) : List (Act P) → Prop
  | [] => True
  | a :: h => Fine cfg opts h a ∧ AllFine cfg opts h

/-- What holds while the messages of a client are processed. -/
structure During (opts : Options) (u : Uuid) (assigned hasKey : Bool) (s : State P) : Prop where
  here : ∃ c, s.find u = some c ∧ c.confirmed = true ∧ (hasKey = true → c.key.isSome = true) ∧
    (assigned = true → Strict opts.identification → c.assigned.isSome = true)
  fresh : FreshData u s.past

/-- The invariant; `ctx` says whose messages are processed, and the two values read before. -/
structure Inv (cfg : Cfg P) (opts : Options) (ctx : Option (Uuid × Bool × Bool)) (s : State P) :
    Prop where
  fine : AllFine cfg opts s.past
  known : ∀ u c, s.find u = some c → Known cfg u c s.past
  gone : ∀ u, s.find u = none → ¬ Online u s.past
  during : ∀ u a k, ctx = some (u, a, k) → During opts u a k s

/-- Acts that say nothing about the handshake. -/
def Neutral (cfg : Cfg P) : Act P → Prop
  | .opened _ => False
  | .closed _ => False
  | .drop _ => False
  | .chunk _ => False
  | .confirmed _ => False
  | .got _ (.hash a b) _ => ¬ (a = cfg.protocolHash ∧ b = cfg.workflowHash)
  | _ => True

theorem Neutral.ne_opened {cfg : Cfg P} {a : Act P} (n : Neutral cfg a) (u : Uuid) :
    a ≠ .opened u := by rintro rfl; exact n

theorem known_push {cfg : Cfg P} {u : Uuid} {c : Consumer P} {h : List (Act P)} {a : Act P}
    (n : Neutral cfg a) (k : Known cfg u c h) : Known cfg u c (a :: h) := by
  have e := since_cons (h := h) (n.ne_opened u)
  refine ⟨⟨List.mem_cons_of_mem _ k.online.1, ?_⟩, ?_, ?_, ?_, ?_, ?_⟩
  · rw [e]
    intro m
    rcases List.mem_cons.1 m with rfl | m
    · exact n
    · exact k.online.2 m
  · rw [k.confirmed, e]
    constructor
    · intro m; exact List.mem_cons_of_mem _ m
    · intro m
      rcases List.mem_cons.1 m with rfl | m
      · exact n.elim
      · exact m
  · rw [k.hash, HashShown, HashShown, e]
    constructor
    · rintro ⟨q, m⟩; exact ⟨q, List.mem_cons_of_mem _ m⟩
    · rintro ⟨q, m⟩
      rcases List.mem_cons.1 m with rfl | m
      · exact absurd ⟨rfl, rfl⟩ n
      · exact ⟨q, m⟩
  · intro x
    rw [KeyGiven, e]
    rcases k.key x with ⟨p, q, m⟩ | m
    · exact .inl ⟨p, q, List.mem_cons_of_mem _ m⟩
    · exact .inr (List.mem_cons_of_mem _ m)
  · intro x; rw [e]; exact List.mem_cons_of_mem _ (k.assigned x)
  · rw [k.discredited, Kicked, Kicked, e]
    constructor
    · intro m; exact List.mem_cons_of_mem _ m
    · intro m
      rcases List.mem_cons.1 m with rfl | m
      · exact n.elim
      · exact m

theorem fresh_push {u : Uuid} {h : List (Act P)} {a : Act P} (h1 : a ≠ .chunk u) (h2 : a ≠ .opened u)
    (f : FreshData u h) : FreshData u (a :: h) := by
  obtain ⟨n, o, rfl, c, d, k⟩ := f
  refine ⟨a :: n, o, rfl, ?_, ?_, k⟩
  · intro m
    rcases List.mem_cons.1 m with e | m
    · exact h1 e.symm
    · exact c m
  · intro m
    rcases List.mem_cons.1 m with e | m
    · exact h2 e.symm
    · exact d m

theorem online_push {u : Uuid} {h : List (Act P)} {a : Act P} (h1 : a ≠ .opened u) (h2 : a ≠ .closed u) :
    Online u (a :: h) ↔ Online u h := by
  rw [Online, Online, since_cons h1]
  constructor
  · rintro ⟨x, y⟩
    rcases List.mem_cons.1 x with e | x
    · exact absurd e.symm h1
    · exact ⟨x, fun m => y (List.mem_cons_of_mem _ m)⟩
  · rintro ⟨x, y⟩
    refine ⟨List.mem_cons_of_mem _ x, fun m => ?_⟩
    rcases List.mem_cons.1 m with e | m
    · exact h2 e.symm
    · exact y m

theorem inv_push {cfg : Cfg P} {opts : Options} {ctx : Option (Uuid × Bool × Bool)} {s : State P}
    {a : Act P} (n : Neutral cfg a) (f : Fine cfg opts s.past a) (i : Inv cfg opts ctx s) :
    Inv cfg opts ctx (s.push a) := by
  refine ⟨⟨f, i.fine⟩, fun u c h => known_push n (i.known u c h), fun u h => ?_, fun u a' k h => ?_⟩
  · rw [past_push, online_push (n.ne_opened u) (by rintro rfl; exact n)]
    exact i.gone u h
  · have d := i.during u a' k h
    exact ⟨d.here, fresh_push (by rintro rfl; exact n) (n.ne_opened u) d.fresh⟩

/-- Changing the record of a client. -/
theorem inv_set {cfg : Cfg P} {opts : Options} {ctx : Option (Uuid × Bool × Bool)} {s : State P}
    {u : Uuid} {c d : Consumer P} (hd : s.find u = some d)
    (i : Inv cfg opts ctx s) (k : Known cfg u c s.past)
    (hc : d.confirmed = true → c.confirmed = true)
    (hk : d.key.isSome = true → c.key.isSome = true)
    (ha : d.assigned.isSome = true → c.assigned.isSome = true) : Inv cfg opts ctx (s.set u c) := by
  refine ⟨i.fine, fun v e h => ?_, fun v h => ?_, fun v a' k' h => ?_⟩
  · by_cases hv : v = u
    · subst hv
      rw [find_set_self hd] at h
      injection h with h
      subst h
      exact k
    · rw [find_set_other hv] at h
      exact i.known v e h
  · by_cases hv : v = u
    · subst hv
      rw [find_set_self hd] at h
      cases h
    · rw [find_set_other hv] at h
      exact i.gone v h
  · have du := i.during v a' k' h
    refine ⟨?_, du.fresh⟩
    by_cases hv : v = u
    · subst hv
      obtain ⟨e, he, x, y, z⟩ := du.here
      rw [hd] at he
      injection he with he
      subst he
      exact ⟨c, find_set_self hd, hc x, fun q => hk (y q), fun q r => ha (z q r)⟩
    · rw [find_set_other hv]
      exact du.here

/-! ### Pieces of the server keep the invariant -/

/-- The piece keeps the invariant, whatever its outcome. -/
def Keeps (I : State P → Prop) (p : Proc P) : Prop := ∀ s, I s → I (p s).2

theorem keeps_andThen {I : State P → Prop} {p q : Proc P} (hp : Keeps I p) (hq : Keeps I q) :
    Keeps I (p.andThen q) := by
  intro s i
  unfold Proc.andThen
  have := hp s i
  split
  · rename_i h; rw [h] at this; exact hq _ this
  · rename_i h; rw [h] at this; exact this
  · rename_i h; rw [h] at this; exact this

theorem keeps_skip {I : State P → Prop} : Keeps I (.skip : Proc P) := fun _ i => i

theorem keeps_ite {I : State P → Prop} {c : Prop} [Decidable c] {p q : Proc P} (hp : Keeps I p)
    (hq : Keeps I q) : Keeps I (if c then p else q) := by
  split
  · exact hp
  · exact hq

theorem keeps_warned {I : State P → Prop} {p : Proc P} (hp : Keeps I p) : Keeps I (warned p) := by
  intro s i
  have := hp s i
  unfold warned
  split
  · rename_i h; rw [h] at this; exact this
  · rename_i h; rw [h] at this; exact this
  · rename_i h; rw [h] at this; exact this

section
variable {cfg : Cfg P} {opts : Options} {ctx : Option (Uuid × Bool × Bool)} (env : Env P)

theorem send_keeps (u : Uuid) (seq : UInt32) (o : Out P) {s : State P} (i : Inv cfg opts ctx s) :
    Inv cfg opts ctx (send env u seq o s).2 := inv_push (a := .send u seq o _) trivial trivial i

theorem broadcast_keeps (o : Out P) (us : List Uuid) {s : State P} (i : Inv cfg opts ctx s) :
    Inv cfg opts ctx (broadcast env o us s) := by
  induction us generalizing s with
  | nil => exact i
  | cons u us ih => exact ih (send_keeps env u 0 o i)

theorem broadcastAll_keeps (cs : List (Ref × Cast P)) {s : State P} (i : Inv cfg opts ctx s) :
    Inv cfg opts ctx (broadcastAll env cs s) := by
  induction cs generalizing s with
  | nil => exact i
  | cons c cs ih =>
    obtain ⟨r, us, p⟩ := c
    exact ih (broadcast_keeps env _ us i)

theorem finish_keeps (u : Uuid) (seq : UInt32) (o : Out P) (cs : List (Ref × Cast P)) :
    Keeps (Inv cfg opts ctx) (finish cfg env u seq o cs) := by
  intro s i
  unfold finish
  split
  · exact i
  · have := send_keeps env u seq o i
    split
    · rename_i h; rw [h] at this; exact this
    · rename_i h; rw [h] at this
      exact inv_push (a := .deferred) trivial trivial (broadcastAll_keeps env cs this)

theorem process_keeps (r : Flow.Request) (u : Uuid) (p : P) (seq : UInt32) {s : State P}
    (f : Handshake cfg opts u s.past ∧ FreshData u s.past) (i : Inv cfg opts ctx s) :
    Inv cfg opts ctx (process cfg env r u p seq s).2 := by
  unfold process
  have i := inv_push (a := .respond u (r.request.getD []) seq) trivial f i
  dsimp only
  split
  · split
    · exact i
    · exact finish_keeps env _ _ _ _ _ i
    · exact finish_keeps env _ _ _ _ _ i
  · split
    · exact i
    · exact finish_keeps env _ _ _ _ _ i
    · exact finish_keeps env _ _ _ _ _ i

theorem emitBeacon_keeps (ref : Ref) (u : Uuid) (p : P) (seq : UInt32) {s : State P}
    (f : Handshake cfg opts u s.past ∧ FreshData u s.past) (i : Inv cfg opts ctx s) :
    Inv cfg opts ctx (emitBeacon cfg env ref u p seq s).2 := by
  unfold emitBeacon
  have i := inv_push (a := .beacon u ref seq) trivial f i
  dsimp only
  split
  · exact i
  · exact i
  · exact finish_keeps env _ _ _ _ _ i

theorem emitEvent_keeps (e : Flow.Event) (p : Option P) :
    Keeps (Inv cfg opts ctx) (emitEvent cfg env e p) := by
  intro s i
  unfold emitEvent
  have i := inv_push (a := .event (e.reference.getD [])) trivial trivial i
  dsimp only
  split
  · exact i
  · exact i
  · split
    · exact i
    · exact inv_push (a := .deferred) trivial trivial (broadcastAll_keeps env _ i)

theorem emitError_keeps (u : Option Uuid) : Keeps (Inv cfg opts ctx) (emitError env u) :=
  fun _ i => inv_push (a := .error u) trivial trivial i

theorem known_drop {u : Uuid} {c : Consumer P} {h : List (Act P)} (k : Known cfg u c h) :
    Known cfg u { c with discredited := true } (.drop u :: h) := by
  have e := since_cons (u := u) (a := .drop u) (h := h) (by simp)
  refine ⟨(online_push (by simp) (by simp)).2 k.online, ?_, ?_, ?_, ?_, ?_⟩
  · show c.confirmed = true ↔ _
    rw [k.confirmed, e]
    simp
  · show c.hashAccepted = true ↔ _
    rw [k.hash, HashShown, HashShown, e]
    simp
  · intro x
    rw [KeyGiven, e]
    rcases k.key x with ⟨p, q, m⟩ | m
    · exact .inl ⟨p, q, List.mem_cons_of_mem _ m⟩
    · exact .inr (List.mem_cons_of_mem _ m)
  · intro x; rw [e]; exact List.mem_cons_of_mem _ (k.assigned x)
  · rw [Kicked, e]; simp

theorem known_other {u v : Uuid} (hv : v ≠ u) {c : Consumer P} {h : List (Act P)} {a : Act P}
    (ha : a = .drop u ∨ (∃ m seq, a = .got u m seq) ∨ a = .closed u ∨ a = .opened u ∨ a = .chunk u ∨
      a = .confirmed u)
    (k : Known cfg v c h) : Known cfg v c (a :: h) := by
  have n : a ≠ .opened v := by
    rcases ha with rfl | ⟨m, q, rfl⟩ | rfl | rfl | rfl | rfl <;> simp
    exact fun e => hv e.symm
  have n2 : a ≠ .closed v := by
    rcases ha with rfl | ⟨m, q, rfl⟩ | rfl | rfl | rfl | rfl <;> simp
    exact fun e => hv e.symm
  have n3 : a ≠ .drop v := by
    rcases ha with rfl | ⟨m, q, rfl⟩ | rfl | rfl | rfl | rfl <;> simp
    exact fun e => hv e.symm
  have n5 : a ≠ .confirmed v := by
    rcases ha with rfl | ⟨m, q, rfl⟩ | rfl | rfl | rfl | rfl <;> simp
    exact fun e => hv e.symm
  have n4 : ∀ x y z, a ≠ .got v (.hash x y) z := by
    intro x y z
    rcases ha with rfl | ⟨m, q, rfl⟩ | rfl | rfl | rfl | rfl <;> simp
    exact fun e => absurd e.symm hv
  have e := since_cons (h := h) n
  refine ⟨(online_push n n2).2 k.online, ?_, ?_, ?_, ?_, ?_⟩
  · rw [k.confirmed, e]
    constructor
    · intro m; exact List.mem_cons_of_mem _ m
    · intro m
      rcases List.mem_cons.1 m with he | m
      · exact absurd he.symm n5
      · exact m
  · rw [k.hash, HashShown, HashShown, e]
    constructor
    · rintro ⟨q, m⟩; exact ⟨q, List.mem_cons_of_mem _ m⟩
    · rintro ⟨q, m⟩
      rcases List.mem_cons.1 m with he | m
      · exact absurd he.symm (n4 _ _ _)
      · exact ⟨q, m⟩
  · intro x
    rw [KeyGiven, e]
    rcases k.key x with ⟨p, q, m⟩ | m
    · exact .inl ⟨p, q, List.mem_cons_of_mem _ m⟩
    · exact .inr (List.mem_cons_of_mem _ m)
  · intro x; rw [e]; exact List.mem_cons_of_mem _ (k.assigned x)
  · rw [k.discredited, Kicked, Kicked, e]
    constructor
    · intro m; exact List.mem_cons_of_mem _ m
    · intro m
      rcases List.mem_cons.1 m with he | m
      · exact absurd he.symm n3
      · exact m

theorem disconnect_keeps (u : Uuid) : Keeps (Inv cfg opts ctx) (disconnect env u) := by
  intro s i
  unfold disconnect
  split
  · exact i
  · rename_i c hc
    split
    · exact i
    · rename_i hd
      have k := i.known u c hc
      show Inv cfg opts ctx ((s.set u { c with discredited := true }).push (.drop u))
      refine ⟨⟨⟨k.online, fun x => hd (k.discredited.2 x)⟩, i.fine⟩, fun v e h => ?_, fun v h => ?_,
        fun v a' k' h => ?_⟩
      · by_cases hv : v = u
        · subst hv
          rw [find_push, find_set_self hc] at h
          injection h with h
          subst h
          exact known_drop k
        · rw [find_push, find_set_other hv] at h
          exact known_other hv (.inl rfl) (i.known v e h)
      · rw [find_push] at h
        rw [past_push, online_push (by simp) (by simp)]
        by_cases hv : v = u
        · subst hv
          rw [find_set_self hc] at h
          cases h
        · rw [find_set_other hv] at h
          exact i.gone v h
      · have du := i.during v a' k' h
        refine ⟨?_, fresh_push (by simp) (by simp) du.fresh⟩
        rw [find_push]
        by_cases hv : v = u
        · subst hv
          obtain ⟨e, he, x⟩ := du.here
          rw [hc] at he
          injection he with he
          subst he
          exact ⟨_, find_set_self hc, x⟩
        · rw [find_set_other hv]
          exact du.here

theorem responsingErr_keeps (u : Uuid) : Keeps (Inv cfg opts ctx) (responsingErr env opts u) := by
  unfold responsingErr
  exact keeps_andThen (keeps_ite (disconnect_keeps env u) keeps_skip)
    (keeps_ite (emitError_keeps env _) keeps_skip)

theorem kick_keeps (u : Uuid) : Keeps (Inv cfg opts ctx) (kick env u) :=
  keeps_andThen (disconnect_keeps env u) (emitError_keeps env _)

theorem answer_keeps (u : Uuid) (seq : UInt32) (o : Out P) :
    Keeps (Inv cfg opts ctx) (answer cfg env opts u seq o) := by
  intro s i
  unfold answer
  split
  · exact responsingErr_keeps env u s i
  · have := send_keeps env u seq o i
    split
    · rename_i h; rw [h] at this; exact this
    · rename_i h; rw [h] at this; exact responsingErr_keeps env u _ this

end

end Verif.Server
