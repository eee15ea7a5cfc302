import Verif.Proofs.ServerLoop
set_option autoImplicit false
/-!
What processing the data of one client can touch.
-/
namespace Verif.Server

open Verif

variable {P : Type} {cfg : Cfg P} {opts : Options} (env : Env P)

/-- From `s` to `s'` only acts with property `A` happened, the set of clients is the same, and only
the record of `u` changed. -/
structure Local (A : Act P → Prop) (u : Uuid) (s s' : State P) : Prop where
  past : ∃ l, s'.past = l ++ s.past ∧ ∀ a ∈ l, A a
  keys : s'.consumers.map Prod.fst = s.consumers.map Prod.fst
  others : ∀ v, v ≠ u → s'.find v = s.find v
  confirms : s'.confirms = s.confirms

/-- Acts while a message of `u` is processed. -/
def Inner (u : Uuid) : Act P → Prop
  | .send _ _ _ _ => True
  | .error _ => True
  | .deferred => True
  | .drop v => v = u
  | .respond v _ _ => v = u
  | .beacon v _ _ => v = u
  | _ => False

/-- Acts while a piece of data of `u` is processed. -/
def InnerData (u : Uuid) : Act P → Prop
  | .chunk v => v = u
  | .got v _ _ => v = u
  | a => Inner u a

theorem Inner.data {u : Uuid} {a : Act P} (h : Inner u a) : InnerData u a := by
  cases a <;> first | exact h | exact h.elim

theorem Local.refl {A : Act P → Prop} {u : Uuid} (s : State P) : Local A u s s :=
  ⟨⟨[], rfl, by simp⟩, rfl, fun _ _ => rfl, rfl⟩

theorem Local.trans {A : Act P → Prop} {u : Uuid} {s t r : State P} (h : Local A u s t)
    (k : Local A u t r) : Local A u s r := by
  obtain ⟨l, hl, hA⟩ := h.past
  obtain ⟨m, hm, hB⟩ := k.past
  refine ⟨⟨m ++ l, by rw [hm, hl, List.append_assoc], fun a ha => ?_⟩, k.keys.trans h.keys,
    fun v hv => (k.others v hv).trans (h.others v hv), k.confirms.trans h.confirms⟩
  rcases List.mem_append.1 ha with ha | ha
  · exact hB a ha
  · exact hA a ha

theorem Local.mono {A B : Act P → Prop} {u : Uuid} {s t : State P} (hAB : ∀ a, A a → B a)
    (h : Local A u s t) : Local B u s t := by
  obtain ⟨l, hl, hA⟩ := h.past
  exact ⟨⟨l, hl, fun a ha => hAB a (hA a ha)⟩, h.keys, h.others, h.confirms⟩

theorem Local.push {A : Act P → Prop} {u : Uuid} {s : State P} {a : Act P} (h : A a) :
    Local A u s (s.push a) :=
  ⟨⟨[a], rfl, fun b hb => by rcases List.mem_singleton.1 hb with rfl; exact h⟩, rfl, fun _ _ => rfl, rfl⟩

theorem set_keys (s : State P) (u : Uuid) (c : Consumer P) :
    (s.set u c).consumers.map Prod.fst = s.consumers.map Prod.fst := by
  show (s.consumers.map _).map Prod.fst = _
  rw [List.map_map]
  apply List.map_congr_left
  intro p _
  by_cases h : p.1 = u
  · simp [h]
  · simp [h]

theorem Local.set {A : Act P → Prop} {u : Uuid} {s : State P} {c : Consumer P} :
    Local A u s (s.set u c) :=
  ⟨⟨[], rfl, by simp⟩, set_keys s u c, fun _ hv => find_set_other hv, rfl⟩

/-- The piece only touches `u`. -/
def IsLocal (A : Act P → Prop) (u : Uuid) (p : Proc P) : Prop := ∀ s, Local A u s (p s).2

theorem IsLocal.andThen {A : Act P → Prop} {u : Uuid} {p q : Proc P} (hp : IsLocal A u p)
    (hq : IsLocal A u q) : IsLocal A u (p.andThen q) := by
  intro s
  have := hp s
  unfold Proc.andThen
  split
  · rename_i h; rw [h] at this; exact this.trans (hq _)
  · rename_i h; rw [h] at this; exact this
  · rename_i h; rw [h] at this; exact this

theorem IsLocal.skip {A : Act P → Prop} {u : Uuid} : IsLocal A u (.skip : Proc P) := fun s => .refl s

theorem IsLocal.ite {A : Act P → Prop} {u : Uuid} {c : Prop} [Decidable c] {p q : Proc P}
    (hp : IsLocal A u p) (hq : IsLocal A u q) : IsLocal A u (if c then p else q) := by
  split
  · exact hp
  · exact hq

theorem IsLocal.mono {A B : Act P → Prop} {u : Uuid} {p : Proc P} (hAB : ∀ a, A a → B a)
    (h : IsLocal A u p) : IsLocal B u p := fun s => (h s).mono hAB

theorem send_local (u v : Uuid) (seq : UInt32) (o : Out P) (s : State P) :
    Local (Inner u) u s (send env v seq o s).2 := .push (a := .send v seq o _) trivial

theorem broadcast_local (u : Uuid) (o : Out P) (us : List Uuid) (s : State P) :
    Local (Inner u) u s (broadcast env o us s) := by
  induction us generalizing s with
  | nil => exact .refl s
  | cons v us ih => exact (send_local env u v 0 o s).trans (ih _)

theorem broadcastAll_local (u : Uuid) (cs : List (Ref × Cast P)) (s : State P) :
    Local (Inner u) u s (broadcastAll env cs s) := by
  induction cs generalizing s with
  | nil => exact .refl s
  | cons c cs ih =>
    obtain ⟨r, us, p⟩ := c
    exact (broadcast_local env u _ us s).trans (ih _)

theorem finish_local (u : Uuid) (seq : UInt32) (o : Out P) (cs : List (Ref × Cast P)) :
    IsLocal (Inner u) u (finish cfg env u seq o cs) := by
  intro s
  unfold finish
  split
  · exact .refl s
  · have := send_local env u u seq o s
    split
    · rename_i h; rw [h] at this; exact this
    · rename_i h; rw [h] at this
      exact this.trans ((broadcastAll_local env u cs _).trans (.push (a := .deferred) trivial))

theorem process_local (r : Flow.Request) (u : Uuid) (p : P) (seq : UInt32) :
    IsLocal (Inner u) u (process cfg env r u p seq) := by
  intro s
  unfold process
  have h0 : Local (Inner u) u s (s.push (.respond u (r.request.getD []) seq)) := .push rfl
  dsimp only
  split
  · split
    · exact h0
    · exact h0.trans (finish_local env _ _ _ _ _)
    · exact h0.trans (finish_local env _ _ _ _ _)
  · split
    · exact h0
    · exact h0.trans (finish_local env _ _ _ _ _)
    · exact h0.trans (finish_local env _ _ _ _ _)

theorem emitBeacon_local (ref : Ref) (u : Uuid) (p : P) (seq : UInt32) :
    IsLocal (Inner u) u (emitBeacon cfg env ref u p seq) := by
  intro s
  unfold emitBeacon
  have h0 : Local (Inner u) u s (s.push (.beacon u ref seq)) := .push rfl
  dsimp only
  split
  · exact h0
  · exact h0
  · exact h0.trans (finish_local env _ _ _ _ _)

theorem emitError_local (u : Uuid) (v : Option Uuid) : IsLocal (Inner u) u (emitError env v) :=
  fun _ => .push (a := .error v) trivial

theorem disconnect_local (u : Uuid) : IsLocal (Inner u) u (disconnect env u) := by
  intro s
  unfold disconnect
  split
  · exact .refl s
  · split
    · exact .refl s
    · exact Local.set.trans (.push (a := .drop u) rfl)

theorem responsingErr_local (u : Uuid) : IsLocal (Inner u) u (responsingErr env opts u) := by
  unfold responsingErr
  exact .andThen (.ite (disconnect_local env u) .skip) (.ite (emitError_local env u _) .skip)

theorem kick_local (u : Uuid) : IsLocal (Inner u) u (kick env u) :=
  .andThen (disconnect_local env u) (emitError_local env u _)

theorem answer_local (u : Uuid) (seq : UInt32) (o : Out P) :
    IsLocal (Inner u) u (answer cfg env opts u seq o) := by
  intro s
  unfold answer
  split
  · exact responsingErr_local env u s
  · have := send_local env u u seq o s
    split
    · rename_i h; rw [h] at this; exact this
    · rename_i h; rw [h] at this; exact this.trans (responsingErr_local env u _)

theorem onSelfKey_local (u : Uuid) (c : Consumer P) (k : P) (seq : UInt32) :
    IsLocal (Inner u) u (onSelfKey cfg env opts u c k seq) :=
  fun _ => Local.set.trans (answer_local env u seq _ _)

theorem onHash_local (u : Uuid) (c : Consumer P) (a b : List Char) (seq : UInt32) :
    IsLocal (Inner u) u (onHash cfg env opts u c a b seq) := by
  intro s
  unfold onHash
  split
  · exact IsLocal.andThen (answer_local env u seq _) (kick_local env u) s
  · exact Local.set.trans (answer_local env u seq _ _)

theorem dispatch_local (u : Uuid) (ref : Ref) (p : P) (seq : UInt32) :
    IsLocal (Inner u) u (dispatch cfg env opts u ref p seq) := by
  intro s
  unfold dispatch
  split
  · have := process_local (cfg := cfg) env ‹_› u p seq s
    split
    · rename_i h; rw [h] at this; exact this
    · rename_i h; rw [h] at this; exact this.trans (responsingErr_local env u _)
    · rename_i h; rw [h] at this; exact this
  · split
    · have := emitBeacon_local (cfg := cfg) env ref u p seq s
      split
      · rename_i h; rw [h] at this; exact this
      · rename_i h; rw [h] at this; exact this.trans (emitError_local env u _ _)
      · rename_i h; rw [h] at this; exact this
    · exact .refl s

theorem onOther_local (u : Uuid) (a k : Bool) (c : Consumer P) (ref : Ref) (p : P) (seq : UInt32) :
    IsLocal (Inner u) u (onOther cfg env opts u a k c ref p seq) := by
  intro s
  unfold onOther
  split
  · exact kick_local env u s
  · split
    · exact kick_local env u s
    · split
      · exact IsLocal.andThen (.ite (disconnect_local env u) .skip)
          (.ite (emitError_local env u _) .skip) s
      · exact dispatch_local env u ref p seq s

theorem onMessage_local (u : Uuid) (a k : Bool) (m : In P) (seq : UInt32) :
    IsLocal (InnerData u) u (onMessage cfg env opts u a k m seq) := by
  intro s
  unfold onMessage
  split
  · exact .refl s
  · have h0 : Local (InnerData u) u s (s.push (.got u m seq)) := .push (by exact rfl)
    have up := fun a (h : Inner u a) => Inner.data (P := P) h
    dsimp only
    split
    · exact h0.trans ((onHash_local env u _ _ _ seq _).mono up)
    · split
      · exact h0.trans ((onSelfKey_local env u _ _ seq _).mono up)
      · exact h0.trans ((onOther_local env u _ _ _ _ _ seq _).mono up)

theorem onMessages_local (u : Uuid) (a k : Bool) (ms : List (Rust.Income (In P))) :
    IsLocal (InnerData u) u (onMessages cfg env opts u a k ms) := by
  induction ms with
  | nil => exact .skip
  | cons m ms ih => exact .andThen (onMessage_local env u a k m.msg _) ih

theorem received_local (u : Uuid) (bytes : Bytes) :
    IsLocal (InnerData u) u (received cfg env opts u bytes) := by
  intro s
  have h0 : Local (InnerData u) u s (s.push (.chunk u)) := .push (by exact rfl)
  have up := fun a (h : Inner u a) => Inner.data (P := P) h
  unfold received
  dsimp only
  split
  · exact h0.trans ((responsingErr_local env u _).mono up)
  · split
    · exact h0.trans ((kick_local env u _).mono up)
    · split
      · exact h0
      · split
        · exact h0.trans .set
        · exact h0.trans (Local.set.trans (onMessages_local env u _ _ _ _))
        · exact h0.trans (Local.set.trans ((responsingErr_local env u _).mono up))

/-! ### Every hash request is answered -/

/-- A message that is a wrong hash request. -/
def Wrong (cfg : Cfg P) (p w : List Char) : Prop := ¬ (p = cfg.protocolHash ∧ w = cfg.workflowHash)

/-- Every hash request of the history was answered afterwards: the right one without error, a wrong
one with error, and then the client was kicked. -/
def HashAnswered (cfg : Cfg P) (h : List (Act P)) : Prop :=
  ∀ newer older u p w seq, h = newer ++ .got u (.hash p w) seq :: older →
    (Wrong cfg p w → (∃ ok, .send u seq (.hash true) ok ∈ newer) ∧
      ∃ n1 n2, newer = n1 ++ n2 ∧ Kicked u (n2 ++ .got u (.hash p w) seq :: older)) ∧
    (¬ Wrong cfg p w → ∃ ok, .send u seq (.hash false) ok ∈ newer)

theorem hashAnswered_push {h : List (Act P)} {a : Act P} (ha : ∀ u p w seq, a ≠ .got u (.hash p w) seq)
    (k : HashAnswered cfg h) : HashAnswered cfg (a :: h) := by
  intro newer older u p w seq e
  cases newer with
  | nil =>
    simp only [List.nil_append, List.cons.injEq] at e
    exact absurd e.1 (ha _ _ _ _)
  | cons b n =>
    simp only [List.cons_append, List.cons.injEq] at e
    obtain ⟨rfl, e⟩ := e
    have := k n older u p w seq e
    refine ⟨fun x => ?_, fun x => ?_⟩
    · obtain ⟨⟨ok, m⟩, n1, n2, hn, hk⟩ := this.1 x
      exact ⟨⟨ok, List.mem_cons_of_mem _ m⟩, a :: n1, n2, by rw [hn]; rfl, hk⟩
    · obtain ⟨ok, m⟩ := this.2 x
      exact ⟨ok, List.mem_cons_of_mem _ m⟩

theorem hashAnswered_append {l h : List (Act P)}
    (hl : ∀ a ∈ l, ∀ u p w seq, a ≠ .got u (.hash p w) seq) (k : HashAnswered cfg h) :
    HashAnswered cfg (l ++ h) := by
  induction l with
  | nil => exact k
  | cons a l ih =>
    exact hashAnswered_push (hl a List.mem_cons_self) (ih fun b hb => hl b (List.mem_cons_of_mem _ hb))

theorem Inner.notGot {v : Uuid} {a : Act P} (h : Inner v a) :
    ∀ u p w seq, a ≠ .got u (.hash p w) seq := by rintro u p w seq rfl; exact h

theorem hashAnswered_local {u : Uuid} {s s' : State P} (h : Local (Inner u) u s s')
    (k : HashAnswered cfg s.past) : HashAnswered cfg s'.past := by
  obtain ⟨l, hl, hA⟩ := h.past
  rw [hl]
  exact hashAnswered_append (fun a ha => (hA a ha).notGot) k

/-- A new hash request with everything that follows. -/
theorem hashAnswered_new {h l : List (Act P)} {u : Uuid} {p w : List Char} {seq : UInt32}
    (hl : ∀ a ∈ l, Inner u a)
    (h1 : Wrong cfg p w → (∃ ok, .send u seq (.hash true) ok ∈ l) ∧
      Kicked u (l ++ .got u (.hash p w) seq :: h))
    (h2 : ¬ Wrong cfg p w → ∃ ok, .send u seq (.hash false) ok ∈ l)
    (k : HashAnswered cfg h) : HashAnswered cfg (l ++ .got u (.hash p w) seq :: h) := by
  intro newer older v q x sq e
  rcases List.append_eq_append_iff.1 e with ⟨m, hm, hm2⟩ | ⟨m, hm, hm2⟩
  · cases m with
    | nil =>
      simp only [List.nil_append, List.cons.injEq, Act.got.injEq, In.hash.injEq] at hm2
      obtain ⟨⟨rfl, ⟨rfl, rfl⟩, rfl⟩, rfl⟩ := hm2
      rw [List.append_nil] at hm
      subst hm
      exact ⟨fun y => ⟨(h1 y).1, [], newer, rfl, (h1 y).2⟩, h2⟩
    | cons b m =>
      simp only [List.cons_append, List.cons.injEq] at hm2
      obtain ⟨rfl, hm2⟩ := hm2
      have := k m older v q x sq hm2
      subst hm
      refine ⟨fun y => ?_, fun y => ?_⟩
      · obtain ⟨⟨ok, z⟩, n1, n2, hn, hk⟩ := this.1 y
        refine ⟨⟨ok, List.mem_append_right _ (List.mem_cons_of_mem _ z)⟩,
          l ++ .got u (.hash p w) seq :: n1, n2, by rw [hn]; simp, hk⟩
      · obtain ⟨ok, z⟩ := this.2 y
        exact ⟨ok, List.mem_append_right _ (List.mem_cons_of_mem _ z)⟩
  · cases m with
    | nil =>
      simp only [List.nil_append, List.cons.injEq, Act.got.injEq, In.hash.injEq] at hm2
      obtain ⟨⟨rfl, ⟨rfl, rfl⟩, rfl⟩, rfl⟩ := hm2
      rw [List.append_nil] at hm
      subst hm
      exact ⟨fun y => ⟨(h1 y).1, [], _, rfl, (h1 y).2⟩, h2⟩
    | cons b m =>
      simp only [List.cons_append, List.cons.injEq] at hm2
      obtain ⟨rfl, hm2⟩ := hm2
      exact absurd rfl ((hl (.got v (.hash q x) sq) (by rw [hm]; simp)).notGot v q x sq)

theorem kicked_push {u : Uuid} {h : List (Act P)} {a : Act P} (ha : a ≠ .opened u) (k : Kicked u h) :
    Kicked u (a :: h) := by
  rw [Kicked, since_cons ha]
  exact List.mem_cons_of_mem _ k

/-- After `disconnect` the client is kicked, whatever the transport says. -/
theorem disconnect_kicks {ctx : Option (Uuid × Bool × Bool)} {u : Uuid} {c : Consumer P}
    {s : State P} (hc : s.find u = some c) (i : Inv cfg opts ctx s) :
    Kicked u (disconnect env u s).2.past := by
  unfold disconnect
  rw [hc]
  dsimp only
  split
  · rename_i h; exact (i.known u c hc).discredited.1 h
  · show Kicked u (.drop u :: s.past)
    rw [Kicked, since_cons (by simp)]
    exact List.mem_cons_self

theorem kick_kicks {ctx : Option (Uuid × Bool × Bool)} {u : Uuid} {c : Consumer P}
    {s : State P} (hc : s.find u = some c) (i : Inv cfg opts ctx s) :
    Kicked u (kick env u s).2.past := by
  have := disconnect_kicks env hc i
  unfold kick Proc.andThen
  split
  · rename_i h; rw [h] at this; exact kicked_push (by simp) this
  · rename_i h; rw [h] at this; exact this
  · rename_i h; rw [h] at this; exact this

theorem find_isSome_local {A : Act P → Prop} {u : Uuid} {s s' : State P} (h : Local A u s s') (v : Uuid) :
    (s'.find v).isSome = (s.find v).isSome := by
  have key : ∀ l : List (Uuid × Consumer P), (l.lookup v).isSome = (l.map Prod.fst).contains v := by
    intro l
    induction l with
    | nil => rfl
    | cons p l ih =>
      obtain ⟨w, c⟩ := p
      rw [List.lookup_cons, List.map_cons, List.contains_cons]
      cases hb : (v == w)
      · simpa using ih
      · simp
  rw [State.find, State.find, key, key, h.keys]

theorem answer_sends {u : Uuid} {seq : UInt32} {o : Out P} {s : State P} (ho : cfg.packs o = true) :
    ∃ l, (answer cfg env opts u seq o s).2.past = l ++ s.past ∧ (∀ a ∈ l, Inner u a) ∧
      ∃ ok, .send u seq o ok ∈ l := by
  unfold answer
  rw [if_neg (by simp [ho])]
  obtain ⟨l, hl, hA⟩ := (responsingErr_local (opts := opts) env u (send env u seq o s).2).past
  split
  · rename_i h
    have e : (send env u seq o s).2.past = .send u seq o (env.send s u seq o) :: s.past := rfl
    rw [h] at e
    refine ⟨[_], e, ?_, _, List.mem_singleton.2 rfl⟩
    intro a ha; rcases List.mem_singleton.1 ha with rfl; trivial
  · rename_i h
    have e : (send env u seq o s).2.past = .send u seq o (env.send s u seq o) :: s.past := rfl
    rw [e, h] at hl
    refine ⟨l ++ [.send u seq o (env.send s u seq o)], ?_, ?_, _,
      List.mem_append_right _ (List.mem_singleton.2 rfl)⟩
    · dsimp only at hl ⊢; rw [hl]; simp
    · intro a ha
      rcases List.mem_append.1 ha with ha | ha
      · exact hA a ha
      · rcases List.mem_singleton.1 ha with rfl; trivial

theorem onMessage_answered {u : Uuid} {a k : Bool} (m : In P) (seq : UInt32) {s : State P}
    (hp : ∀ e, cfg.packs (.hash e) = true) (i : Inv cfg opts (some (u, a, k)) s)
    (ha : HashAnswered cfg s.past) (hok : (onMessage cfg env opts u a k m seq s).1 = .ok ()) :
    HashAnswered cfg (onMessage cfg env opts u a k m seq s).2.past := by
  unfold onMessage at hok ⊢
  split
  · exact ha
  · rename_i c hc
    rw [hc] at hok
    dsimp only at hok ⊢
    split
    · rename_i p w
      dsimp only at hok
      unfold onHash at hok ⊢
      split
      · rename_i hn
        have hw : Wrong cfg p w := by rintro ⟨x, y⟩; exact hn.elim (fun h => h x) (fun h => h y)
        rw [if_pos hn] at hok
        have i' := inv_push (a := .got u (.hash p w) seq) hw trivial i
        have i2 := answer_keeps env u seq (.hash true) _ i'
        obtain ⟨l, hl, hA, hs⟩ := answer_sends (opts := opts) env (u := u) (seq := seq) (o := .hash true)
          (s := s.push (.got u (.hash p w) seq)) (hp true)
        have hsome := find_isSome_local (answer_local (cfg := cfg) (opts := opts) env u seq (.hash true)
          (s.push (.got u (.hash p w) seq))) u
        unfold Proc.andThen at hok ⊢
        split
        · rename_i s1 h1
          rw [h1] at i2 hl hsome
          dsimp only at hl i2 hsome
          rw [find_push, hc] at hsome
          obtain ⟨d, hd⟩ := Option.isSome_iff_exists.1 hsome
          obtain ⟨l2, hl2, hA2⟩ := (kick_local env u s1).past
          have hk := kick_kicks env hd i2
          have e : (kick env u s1).2.past = (l2 ++ l) ++ .got u (.hash p w) seq :: s.past := by
            rw [hl2, hl]; simp
          rw [e] at hk ⊢
          refine hashAnswered_new ?_ (fun _ => ⟨?_, hk⟩) (fun x => absurd hw x) ha
          · intro b hb
            rcases List.mem_append.1 hb with hb | hb
            · exact hA2 b hb
            · exact hA b hb
          · obtain ⟨ok, x⟩ := hs
            exact ⟨ok, List.mem_append_right _ x⟩
        · rename_i h1; rw [h1] at hok; cases hok
        · rename_i h1; rw [h1] at hok; cases hok
      · rename_i hn
        obtain ⟨l, hl, hA, hs⟩ := answer_sends (opts := opts) env (u := u) (seq := seq) (o := .hash false)
          (s := (s.push (.got u (.hash p w) seq)).set u { c with hashAccepted := true }) (hp false)
        have e : (answer cfg env opts u seq (.hash false)
            ((s.push (.got u (.hash p w) seq)).set u { c with hashAccepted := true })).2.past
            = l ++ .got u (.hash p w) seq :: s.past := hl
        rw [e]
        refine hashAnswered_new hA (fun x => absurd ?_ x) (fun _ => hs) ha
        constructor
        · exact Classical.byContradiction fun h => hn (.inl h)
        · exact Classical.byContradiction fun h => hn (.inr h)
    · rename_i ref p
      have h0 : HashAnswered cfg (s.push (.got u (.msg ref p) seq)).past :=
        hashAnswered_push (by intro _ _ _ _ h; cases h) ha
      split
      · exact hashAnswered_local (onSelfKey_local env u _ _ seq _) h0
      · exact hashAnswered_local (onOther_local env u _ _ _ _ _ seq _) h0

theorem onMessages_answered {u : Uuid} {a k : Bool} (ms : List (Rust.Income (In P))) {s : State P}
    (hp : ∀ e, cfg.packs (.hash e) = true) (i : Inv cfg opts (some (u, a, k)) s)
    (ha : HashAnswered cfg s.past) (hok : (onMessages cfg env opts u a k ms s).1 = .ok ()) :
    HashAnswered cfg (onMessages cfg env opts u a k ms s).2.past := by
  induction ms generalizing s with
  | nil => exact ha
  | cons m ms ih =>
    have i1 := onMessage_keeps env m.msg m.header.sequence s i
    have a1 := onMessage_answered env m.msg m.header.sequence hp i ha
    unfold onMessages Proc.andThen at hok ⊢
    split
    · rename_i h
      rw [h] at i1 a1
      rw [h] at hok
      exact ih i1 (a1 rfl) hok
    · rename_i h; rw [h] at hok; cases hok
    · rename_i h; rw [h] at hok; cases hok

theorem received_answered {u : Uuid} {bytes : Bytes} {s : State P}
    (hp : ∀ e, cfg.packs (.hash e) = true) (i : Inv cfg opts none s)
    (ha : HashAnswered cfg s.past) (hok : (received cfg env opts u bytes s).1 = .ok ()) :
    HashAnswered cfg (received cfg env opts u bytes s).2.past := by
  have a' : HashAnswered cfg (s.push (.chunk u)).past :=
    hashAnswered_push (by intro _ _ _ _ h; cases h) ha
  unfold received at hok ⊢
  dsimp only at hok ⊢
  split
  · exact hashAnswered_local (responsingErr_local env u _) a'
  · rename_i c hc
    rw [hc] at hok
    dsimp only at hok
    split
    · exact hashAnswered_local (kick_local env u _) a'
    · rename_i hcf
      rw [if_neg hcf] at hok
      split
      · exact a'
      · rename_i hd
        rw [if_neg hd] at hok
        split
        · exact a'
        · rename_i r hr
          rw [hr] at hok
          exact onMessages_answered env r.queue hp (received_enters hc hcf hd i r) a' hok
        · exact hashAnswered_local (responsingErr_local env u _) a'

/-- Only acts that are no hash requests. -/
def Ext (s s' : State P) : Prop :=
  ∃ l, s'.past = l ++ s.past ∧ ∀ a ∈ l, ∀ u p w seq, a ≠ .got u (.hash p w) seq

theorem Ext.refl (s : State P) : Ext s s := ⟨[], rfl, by simp⟩

theorem Ext.trans {s t r : State P} (h : Ext s t) (k : Ext t r) : Ext s r := by
  obtain ⟨l, hl, hA⟩ := h
  obtain ⟨m, hm, hB⟩ := k
  refine ⟨m ++ l, by rw [hm, hl, List.append_assoc], fun a ha => ?_⟩
  rcases List.mem_append.1 ha with ha | ha
  · exact hB a ha
  · exact hA a ha

theorem Ext.cons {s s' : State P} {a : Act P} (h : s'.past = a :: s.past)
    (ha : ∀ u p w seq, a ≠ .got u (.hash p w) seq) : Ext s s' :=
  ⟨[a], h, fun b hb => by rcases List.mem_singleton.1 hb with rfl; exact ha⟩

theorem Ext.of_local {u : Uuid} {s s' : State P} (h : Local (Inner u) u s s') : Ext s s' := by
  obtain ⟨l, hl, hA⟩ := h.past
  exact ⟨l, hl, fun a ha => (hA a ha).notGot⟩

theorem Ext.answered {s s' : State P} (h : Ext s s') (k : HashAnswered cfg s.past) :
    HashAnswered cfg s'.past := by
  obtain ⟨l, hl, hA⟩ := h
  rw [hl]
  exact hashAnswered_append hA k

theorem emitEvent_ext (e : Flow.Event) (p : Option P) (s : State P) :
    Ext s (emitEvent cfg env e p s).2 := by
  have h0 : Ext s (s.push (.event (e.reference.getD []))) := .cons rfl (by intro _ _ _ _ h; cases h)
  unfold emitEvent
  dsimp only
  split
  · exact h0
  · exact h0
  · split
    · exact h0
    · exact h0.trans ((Ext.of_local (broadcastAll_local env 0 _ _)).trans
        (.cons rfl (by intro _ _ _ _ h; cases h)))

theorem warned_ext (e : Flow.Event) (p : Option P) (s : State P) :
    Ext s (warned (emitEvent cfg env e p) s).2 := by
  have := emitEvent_ext (cfg := cfg) env e p s
  unfold warned
  split <;> (rename_i h; rw [h] at this; exact this)

/-- All inputs but data. -/
theorem step_ext (x : Input P) (s : State P) (hx : ∀ u b, x ≠ .received u b) :
    Ext s (step cfg env opts x s).2 := by
  cases x with
  | received u b => exact absurd rfl (hx u b)
  | ready => exact .cons rfl (by intro _ _ _ _ h; cases h)
  | shutdown => exact .refl s
  | stop => exact .refl s
  | serverEvent u => exact .cons rfl (by intro _ _ _ _ h; cases h)
  | connected u =>
    simp only [step, addConnection]
    split
    · exact .refl s
    · have e := warned_ext (cfg := cfg) env (defaultEvent cfg "connected".toList) none s
      unfold Proc.andThen
      split
      · rename_i h; rw [h] at e
        exact e.trans (.cons (s' := (insert u _).2) rfl (by intro _ _ _ _ h; cases h))
      · rename_i h; rw [h] at e; exact e
      · rename_i h; rw [h] at e; exact e
  | disconnected u =>
    simp only [step, removeConnection]
    split
    · exact .refl s
    · exact Ext.trans (.cons (a := .closed u) rfl (by intro _ _ _ _ h; cases h))
        (warned_ext env _ none _)
  | event ref p =>
    simp only [step]
    generalize cfg.workflow.events.find? _ = o
    cases o with
    | some e => exact warned_ext env e _ s
    | none => exact .refl s
  | setKey u k o =>
    simp only [step]
    split
    · exact .cons rfl (by intro _ _ _ _ h; cases h)
    · exact .of_local (emitError_local env u _ s)
  | setAssigned u k o =>
    simp only [step]
    split
    · exact .cons rfl (by intro _ _ _ _ h; cases h)
    · exact .of_local (emitError_local env u _ s)
  | confirm =>
    simp only [step]
    split
    · exact .refl s
    · rename_i u us _
      unfold confirmation
      split
      · exact .cons (a := .error (some u)) rfl (by intro _ _ _ _ h; cases h)
      · rename_i c _
        have h0 : Ext s (((({ s with confirms := us } : State P).set u
            { c with confirmed := true }).push (.confirmed u))) :=
          .cons (a := .confirmed u) rfl (by intro _ _ _ _ h; cases h)
        dsimp only
        split
        · exact h0
        · have h1 := Ext.of_local (send_local env u u 0 .confirmation
            ((({ s with confirms := us } : State P).set u
            { c with confirmed := true }).push (.confirmed u)))
          split
          · rename_i h; rw [h] at h1; exact h0.trans h1
          · rename_i h; rw [h] at h1; exact h0.trans h1

theorem step_answered (x : Input P) {s : State P}
    (hp : ∀ e, cfg.packs (.hash e) = true) (i : Inv cfg opts none s)
    (ha : HashAnswered cfg s.past) (hok : (step cfg env opts x s).1 = .ok ()) :
    HashAnswered cfg (step cfg env opts x s).2.past := by
  by_cases hx : ∃ u b, x = .received u b
  · obtain ⟨u, b, rfl⟩ := hx
    exact received_answered env hp i ha hok
  · exact (step_ext env x s (fun u b e => hx ⟨u, b, e⟩)).answered ha

/-- The past only grows. -/
theorem step_grows (x : Input P) (s : State P) :
    ∃ l, (step cfg env opts x s).2.past = l ++ s.past := by
  by_cases hx : ∃ u b, x = .received u b
  · obtain ⟨u, b, rfl⟩ := hx
    obtain ⟨l, hl, _⟩ := (received_local (cfg := cfg) (opts := opts) env u b s).past
    exact ⟨l, hl⟩
  · obtain ⟨l, hl, _⟩ := step_ext (cfg := cfg) (opts := opts) env x s (fun u b e => hx ⟨u, b, e⟩)
    exact ⟨l, hl⟩

theorem listen_answered (is : List (Input P)) {s : State P}
    (hp : ∀ e, cfg.packs (.hash e) = true) (i : Inv cfg opts none s) (ha : HashAnswered cfg s.past)
    (hr : (listen cfg env opts is s).1 = .running ∨ (listen cfg env opts is s).1 = .stopped) :
    HashAnswered cfg (listen cfg env opts is s).2.past := by
  induction is generalizing s with
  | nil => exact ha
  | cons x is ih =>
    have k := step_keeps (cfg := cfg) (opts := opts) env x s i
    have a := step_answered (cfg := cfg) (opts := opts) env x hp i ha
    unfold listen at hr ⊢
    split
    · exact ha
    · exact ha
    · exact ha
    · rename_i heq
      injection heq with h1 h2
      subst h1 h2
      split
      · rename_i h
        simp only [h] at hr
        rw [h] at k a
        exact ih k (a rfl) hr
      · rename_i h
        simp only [h] at hr
        rcases hr with hr | hr <;> cases hr
      · rename_i h
        simp only [h] at hr
        rcases hr with hr | hr <;> cases hr

end Verif.Server
