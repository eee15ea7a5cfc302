import Verif.Proofs.ServerLocal
set_option autoImplicit false
/-!
When nothing stops the server loop.
-/
namespace Verif.Server

open Verif

variable {P : Type} {cfg : Cfg P} {opts : Options} {env : Env P}

/-- The piece always succeeds. -/
def Succeeds (p : Proc P) : Prop := ∀ s, (p s).1 = .ok ()

theorem Succeeds.andThen {p q : Proc P} (hp : Succeeds p) (hq : Succeeds q) :
    Succeeds (p.andThen q) := by
  intro s
  have := hp s
  unfold Proc.andThen
  split
  · exact hq _
  · rename_i h; rw [h] at this; cases this
  · rename_i h; rw [h] at this; cases this

theorem Succeeds.skip : Succeeds (.skip : Proc P) := fun _ => rfl

theorem Succeeds.ite {c : Prop} [Decidable c] {p q : Proc P} (hp : Succeeds p) (hq : Succeeds q) :
    Succeeds (if c then p else q) := by
  split
  · exact hp
  · exact hq

theorem emitError_succeeds (b : Benign env) (u : Option Uuid) : Succeeds (emitError env u) :=
  fun _ => b.error _ _

theorem disconnect_succeeds (b : Benign env) (u : Uuid) : Succeeds (disconnect env u) := by
  intro s
  unfold disconnect
  split
  · rfl
  · split
    · rfl
    · simp [b.drop]

theorem responsingErr_succeeds (b : Benign env) (u : Uuid) : Succeeds (responsingErr env opts u) := by
  unfold responsingErr
  exact .andThen (.ite (disconnect_succeeds b u) .skip) (.ite (emitError_succeeds b _) .skip)

theorem kick_succeeds (b : Benign env) (u : Uuid) : Succeeds (kick env u) :=
  .andThen (disconnect_succeeds b u) (emitError_succeeds b _)

theorem answer_succeeds (b : Benign env) (u : Uuid) (seq : UInt32) (o : Out P) :
    Succeeds (answer cfg env opts u seq o) := by
  intro s
  unfold answer
  split
  · exact responsingErr_succeeds b u s
  · split
    · rfl
    · exact responsingErr_succeeds b u _

theorem finish_noPanic (u : Uuid) (seq : UInt32) (o : Out P) (cs : List (Ref × Cast P)) (s : State P) :
    (finish cfg env u seq o cs s).1 ≠ .panic := by
  unfold finish
  split
  · simp
  · split <;> simp

theorem process_noPanic (b : Benign env) (r : Flow.Request) (u : Uuid) (p : P) (seq : UInt32)
    (s : State P) : (process cfg env r u p seq s).1 ≠ .panic := by
  unfold process
  dsimp only
  split
  · split
    · rename_i h; exact absurd h (b.conclude _ _ _ _)
    · exact finish_noPanic _ _ _ _ _
    · exact finish_noPanic _ _ _ _ _
  · split
    · rename_i h; exact absurd h (b.reply _ _ _ _)
    · exact finish_noPanic _ _ _ _ _
    · exact finish_noPanic _ _ _ _ _

theorem emitBeacon_noPanic (b : Benign env) (ref : Ref) (u : Uuid) (p : P) (seq : UInt32)
    (s : State P) : (emitBeacon cfg env ref u p seq s).1 ≠ .panic := by
  unfold emitBeacon
  dsimp only
  split
  · rename_i h; exact absurd h (b.beacon _ _ _ _)
  · simp
  · exact finish_noPanic _ _ _ _ _

theorem emitEvent_noPanic (b : Benign env) (e : Flow.Event) (p : Option P) (s : State P) :
    (emitEvent cfg env e p s).1 ≠ .panic := by
  unfold emitEvent
  dsimp only
  split
  · rename_i h; exact absurd h (b.emit _ _ _)
  · simp
  · split <;> simp

theorem dispatch_succeeds (b : Benign env) (u : Uuid) (ref : Ref) (p : P) (seq : UInt32) :
    Succeeds (dispatch cfg env opts u ref p seq) := by
  intro s
  unfold dispatch
  split
  · split
    · rfl
    · exact responsingErr_succeeds b u _
    · rename_i h; exact absurd (congrArg Prod.fst h) (process_noPanic b _ u p seq s)
  · split
    · split
      · rfl
      · exact emitError_succeeds b _ _
      · rename_i h; exact absurd (by rw [h]) (emitBeacon_noPanic (cfg := cfg) b ref u p seq s)
    · rfl

theorem onMessage_succeeds (b : Benign env) (u : Uuid) (a k : Bool) (m : In P) (seq : UInt32) :
    Succeeds (onMessage cfg env opts u a k m seq) := by
  intro s
  unfold onMessage
  split
  · rfl
  · dsimp only
    split
    · unfold onHash
      split
      · exact Succeeds.andThen (answer_succeeds b u seq _) (kick_succeeds b u) _
      · exact answer_succeeds b u seq _ _
    · split
      · exact answer_succeeds b u seq _ _
      · unfold onOther
        split
        · exact kick_succeeds b u _
        · split
          · exact kick_succeeds b u _
          · split
            · exact Succeeds.andThen (.ite (disconnect_succeeds b u) .skip)
                (.ite (emitError_succeeds b _) .skip) _
            · exact dispatch_succeeds b u _ _ seq _

theorem onMessages_succeeds (b : Benign env) (u : Uuid) (a k : Bool)
    (ms : List (Rust.Income (In P))) : Succeeds (onMessages cfg env opts u a k ms) := by
  induction ms with
  | nil => exact .skip
  | cons m ms ih => exact .andThen (onMessage_succeeds b u a k m.msg _) ih

theorem received_succeeds (b : Benign env) (u : Uuid) (bytes : Bytes) (s : State P)
    (hd : ¬ ReadPanics cfg s u bytes) : (received cfg env opts u bytes s).1 = .ok () := by
  unfold received
  dsimp only
  split
  · exact responsingErr_succeeds b u _
  · rename_i c hc
    split
    · exact kick_succeeds b u _
    · rename_i h1
      split
      · rfl
      · rename_i h2
        split
        · rename_i h
          exact absurd ⟨c, hc, by simpa using h1, by simpa using h2, congrArg Prod.fst h⟩ hd
        · exact onMessages_succeeds b u _ _ _ _
        · exact responsingErr_succeeds b u _

theorem warned_succeeds {p : Proc P} (h : ∀ s, (p s).1 ≠ .panic) : Succeeds (warned p) := by
  intro s
  unfold warned
  split
  · rfl
  · rfl
  · rename_i x; exact absurd (by rw [x]) (h s)

theorem confirmation_succeeds (b : Benign env) (hp : cfg.packs .confirmation = true) (u : Uuid) :
    Succeeds (confirmation cfg env u) := by
  intro s
  unfold confirmation
  split
  · exact emitError_succeeds b _ _
  · dsimp only
    rw [if_neg (by simp [hp])]
    split
    · rfl
    · rename_i h
      have := congrArg Prod.fst h
      rw [send, b.confirm] at this
      cases this

/-- Who is in the map. -/
def Here (on : List Uuid) (s : State P) : Prop := ∀ v, (s.find v).isSome = true ↔ v ∈ on

theorem Here.of_eq {on : List Uuid} {s s' : State P} (h : Here on s)
    (e : ∀ v, (s'.find v).isSome = (s.find v).isSome) : Here on s' := fun v => by rw [e]; exact h v

theorem set_isSome (s : State P) (u : Uuid) (c : Consumer P) (v : Uuid) :
    ((s.set u c).find v).isSome = (s.find v).isSome :=
  find_isSome_local (A := fun _ => True) (Local.set (s := s) (u := u) (c := c)) v

/-- One step of a benign world: it succeeds, and the map follows the events. -/
theorem step_calm (b : Benign env) (hp : cfg.packs .confirmation = true)
    {on : List Uuid} {x : Input P} {is : List (Input P)} (hr : Regular on (x :: is)) {s : State P}
    (hd : ∀ u bytes, x = .received u bytes → ¬ ReadPanics cfg s u bytes)
    (h : Here on s) :
    (step cfg env opts x s).1 = .ok () ∧
      ∃ on', Here on' (step cfg env opts x s).2 ∧ Regular on' is := by
  cases x with
  | ready => exact ⟨b.ready _, on, h, hr⟩
  | shutdown => exact ⟨rfl, on, h, hr⟩
  | stop => exact ⟨rfl, on, h, hr⟩
  | received u bytes =>
    exact ⟨received_succeeds b u bytes s (hd u bytes rfl), on,
      h.of_eq (find_isSome_local (received_local env u bytes s)), hr⟩
  | serverEvent u => exact ⟨b.error _ _, on, h, hr⟩
  | event ref p =>
    simp only [step]
    generalize cfg.workflow.events.find? _ = o
    cases o with
    | none => exact ⟨rfl, on, h, hr⟩
    | some e =>
      exact ⟨warned_succeeds (emitEvent_noPanic b e _) s, on,
        h.of_eq (fun v => by rw [find_warned]), hr⟩
  | setKey u k o =>
    simp only [step]
    cases hc : s.find u with
    | none => exact ⟨b.error _ _, on, h, hr⟩
    | some c => exact ⟨rfl, on, h.of_eq (fun v => by rw [find_push, set_isSome]), hr⟩
  | setAssigned u k o =>
    simp only [step]
    cases hc : s.find u with
    | none => exact ⟨b.error _ _, on, h, hr⟩
    | some c => exact ⟨rfl, on, h.of_eq (fun v => by rw [find_push, set_isSome]), hr⟩
  | confirm =>
    simp only [step]
    cases hq : s.confirms with
    | nil => exact ⟨rfl, on, h, hr⟩
    | cons u us =>
      refine ⟨confirmation_succeeds b hp u _, on, ?_, hr⟩
      have h' : Here on { s with confirms := us } := h
      dsimp only
      unfold confirmation
      split
      · exact h'
      · dsimp only
        split
        · exact h'.of_eq (fun v => by rw [find_push, set_isSome])
        · split
          · rename_i he
            have := congrArg Prod.snd he
            dsimp only [send] at this
            rw [← this]
            exact h'.of_eq (fun v => by rw [find_push, find_push, set_isSome])
          · rename_i he
            have := congrArg Prod.snd he
            dsimp only [send] at this
            rw [← this]
            exact h'.of_eq (fun v => by rw [find_push, find_push, set_isSome])
  | connected u =>
    obtain ⟨hu, hr⟩ := hr
    have hn : ¬ (s.find u).isSome = true := fun x => hu ((h u).1 x)
    simp only [step, addConnection]
    rw [if_neg hn]
    have hw := warned_succeeds (emitEvent_noPanic (cfg := cfg) b
      (defaultEvent cfg "connected".toList) none) s
    have hf := fun v => find_warned (cfg := cfg) env (defaultEvent cfg "connected".toList) none s v
    unfold Proc.andThen
    split
    · rename_i s1 hs
      rw [hs] at hf
      refine ⟨rfl, u :: on, ?_, hr⟩
      intro v
      show ((s1.consumers ++ [(u, Consumer.new)]).lookup v).isSome = true ↔ _
      rw [List.lookup_append]
      have hv : s1.consumers.lookup v = s.find v := hf v
      rw [hv]
      by_cases e : v = u
      · subst e
        simp
      · have : (v == u) = false := by simp [e]
        simp [List.lookup_cons, this, e]
        exact h v
    · rename_i hs; rw [hs] at hw; cases hw
    · rename_i hs; rw [hs] at hw; cases hw
  | disconnected u =>
    have hr : Regular (on.filter (· ≠ u)) is := hr
    simp only [step, removeConnection]
    cases hc : s.find u with
    | none =>
      refine ⟨rfl, _, ?_, hr⟩
      intro v
      rw [h v, List.mem_filter]
      constructor
      · intro hv
        refine ⟨hv, ?_⟩
        have : v ≠ u := by
          rintro rfl
          have := (h v).2 hv
          rw [hc] at this
          cases this
        simpa using this
      · exact fun x => x.1
    | some c =>
      refine ⟨warned_succeeds (emitEvent_noPanic b _ none) _, _, ?_, hr⟩
      intro v
      dsimp only
      rw [find_warned, find_push, List.mem_filter]
      show ((s.consumers.filter (fun p => p.1 ≠ u)).lookup v).isSome = true ↔ _
      by_cases e : v = u
      · subst e
        rw [lookup_filter_self]
        simp
      · rw [lookup_filter_other _ _ _ e]
        have := h v
        simp only [State.find] at this
        rw [this]
        simp [e]

theorem listen_calm (b : Benign env) (hp : cfg.packs .confirmation = true)
    {on : List Uuid} (is : List (Input P)) (hr : Regular on is) {s : State P} (h : Here on s) :
    (listen cfg env opts is s).1 = .running ∨ (listen cfg env opts is s).1 = .stopped ∨
    ∃ before after u bytes s', is = before ++ .received u bytes :: after ∧
      listen cfg env opts before s = (.running, s') ∧ ReadPanics cfg s' u bytes := by
  induction is generalizing s on with
  | nil => exact .inl rfl
  | cons x is ih =>
    by_cases hx : ∃ u bytes, x = .received u bytes ∧ ReadPanics cfg s u bytes
    · obtain ⟨u, bytes, rfl, hx⟩ := hx
      exact .inr (.inr ⟨[], is, u, bytes, s, rfl, rfl, hx⟩)
    have hd : ∀ u bytes, x = .received u bytes → ¬ ReadPanics cfg s u bytes :=
      fun u bytes e r => hx ⟨u, bytes, e, r⟩
    obtain ⟨hok, on', hh, hr'⟩ := step_calm (opts := opts) b hp hr hd h
    have key : ∀ s1, (∀ l, listen cfg env opts (x :: l) s = listen cfg env opts l s1) →
        Here on' s1 → (listen cfg env opts (x :: is) s).1 = .running ∨
        (listen cfg env opts (x :: is) s).1 = .stopped ∨
        ∃ before after u bytes s', x :: is = before ++ .received u bytes :: after ∧
          listen cfg env opts before s = (.running, s') ∧ ReadPanics cfg s' u bytes := by
      intro s1 e hh1
      rw [e]
      rcases ih hr' hh1 with h1 | h1 | ⟨bf, af, u, bytes, s', e1, e2, e3⟩
      · exact .inl h1
      · exact .inr (.inl h1)
      · exact .inr (.inr ⟨x :: bf, af, u, bytes, s', by rw [e1]; rfl, by rw [e]; exact e2, e3⟩)
    by_cases hs : x = .shutdown
    · subst hs; exact .inr (.inl rfl)
    by_cases ht : x = .stop
    · subst ht; exact .inr (.inl rfl)
    refine key (step cfg env opts x s).2 (fun l => ?_) hh
    have e : step cfg env opts x s = (.ok (), (step cfg env opts x s).2) := by rw [← hok]
    generalize (step cfg env opts x s).2 = s2 at e
    rw [listen]
    · rw [e]
    · exact hs
    · exact ht

end Verif.Server
