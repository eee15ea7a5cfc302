import Verif.Proofs.ServerInv
set_option autoImplicit false
/-!
The server loop keeps the invariant.
-/
namespace Verif.Server

open Verif

variable {P : Type} {cfg : Cfg P} {opts : Options} (env : Env P)

theorem setKey_key (m : P → P → P) (c : Consumer P) (k : P) (o : Bool) :
    (c.setKey m k o).key.isSome = true := by
  unfold Consumer.setKey; split <;> rfl

theorem setKey_rest (m : P → P → P) (c : Consumer P) (k : P) (o : Bool) :
    (c.setKey m k o).confirmed = c.confirmed ∧ (c.setKey m k o).hashAccepted = c.hashAccepted ∧
    (c.setKey m k o).assigned = c.assigned ∧ (c.setKey m k o).discredited = c.discredited := by
  unfold Consumer.setKey; split <;> exact ⟨rfl, rfl, rfl, rfl⟩

theorem assign_assigned (m : P → P → P) (c : Consumer P) (k : P) (o : Bool) :
    (c.assign m k o).assigned.isSome = true := by
  unfold Consumer.assign; split <;> rfl

theorem assign_rest (m : P → P → P) (c : Consumer P) (k : P) (o : Bool) :
    (c.assign m k o).confirmed = c.confirmed ∧ (c.assign m k o).hashAccepted = c.hashAccepted ∧
    (c.assign m k o).key = c.key ∧ (c.assign m k o).discredited = c.discredited := by
  unfold Consumer.assign; split <;> exact ⟨rfl, rfl, rfl, rfl⟩

theorem onSelfKey_keeps {ctx : Option (Uuid × Bool × Bool)} {u : Uuid} {c : Consumer P} {k : P}
    {seq : UInt32} {s : State P} (hc : s.find u = some c)
    (hg : .got u (.msg cfg.selfKey k) seq ∈ since u s.past) (i : Inv cfg opts ctx s) :
    Inv cfg opts ctx (onSelfKey cfg env opts u c k seq s).2 := by
  unfold onSelfKey
  apply answer_keeps
  have kn := i.known u c hc
  obtain ⟨h1, h2, h3, h4⟩ := setKey_rest cfg.mergeKey c k true
  refine inv_set hc i ⟨kn.online, ?_, ?_, ?_, ?_, ?_⟩ ?_ ?_ ?_
  · rw [h1]; exact kn.confirmed
  · rw [h2]; exact kn.hash
  · intro _; exact .inl ⟨k, seq, hg⟩
  · rw [h3]; exact kn.assigned
  · rw [h4]; exact kn.discredited
  · rw [h1]; exact id
  · intro _; exact setKey_key ..
  · rw [h3]; exact id

/-- The right hash request: noted and recorded. -/
theorem hash_keeps {ctx : Option (Uuid × Bool × Bool)} {u : Uuid} {c : Consumer P} {seq : UInt32}
    {s : State P} (hc : s.find u = some c) (i : Inv cfg opts ctx s) :
    Inv cfg opts ctx ((s.push (.got u (.hash cfg.protocolHash cfg.workflowHash) seq)).set u
      { c with hashAccepted := true }) := by
  have kn := i.known u c hc
  have e := since_cons (u := u) (a := .got u (.hash cfg.protocolHash cfg.workflowHash) seq)
    (h := s.past) (by simp)
  refine ⟨⟨trivial, i.fine⟩, fun v d h => ?_, fun v h => ?_, fun v a' k' h => ?_⟩
  · by_cases hv : v = u
    · subst hv
      rw [find_set_self (by rw [find_push]; exact hc)] at h
      injection h with h
      subst h
      rw [past_set, past_push]
      refine ⟨(online_push (by simp) (by simp)).2 kn.online, ?_, ?_, ?_, ?_, ?_⟩
      · show c.confirmed = true ↔ _
        rw [kn.confirmed, e]
        simp
      · refine ⟨fun _ => ⟨seq, ?_⟩, fun _ => rfl⟩
        rw [e]; exact List.mem_cons_self
      · intro x
        rw [KeyGiven, e]
        rcases kn.key x with ⟨p, q, m⟩ | m
        · exact .inl ⟨p, q, List.mem_cons_of_mem _ m⟩
        · exact .inr (List.mem_cons_of_mem _ m)
      · intro x; rw [e]; exact List.mem_cons_of_mem _ (kn.assigned x)
      · show c.discredited = true ↔ _
        rw [kn.discredited, Kicked, Kicked, e]
        simp
    · rw [find_set_other hv] at h
      exact known_other hv (.inr (.inl ⟨_, _, rfl⟩)) (i.known v d h)
  · rw [past_set, past_push, online_push (by simp) (by simp)]
    by_cases hv : v = u
    · subst hv
      rw [find_set_self (by rw [find_push]; exact hc)] at h
      cases h
    · rw [find_set_other hv] at h
      exact i.gone v h
  · have du := i.during v a' k' h
    refine ⟨?_, fresh_push (by simp) (by simp) du.fresh⟩
    by_cases hv : v = u
    · subst hv
      obtain ⟨d, hd, x⟩ := du.here
      rw [hc] at hd
      injection hd with hd
      subst hd
      exact ⟨_, find_set_self (by rw [find_push]; exact hc), x⟩
    · rw [find_set_other hv]
      exact du.here

theorem dispatch_keeps {ctx : Option (Uuid × Bool × Bool)} (u : Uuid) (ref : Ref) (p : P)
    (seq : UInt32) {s : State P} (f : Handshake cfg opts u s.past ∧ FreshData u s.past)
    (i : Inv cfg opts ctx s) : Inv cfg opts ctx (dispatch cfg env opts u ref p seq s).2 := by
  unfold dispatch
  split
  · have := process_keeps env (r := ‹_›) u p seq f i
    split
    · rename_i h; rw [h] at this; exact this
    · rename_i h; rw [h] at this; exact responsingErr_keeps env u _ this
    · rename_i h; rw [h] at this; exact this
  · split
    · have := emitBeacon_keeps env ref u p seq f i
      split
      · rename_i h; rw [h] at this; exact this
      · rename_i h; rw [h] at this; exact emitError_keeps env _ _ this
      · rename_i h; rw [h] at this; exact this
    · exact i

theorem onOther_keeps {u : Uuid} {a k : Bool} {c : Consumer P} (ref : Ref) (p : P) (seq : UInt32)
    {s : State P} (hc : s.find u = some c) (i : Inv cfg opts (some (u, a, k)) s) :
    Inv cfg opts (some (u, a, k)) (onOther cfg env opts u a k c ref p seq s).2 := by
  have kn := i.known u c hc
  have du := i.during u a k rfl
  unfold onOther
  split
  · exact kick_keeps env u s i
  · rename_i hh
    split
    · exact kick_keeps env u s i
    · rename_i hk
      split
      · exact keeps_andThen (keeps_ite (disconnect_keeps env u) keeps_skip)
          (keeps_ite (emitError_keeps env _) keeps_skip) s i
      · rename_i ha
        apply dispatch_keeps env u ref p seq _ i
        obtain ⟨d, hd, x, y, z⟩ := du.here
        rw [hc] at hd
        injection hd with hd
        subst hd
        refine ⟨⟨kn.online, kn.confirmed.1 x, kn.hash.1 (by simpa using hh), kn.key (y (by simpa using hk)),
          fun st => kn.assigned (z ?_ st)⟩, du.fresh⟩
        have hne : opts.identification ≠ .ignore := by rcases st with h | h | h <;> rw [h] <;> simp
        cases a
        · exact absurd (by simp [hne]) ha
        · rfl

theorem onMessage_keeps {u : Uuid} {a k : Bool} (m : In P) (seq : UInt32) :
    Keeps (Inv cfg opts (some (u, a, k))) (onMessage cfg env opts u a k m seq) := by
  intro s i
  unfold onMessage
  split
  · exact i
  · rename_i c hc
    dsimp only
    have hc' : ∀ b, (s.push b).find u = some c := fun b => by rw [find_push]; exact hc
    split
    · rename_i pr wf
      unfold onHash
      split
      · rename_i hn
        have i' := inv_push (a := .got u (.hash pr wf) seq)
          (by simp only [Neutral]; rintro ⟨x, y⟩; exact hn.elim (fun h => h x) (fun h => h y)) trivial i
        exact keeps_andThen (answer_keeps env u seq _) (kick_keeps env u) _ i'
      · rename_i hn
        obtain ⟨h1, h2⟩ : pr = cfg.protocolHash ∧ wf = cfg.workflowHash := by
          constructor
          · exact Classical.byContradiction fun h => hn (.inl h)
          · exact Classical.byContradiction fun h => hn (.inr h)
        subst h1 h2
        exact answer_keeps env u seq _ _ (hash_keeps hc i)
    · rename_i ref p
      have i' := inv_push (a := .got u (.msg ref p) seq) trivial trivial i
      split
      · rename_i h
        obtain ⟨rfl, -⟩ := h
        refine onSelfKey_keeps env (hc' _) ?_ i'
        rw [past_push, since_cons (by simp)]
        exact List.mem_cons_self
      · exact onOther_keeps env ref p seq (hc' _) i'

theorem onMessages_keeps {u : Uuid} {a k : Bool} (ms : List (Rust.Income (In P))) :
    Keeps (Inv cfg opts (some (u, a, k))) (onMessages cfg env opts u a k ms) := by
  induction ms with
  | nil => exact keeps_skip
  | cons m ms ih => exact keeps_andThen (onMessage_keeps env m.msg _) ih

/-- Forget the context. -/
theorem Inv.leave {ctx : Option (Uuid × Bool × Bool)} {s : State P} (i : Inv cfg opts ctx s) :
    Inv cfg opts none s := ⟨i.fine, i.known, i.gone, fun _ _ _ h => (nomatch h)⟩

theorem inv_chunk {u : Uuid} {s : State P} (i : Inv cfg opts none s) :
    Inv cfg opts none (s.push (.chunk u)) := by
  refine ⟨⟨trivial, i.fine⟩, fun v c h => ?_, fun v h => ?_, fun _ _ _ h => (nomatch h)⟩
  · have k := i.known v c h
    have e := since_cons (u := v) (a := .chunk u) (h := s.past) (by simp)
    rw [past_push]
    refine ⟨(online_push (by simp) (by simp)).2 k.online, ?_, ?_, ?_, ?_, ?_⟩
    · rw [k.confirmed, e]; simp
    · rw [k.hash, HashShown, HashShown, e]; simp
    · intro x
      rw [KeyGiven, e]
      rcases k.key x with ⟨p, q, m⟩ | m
      · exact .inl ⟨p, q, List.mem_cons_of_mem _ m⟩
      · exact .inr (List.mem_cons_of_mem _ m)
    · intro x; rw [e]; exact List.mem_cons_of_mem _ (k.assigned x)
    · rw [k.discredited, Kicked, Kicked, e]; simp
  · rw [past_push, online_push (by simp) (by simp)]
    exact i.gone v h

/-- Only the reader of a client changes. -/
theorem inv_reader {ctx : Option (Uuid × Bool × Bool)} {u : Uuid} {c : Consumer P} {s : State P}
    (hc : s.find u = some c) (r : Rust.Reader (In P)) (i : Inv cfg opts ctx s) :
    Inv cfg opts ctx (s.set u { c with reader := r }) := by
  have k := i.known u c hc
  exact inv_set hc i ⟨k.online, k.confirmed, k.hash, k.key, k.assigned, k.discredited⟩ id id id

/-- Processing of messages begins. -/
theorem received_enters {u : Uuid} {c : Consumer P} {s : State P}
    (hc : (s.push (.chunk u)).find u = some c) (hcf : ¬ (!c.confirmed) = true)
    (hd : ¬ c.discredited = true) (i : Inv cfg opts none s) (r : Rust.Reader (In P)) :
    Inv cfg opts (some (u, c.isAssigned opts.identification, c.key.isSome))
      ((s.push (.chunk u)).set u { c with reader := ⟨r.buffer, []⟩ }) := by
  have hc0 : s.find u = some c := by rw [find_push] at hc; exact hc
  have i2 := inv_reader hc ⟨r.buffer, []⟩ (inv_chunk (u := u) i)
  refine ⟨i2.fine, i2.known, i2.gone, fun v a k h => ?_⟩
  injection h with h
  injection h with h1 h
  injection h with h2 h3
  subst h1 h2 h3
  refine ⟨⟨_, find_set_self hc, by simpa using hcf, fun h => h, ?_⟩,
    ⟨[], s.past, rfl, by simp, by simp, fun x => hd ((i.known _ c hc0).discredited.2 x)⟩⟩
  intro ha st
  show c.assigned.isSome = true
  unfold Consumer.isAssigned at ha
  cases hA : c.assigned with
  | some _ => rfl
  | none =>
    rw [hA] at ha
    rcases st with h | h | h <;> rw [h] at ha <;> simp at ha

theorem received_keeps (u : Uuid) (bytes : Bytes) :
    Keeps (Inv cfg opts none) (received cfg env opts u bytes) := by
  intro s i
  have i' := inv_chunk (u := u) i
  unfold received
  dsimp only
  split
  · exact responsingErr_keeps env u _ i'
  · rename_i c hc
    split
    · exact kick_keeps env u _ i'
    · rename_i hcf
      split
      · exact i'
      · rename_i hd
        split
        · exact inv_reader hc _ i'
        · rename_i r _
          exact (onMessages_keeps env r.queue _ (received_enters hc hcf hd i r)).leave
        · exact responsingErr_keeps env u _ (inv_reader hc _ i')

theorem insert_keeps {u : Uuid} {s : State P} (hu : s.find u = none) (i : Inv cfg opts none s) :
    Inv cfg opts none (insert u s).2 := by
  have hu' : s.consumers.lookup u = none := hu
  have other : ∀ v, v ≠ u → (insert u s).2.find v = s.find v := by
    intro v hv
    show (s.consumers ++ [(u, Consumer.new)]).lookup v = s.consumers.lookup v
    rw [List.lookup_append]
    have : (v == u) = false := by simp [hv]
    simp [List.lookup_cons, this]
  have self : (insert u s).2.find u = some Consumer.new := by
    show (s.consumers ++ [(u, Consumer.new)]).lookup u = some Consumer.new
    rw [List.lookup_append, hu']
    simp
  refine ⟨⟨i.gone u hu, i.fine⟩, fun v c h => ?_, fun v h => ?_, fun _ _ _ h => (nomatch h)⟩
  · by_cases hv : v = u
    · subst hv
      rw [self] at h
      injection h with h
      subst h
      show Known cfg v Consumer.new (.opened v :: s.past)
      refine ⟨⟨List.mem_cons_self, ?_⟩, ?_, ?_, ?_, ?_, ?_⟩
      · rw [since_opened]; simp
      · rw [since_opened]; simp [Consumer.new]
      · rw [HashShown, since_opened]
        simp [Consumer.new]
      · intro h; cases h
      · intro h; cases h
      · rw [Kicked, since_opened]; simp [Consumer.new]
    · rw [other v hv] at h
      exact known_other hv (.inr (.inr (.inr (.inl rfl)))) (i.known v c h)
  · by_cases hv : v = u
    · subst hv; rw [self] at h; cases h
    · rw [other v hv] at h
      show ¬ Online v (.opened u :: s.past)
      rw [online_push (by simp; exact fun e => hv e.symm) (by simp)]
      exact i.gone v h

theorem find_broadcast (o : Out P) (us : List Uuid) (s : State P) (v : Uuid) :
    (broadcast env o us s).find v = s.find v := by
  induction us generalizing s with
  | nil => rfl
  | cons u us ih => exact (ih _).trans rfl

theorem find_broadcastAll (cs : List (Ref × Cast P)) (s : State P) (v : Uuid) :
    (broadcastAll env cs s).find v = s.find v := by
  induction cs generalizing s with
  | nil => rfl
  | cons c cs ih =>
    obtain ⟨r, us, p⟩ := c
    exact (ih _).trans (find_broadcast env _ us s v)

theorem find_emitEvent (e : Flow.Event) (p : Option P) (s : State P) (v : Uuid) :
    (emitEvent cfg env e p s).2.find v = s.find v := by
  unfold emitEvent
  dsimp only
  split
  · rfl
  · rfl
  · split
    · rfl
    · exact (find_broadcastAll env _ _ v).trans rfl

theorem find_warned (e : Flow.Event) (p : Option P) (s : State P) (v : Uuid) :
    (warned (emitEvent cfg env e p) s).2.find v = s.find v := by
  have := find_emitEvent (cfg := cfg) env e p s v
  unfold warned
  split <;> (rename_i h; rw [h] at this; exact this)

theorem addConnection_keeps (u : Uuid) : Keeps (Inv cfg opts none) (addConnection cfg env u) := by
  intro s i
  unfold addConnection
  split
  · exact i
  · rename_i hu
    have hu : s.find u = none := by simpa using hu
    have k := keeps_warned (emitEvent_keeps (cfg := cfg) (opts := opts) (ctx := none) env
      (defaultEvent cfg "connected".toList) none) s i
    have f := find_warned (cfg := cfg) env (defaultEvent cfg "connected".toList) none s u
    unfold Proc.andThen
    split
    · rename_i h; rw [h] at k f; exact insert_keeps (f.trans hu) k
    · rename_i h; rw [h] at k; exact k
    · rename_i h; rw [h] at k; exact k

theorem removeConnection_keeps (u : Uuid) : Keeps (Inv cfg opts none) (removeConnection cfg env u) := by
  intro s i
  unfold removeConnection
  split
  · exact i
  · rename_i c hc
    apply keeps_warned (emitEvent_keeps env _ _)
    refine ⟨⟨(i.known u c hc).online, i.fine⟩, fun v d h => ?_, fun v h => ?_,
      fun _ _ _ h => (nomatch h)⟩
    · rw [find_push] at h
      by_cases hv : v = u
      · subst hv
        exact nomatch (lookup_filter_self s.consumers v).symm.trans h
      · exact known_other hv (.inr (.inr (.inl rfl)))
          (i.known v d ((lookup_filter_other s.consumers u v hv).symm.trans h))
    · rw [find_push] at h
      show ¬ Online v (.closed u :: s.past)
      by_cases hv : v = u
      · subst hv
        rw [Online, since_cons (by simp)]
        exact fun x => x.2 List.mem_cons_self
      · rw [online_push (by simp) (by simp; exact fun e => hv e.symm)]
        exact i.gone v ((lookup_filter_other s.consumers u v hv).symm.trans h)

theorem inv_confirms {s : State P} (q : List Uuid) (i : Inv cfg opts none s) :
    Inv cfg opts none { s with confirms := q } :=
  ⟨i.fine, i.known, i.gone, fun _ _ _ h => (nomatch h)⟩

theorem confirmation_keeps (u : Uuid) : Keeps (Inv cfg opts none) (confirmation cfg env u) := by
  intro s i
  unfold confirmation
  split
  · exact emitError_keeps env _ s i
  · rename_i c hc
    have k := i.known u c hc
    have e := since_cons (u := u) (a := .confirmed u) (h := s.past) (by simp)
    have i2 : Inv cfg opts none ((s.set u { c with confirmed := true }).push (.confirmed u)) := by
      refine ⟨⟨trivial, i.fine⟩, fun v d h => ?_, fun v h => ?_, fun _ _ _ h => (nomatch h)⟩
      · rw [find_push] at h
        by_cases hv : v = u
        · subst hv
          rw [find_set_self hc] at h
          injection h with h
          subst h
          rw [past_push, past_set]
          refine ⟨(online_push (by simp) (by simp)).2 k.online, ?_, ?_, ?_, ?_, ?_⟩
          · rw [e]; simp
          · show c.hashAccepted = true ↔ _
            rw [k.hash, HashShown, HashShown, e]
            simp
          · intro x
            rw [KeyGiven, e]
            rcases k.key x with ⟨p, q, m⟩ | m
            · exact .inl ⟨p, q, List.mem_cons_of_mem _ m⟩
            · exact .inr (List.mem_cons_of_mem _ m)
          · intro x; rw [e]; exact List.mem_cons_of_mem _ (k.assigned x)
          · show c.discredited = true ↔ _
            rw [k.discredited, Kicked, Kicked, e]
            simp
        · rw [find_set_other hv] at h
          exact known_other hv (.inr (.inr (.inr (.inr (.inr rfl))))) (i.known v d h)
      · rw [past_push, past_set, online_push (by simp) (by simp)]
        rw [find_push] at h
        by_cases hv : v = u
        · subst hv
          rw [find_set_self hc] at h
          cases h
        · rw [find_set_other hv] at h
          exact i.gone v h
    dsimp only
    split
    · exact i2
    · have i3 := send_keeps env u 0 .confirmation i2
      split
      · rename_i h; rw [h] at i3; exact i3
      · rename_i h; rw [h] at i3; exact i3

theorem step_keeps (inp : Input P) : Keeps (Inv cfg opts none) (step cfg env opts inp) := by
  cases inp with
  | ready => exact fun s i => inv_push (a := .ready) trivial trivial i
  | shutdown => exact keeps_skip
  | connected u => exact addConnection_keeps env u
  | disconnected u => exact removeConnection_keeps env u
  | received u b => exact received_keeps env u b
  | serverEvent u => exact emitError_keeps env u
  | event ref p =>
    simp only [step]
    split
    · exact keeps_warned (emitEvent_keeps env _ _)
    · exact keeps_skip
  | setKey u k o =>
    intro s i
    unfold step
    dsimp only
    split
    · rename_i c hc
      have i1 := inv_push (a := .keyChange u) trivial trivial i
      have k1 := i1.known u c hc
      obtain ⟨h1, h2, h3, h4⟩ := setKey_rest cfg.mergeKey c k o
      refine inv_set (s := s.push (.keyChange u)) hc i1 ⟨k1.online, ?_, ?_, ?_, ?_, ?_⟩ ?_ ?_ ?_
      · rw [h1]; exact k1.confirmed
      · rw [h2]; exact k1.hash
      · intro _
        refine .inr ?_
        rw [past_push, since_cons (by simp)]
        exact List.mem_cons_self
      · rw [h3]; exact k1.assigned
      · rw [h4]; exact k1.discredited
      · rw [h1]; exact id
      · intro _; exact setKey_key ..
      · rw [h3]; exact id
    · exact emitError_keeps env _ s i
  | setAssigned u k o =>
    intro s i
    unfold step
    dsimp only
    split
    · rename_i c hc
      have i1 := inv_push (a := .assignment u) trivial trivial i
      have k1 := i1.known u c hc
      obtain ⟨h1, h2, h3, h4⟩ := assign_rest cfg.mergeAssigned c k o
      refine inv_set (s := s.push (.assignment u)) hc i1 ⟨k1.online, ?_, ?_, ?_, ?_, ?_⟩ ?_ ?_ ?_
      · rw [h1]; exact k1.confirmed
      · rw [h2]; exact k1.hash
      · rw [h3]; exact k1.key
      · intro _
        rw [past_push, since_cons (by simp)]
        exact List.mem_cons_self
      · rw [h4]; exact k1.discredited
      · rw [h1]; exact id
      · rw [h3]; exact id
      · intro _; exact assign_assigned ..
    · exact emitError_keeps env _ s i
  | confirm =>
    intro s i
    unfold step
    dsimp only
    split
    · exact i
    · exact confirmation_keeps env _ _ (inv_confirms _ i)
  | stop => exact keeps_skip

theorem listen_inv (is : List (Input P)) {s : State P} (i : Inv cfg opts none s) :
    Inv cfg opts none (listen cfg env opts is s).2 := by
  induction is generalizing s with
  | nil => exact i
  | cons x is ih =>
    have k := step_keeps (cfg := cfg) (opts := opts) env x s i
    unfold listen
    split
    · exact i
    · exact i
    · exact i
    · rename_i heq
      injection heq with h1 h2
      subst h1 h2
      split
      · rename_i h; rw [h] at k; exact ih k
      · rename_i h; rw [h] at k; exact k
      · rename_i h; rw [h] at k; exact k

theorem inv_new : Inv cfg opts none (State.new : State P) :=
  ⟨trivial, fun _ _ h => (nomatch h), fun _ _ h => (nomatch h.1), fun _ _ _ h => (nomatch h)⟩

theorem AllFine.at {a : Act P} {n o : List (Act P)} (f : AllFine cfg opts (n ++ a :: o)) :
    Fine cfg opts o a := by
  induction n with
  | nil => exact f.1
  | cons b n ih => exact ih f.2

end Verif.Server
