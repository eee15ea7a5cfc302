import Verif.Proofs.ServerLocal
import Verif.Proofs.RustReader
set_option autoImplicit false
/-!
Clients that do the handshake step by step are served.
-/
namespace Verif.Server

open Verif Verif.Spec

variable {P : Type} {cfg : Cfg P} {opts : Options} {env : Env P}

/-- Continue after a part of the inputs. -/
theorem listen_append (a b : List (Input P)) (s : State P)
    (h : (listen cfg env opts (a ++ b) s).1 = .running) :
    ∃ s', listen cfg env opts a s = (.running, s') ∧
      listen cfg env opts b s' = listen cfg env opts (a ++ b) s := by
  induction a generalizing s with
  | nil => exact ⟨s, rfl, rfl⟩
  | cons x a ih =>
    by_cases hs : x = .shutdown
    · subst hs; cases h
    by_cases ht : x = .stop
    · subst ht; cases h
    have e : ∀ l, listen cfg env opts (x :: l) s =
        match step cfg env opts x s with
        | (.ok _, s) => listen cfg env opts l s
        | (.err, s) => (.failed, s)
        | (.panic, s) => (.panicked, s) := by
      intro l
      rw [listen]
      · rfl
      · exact hs
      · exact ht
    rw [List.cons_append, e] at h ⊢
    rw [e]
    split at h
    · rename_i s1 h1
      obtain ⟨s', e1, e2⟩ := ih s1 h
      exact ⟨s', e1, e2⟩
    · cases h
    · cases h

theorem listen_one (x : Input P) (s s' : State P)
    (h : listen cfg env opts [x] s = (.running, s')) :
    step cfg env opts x s = (.ok (), s') := by
  by_cases hs : x = .shutdown
  · subst hs; cases h
  by_cases ht : x = .stop
  · subst ht; cases h
  rw [listen] at h
  · split at h
    · rename_i e
      rw [e]
      injection h with _ h2
      exact congrArg _ h2
    · cases h
    · cases h
  · exact hs
  · exact ht

theorem listen_grows (is : List (Input P)) (s : State P) :
    ∃ l, (listen cfg env opts is s).2.past = l ++ s.past := by
  induction is generalizing s with
  | nil => exact ⟨[], rfl⟩
  | cons x is ih =>
    obtain ⟨l, hl⟩ := step_grows (cfg := cfg) (opts := opts) env x s
    unfold listen
    split
    · exact ⟨[], rfl⟩
    · exact ⟨[], rfl⟩
    · exact ⟨[], rfl⟩
    · rename_i heq
      injection heq with h1 h2
      subst h1 h2
      split
      · rename_i h
        rw [h] at hl
        obtain ⟨m, hm⟩ := ih ‹_›
        exact ⟨m ++ l, by rw [hm, hl, List.append_assoc]⟩
      · rename_i h; rw [h] at hl; exact ⟨l, hl⟩
      · rename_i h; rw [h] at hl; exact ⟨l, hl⟩

/-- How far client `u` got. -/
structure Stage (u : Uuid) (conf key hash assigned : Bool) (s : State P) : Prop where
  here : ∃ c, s.find u = some c ∧ (conf = true → c.confirmed = true) ∧ c.discredited = false ∧
    c.reader = ⟨[], []⟩ ∧ (key = true → c.key.isSome = true) ∧ c.hashAccepted = hash ∧
    (assigned = true → c.assigned.isSome = true)

theorem Stage.of_find {u : Uuid} {conf key hash assigned : Bool} {s s' : State P}
    (h : Stage u conf key hash assigned s) (e : s'.find u = s.find u) : Stage u conf key hash assigned s' :=
  ⟨by rw [e]; exact h.here⟩

/-- Inputs that neither open nor close the connection of `u` nor carry data of `u`. -/
def Aside (u : Uuid) : Input P → Prop
  | .connected v => v ≠ u
  | .disconnected v => v ≠ u
  | .received v _ => v ≠ u
  | _ => True

theorem step_aside {u : Uuid} {conf key hash assigned : Bool} {x : Input P} (hx : Aside u x)
    {s : State P} (h : Stage u conf key hash assigned s) :
    Stage u conf key hash (assigned || (match x with | .setAssigned v _ _ => v == u | _ => false))
      (step cfg env opts x s).2 := by
  cases x with
  | ready => exact Stage.of_find (s := s) (by simpa using h) rfl
  | shutdown => exact Stage.of_find (s := s) (by simpa using h) rfl
  | stop => exact Stage.of_find (s := s) (by simpa using h) rfl
  | serverEvent v => exact Stage.of_find (s := s) (by simpa using h) rfl
  | received v b =>
    exact Stage.of_find (by simpa using h) ((received_local env v b s).others u (Ne.symm hx))
  | connected v =>
    refine Stage.of_find (by simpa using h) ?_
    simp only [step, addConnection]
    split
    · rfl
    · have hf := find_warned (cfg := cfg) env (defaultEvent cfg "connected".toList) none s u
      unfold Proc.andThen
      split
      · rename_i s1 hs
        rw [hs] at hf
        show (s1.consumers ++ [(v, Consumer.new)]).lookup u = _
        rw [List.lookup_append]
        have hb : (u == v) = false := by simpa using fun e : u = v => hx e.symm
        rw [List.lookup_cons, hb]
        show (s1.find u).or none = _
        rw [hf]
        simp
      · rename_i hs; rw [hs] at hf; exact hf
      · rename_i hs; rw [hs] at hf; exact hf
  | disconnected v =>
    refine Stage.of_find (by simpa using h) ?_
    simp only [step, removeConnection]
    split
    · rfl
    · rw [find_warned, find_push]
      exact lookup_filter_other _ _ _ (Ne.symm hx)
  | event ref p =>
    refine Stage.of_find (by simpa using h) ?_
    simp only [step]
    generalize cfg.workflow.events.find? _ = o
    cases o with
    | none => rfl
    | some e => exact find_warned env e _ s u
  | setKey v k o =>
    simp only [Bool.or_false, step]
    split
    · rename_i c hc
      by_cases e : u = v
      · subst e
        obtain ⟨d, hd, h1, h2, h3, h4, h5, h6⟩ := h.here
        rw [hc] at hd
        obtain rfl := Option.some.inj hd
        refine ⟨_, (by rw [find_push]; exact find_set_self hc), ?_, ?_, ?_, fun _ => ?_, ?_, ?_⟩ <;>
          simp only [Consumer.setKey] <;> split <;> first | assumption | rfl
      · exact h.of_find (by rw [find_push]; exact find_set_other e)
    · exact h.of_find rfl
  | setAssigned v k o =>
    simp only [step]
    split
    · rename_i c hc
      by_cases e : u = v
      · subst e
        obtain ⟨d, hd, h1, h2, h3, h4, h5, h6⟩ := h.here
        rw [hc] at hd
        obtain rfl := Option.some.inj hd
        refine ⟨_, (by rw [find_push]; exact find_set_self hc), ?_, ?_, ?_, ?_, ?_, fun _ => ?_⟩ <;>
          simp only [Consumer.assign] <;> split <;> first | assumption | rfl
      · have : (v == u) = false := by simpa using fun x : v = u => e x.symm
        rw [this, Bool.or_false]
        exact h.of_find (by rw [find_push]; exact find_set_other e)
    · rename_i hc
      have : (v == u) = false := by
        rw [beq_eq_false_iff_ne]
        rintro rfl
        obtain ⟨d, hd, _⟩ := h.here
        rw [hc] at hd
        cases hd
      rw [this, Bool.or_false]
      exact h.of_find rfl
  | confirm =>
    simp only [Bool.or_false, step]
    split
    · exact h
    · rename_i v vs _
      have h' : Stage u conf key hash assigned { s with confirms := vs } := h.of_find rfl
      unfold confirmation
      split
      · exact h'.of_find rfl
      · rename_i c hc
        have h'' : Stage u conf key hash assigned
            ((({ s with confirms := vs } : State P).set v { c with confirmed := true }).push
              (.confirmed v)) := by
          by_cases e : u = v
          · subst e
            obtain ⟨d, hd, h1, h2⟩ := h'.here
            rw [hc] at hd
            obtain rfl := Option.some.inj hd
            exact ⟨{ c with confirmed := true }, (by rw [find_push]; exact find_set_self hc), fun _ => rfl, h2⟩
          · exact h'.of_find (by rw [find_push]; exact find_set_other e)
        dsimp only
        split
        · exact h''
        · split
          · rename_i he
            have := congrArg Prod.snd he
            dsimp only [send] at this
            rw [← this]
            exact h''.of_find rfl
          · rename_i he
            have := congrArg Prod.snd he
            dsimp only [send] at this
            rw [← this]
            exact h''.of_find rfl

theorem Stage.weaken {u : Uuid} {conf key hash a b : Bool} {s : State P} (h : Stage u conf key hash a s)
    (hab : b = true → a = true) : Stage u conf key hash b s := by
  obtain ⟨c, h1, h2, h3, h4, h5, h6, h7⟩ := h.here
  exact ⟨c, h1, h2, h3, h4, h5, h6, fun x => h7 (hab x)⟩

theorem listen_aside {u : Uuid} {conf key hash assigned : Bool} (is : List (Input P))
    (hx : ∀ x ∈ is, Aside u x) {s s' : State P} (h : Stage u conf key hash assigned s)
    (hl : listen cfg env opts is s = (.running, s')) :
    Stage u conf key hash assigned s' ∧
      ((∃ k o, .setAssigned u k o ∈ is) → Stage u conf key hash true s') := by
  induction is generalizing s assigned with
  | nil =>
    injection hl with _ hl
    subst hl
    exact ⟨h, fun ⟨_, _, hm⟩ => (nomatch hm)⟩
  | cons x is ih =>
    obtain ⟨s1, e1, e2⟩ := listen_append (cfg := cfg) (env := env) (opts := opts) [x] is s
      (by rw [List.singleton_append, hl])
    have e1 := listen_one x s s1 e1
    rw [List.singleton_append, hl] at e2
    have h1 := step_aside (cfg := cfg) (env := env) (opts := opts)
      (hx x List.mem_cons_self) h
    rw [e1] at h1
    have := ih (fun y hy => hx y (List.mem_cons_of_mem _ hy)) h1 e2
    refine ⟨this.1.weaken (by intro e; simp [e]), ?_⟩
    rintro ⟨k, o, hm⟩
    rcases List.mem_cons.1 hm with rfl | hm
    · simpa using this.1
    · exact this.2 ⟨k, o, hm⟩

theorem andThen_skip (p : Proc P) (s : State P) : p.andThen .skip s = p s := by
  unfold Proc.andThen Proc.skip
  generalize p s = x
  obtain ⟨r, t⟩ := x
  cases r <;> rfl

/-- One frame of a client in order. -/
theorem received_frame {u : Uuid} {key hash assigned : Bool} {s : State P}
    (h : Stage u true key hash assigned s) {f : Frame} {m : In P} (hf : f.Ok)
    (hsig : cfg.decoder.signature = f.hdr.signature)
    (hm : cfg.decoder.getMsg f.hdr.id f.body = .ok m) :
    ∃ c s1, s1.find u = some c ∧ s1.past = .chunk u :: s.past ∧ c.confirmed = true ∧
      c.discredited = false ∧ c.reader = ⟨[], []⟩ ∧ (key = true → c.key.isSome = true) ∧
      c.hashAccepted = hash ∧ (assigned = true → c.assigned.isSome = true) ∧
      received cfg env opts u f.bytes s =
        onMessage cfg env opts u (c.isAssigned opts.identification) c.key.isSome m f.hdr.sequence s1 := by
  obtain ⟨c, h1, h2, h3, h4, h5, h6, h7⟩ := h.here
  have hg : Good cfg.decoder f := ⟨hf, hsig, m, hm⟩
  have hd : delivered cfg.decoder f = some ⟨f.hdr, m⟩ := by simp [delivered, hsig, hm]
  have hc : Rust.chunk cfg.decoder c.reader f.bytes = (.ok, ⟨[], [⟨f.hdr, m⟩]⟩) := by
    have := Rust.chunk_good cfg.decoder [f] [] (by simpa using hg) (by simp) c.reader f.bytes []
      (by rw [h4]; simp [stream]) (.inl ⟨rfl, rfl⟩)
    rw [this, h4]
    simp [hd]
  refine ⟨{ c with reader := ⟨[], []⟩ }, (s.push (.chunk u)).set u { c with reader := ⟨[], []⟩ },
    find_set_self (d := c) h1, rfl, h2 rfl, h3, rfl, h5, h6, h7, ?_⟩
  unfold received
  dsimp only
  rw [find_push, h1]
  dsimp only
  rw [if_neg (by simp [h2 rfl]), if_neg (by simp [h3]), hc]
  dsimp only
  unfold onMessages onMessages
  rw [andThen_skip]
  rfl

theorem answer_ok {u : Uuid} {seq : UInt32} {o : Out P} {s : State P} (hp : cfg.packs o = true)
    (hs : env.send s u seq o = true) :
    answer cfg env opts u seq o s = (.ok (), s.push (.send u seq o true)) := by
  unfold answer
  rw [if_neg (by simp [hp])]
  simp [send, hs]

/-- The self key is stored and answered. -/
theorem serve_selfKey {u : Uuid} {key assigned : Bool} {s : State P}
    (h : Stage u true key false assigned s) {f : Frame} {k : P} (hf : f.Ok)
    (hsig : cfg.decoder.signature = f.hdr.signature)
    (hm : cfg.decoder.getMsg f.hdr.id f.body = .ok (.msg cfg.selfKey k))
    (hp : cfg.packs (.selfKey u) = true) (hs : ∀ s, env.send s u f.hdr.sequence (.selfKey u) = true) :
    (received cfg env opts u f.bytes s).1 = .ok () ∧
    Stage u true true false assigned (received cfg env opts u f.bytes s).2 ∧
    (received cfg env opts u f.bytes s).2.past = .send u f.hdr.sequence (.selfKey u) true ::
      .got u (.msg cfg.selfKey k) f.hdr.sequence :: .chunk u :: s.past := by
  obtain ⟨c, s1, h1, h2, h3, h4, h5, h6, h7, h8, e⟩ :=
    received_frame (env := env) (opts := opts) h hf hsig hm
  rw [e]
  unfold onMessage
  rw [h1]
  dsimp only
  rw [if_pos ⟨rfl, h7⟩]
  unfold onSelfKey
  rw [answer_ok hp (hs _)]
  refine ⟨rfl, ?_, by rw [past_push, past_set, past_push, h2]⟩
  refine ⟨c.setKey cfg.mergeKey k true, ?_, ?_⟩
  · rw [find_push]; exact find_set_self (d := c) (by rw [find_push]; exact h1)
  · have := setKey_rest cfg.mergeKey c k true
    have hk := setKey_key cfg.mergeKey c k true
    refine ⟨fun _ => ?_, ?_, ?_, fun _ => hk, ?_, ?_⟩ <;>
      (unfold Consumer.setKey; split <;> first | assumption | rfl)

/-- The right hash is accepted and answered. -/
theorem serve_hash {u : Uuid} {key hash assigned : Bool} {s : State P}
    (h : Stage u true key hash assigned s) {f : Frame} (hf : f.Ok)
    (hsig : cfg.decoder.signature = f.hdr.signature)
    (hm : cfg.decoder.getMsg f.hdr.id f.body = .ok (.hash cfg.protocolHash cfg.workflowHash))
    (hp : cfg.packs (.hash false) = true)
    (hs : ∀ s, env.send s u f.hdr.sequence (.hash false) = true) :
    (received cfg env opts u f.bytes s).1 = .ok () ∧
    Stage u true key true assigned (received cfg env opts u f.bytes s).2 ∧
    (received cfg env opts u f.bytes s).2.past = .send u f.hdr.sequence (.hash false) true ::
      .got u (.hash cfg.protocolHash cfg.workflowHash) f.hdr.sequence :: .chunk u :: s.past := by
  obtain ⟨c, s1, h1, h2, h3, h4, h5, h6, h7, h8, e⟩ :=
    received_frame (env := env) (opts := opts) h hf hsig hm
  rw [e]
  unfold onMessage
  rw [h1]
  dsimp only
  unfold onHash
  rw [if_neg (by simp)]
  rw [answer_ok hp (hs _)]
  refine ⟨rfl, ?_, by rw [past_push, past_set, past_push, h2]⟩
  exact ⟨{ c with hashAccepted := true }, by
    rw [find_push]; exact find_set_self (d := c) (by rw [find_push]; exact h1), fun _ => h3, h4, h5, h6, rfl, h8⟩

/-- What is left of a request once the handshake is done. -/
theorem serve_other {u : Uuid} {assigned : Bool} {s : State P}
    (h : Stage u true true true assigned s) (ha : Strict opts.identification → assigned = true)
    {f : Frame} {ref : Ref} {p : P} (hf : f.Ok)
    (hsig : cfg.decoder.signature = f.hdr.signature)
    (hm : cfg.decoder.getMsg f.hdr.id f.body = .ok (.msg ref p)) :
    ∃ s1, s1.past = .got u (.msg ref p) f.hdr.sequence :: .chunk u :: s.past ∧
      Stage u true true true assigned s1 ∧
      received cfg env opts u f.bytes s = dispatch cfg env opts u ref p f.hdr.sequence s1 := by
  obtain ⟨c, s1, h1, h2, h3, h4, h5, h6, h7, h8, e⟩ :=
    received_frame (env := env) (opts := opts) h hf hsig hm
  refine ⟨s1.push (.got u (.msg ref p) f.hdr.sequence), by rw [past_push, h2],
    ⟨c, by rw [find_push]; exact h1, fun _ => h3, h4, h5, h6, h7, h8⟩, ?_⟩
  rw [e]
  unfold onMessage
  rw [h1]
  dsimp only
  rw [if_neg (by simp [h7])]
  unfold onOther
  rw [if_neg (by simp [h7]), if_neg (by simp [h6 rfl]), if_neg]
  simp only [Bool.and_eq_true, Bool.not_eq_true', decide_eq_true_eq, not_and]
  intro h9
  unfold Consumer.isAssigned at h9
  split at h9
  · rename_i h10
    cases hst : opts.identification with
    | ignore => simp
    | log => rw [hst] at h9; cases h9
    | emitError => have := h8 (ha (.inl hst)); simp at h10; rw [h10] at this; cases this
    | disconnect => have := h8 (ha (.inr (.inl hst))); simp at h10; rw [h10] at this; cases this
    | emitErrorAndDisconnect =>
      have := h8 (ha (.inr (.inr hst))); simp at h10; rw [h10] at this; cases this
  · cases h9

theorem process_responds (r : Flow.Request) (u : Uuid) (p : P) (seq : UInt32) (s : State P) :
    ∃ l, (process cfg env r u p seq s).2.past = l ++ .respond u (r.request.getD []) seq :: s.past := by
  have key : ∀ (o : Out P) cs, ∃ l,
      (finish cfg env u seq o cs (s.push (.respond u (r.request.getD []) seq))).2.past =
        l ++ .respond u (r.request.getD []) seq :: s.past := by
    intro o cs
    obtain ⟨l, hl, _⟩ := (finish_local (cfg := cfg) env u seq o cs
      (s.push (.respond u (r.request.getD []) seq))).past
    exact ⟨l, hl⟩
  unfold process
  dsimp only
  split
  · split
    · exact ⟨[], rfl⟩
    · exact key _ _
    · exact key _ _
  · split
    · exact ⟨[], rfl⟩
    · exact key _ _
    · exact key _ _

/-- A declared request reaches its handler. -/
theorem dispatch_responds {ref : Ref} {r : Flow.Request} (hr : r ∈ cfg.workflow.requests)
    (hn : r.request = some ref) (u : Uuid) (p : P) (seq : UInt32) (s : State P) :
    ∃ l, (dispatch cfg env opts u ref p seq s).2.past = l ++ .respond u ref seq :: s.past := by
  unfold dispatch
  cases hq : cfg.workflow.requests.find? (fun r => r.request = some ref) with
  | none =>
    have := List.find?_eq_none.1 hq r hr
    simp [hn] at this
  | some q =>
    have hq' : q.request = some ref := by simpa using List.find?_some hq
    obtain ⟨l, hl⟩ := process_responds (cfg := cfg) (env := env) q u p seq s
    rw [hq'] at hl
    simp only [Option.getD_some] at hl
    dsimp only
    split
    · rename_i e; rw [e] at hl; exact ⟨l, hl⟩
    · rename_i e; rw [e] at hl
      obtain ⟨m, hm, _⟩ := (responsingErr_local (opts := opts) env u ‹_›).past
      exact ⟨m ++ l, by rw [hm, hl, List.append_assoc]⟩
    · rename_i e; rw [e] at hl; exact ⟨l, hl⟩

theorem Stage.confirm {u : Uuid} {conf key hash assigned : Bool} {s : State P}
    (h : Stage u conf key hash assigned s) (i : Inv cfg opts none s)
    (hc : .confirmed u ∈ since u s.past) : Stage u true key hash assigned s := by
  obtain ⟨c, h1, h2, h3⟩ := h.here
  exact ⟨c, h1, fun _ => (i.known u c h1).confirmed.2 hc, h3⟩

/-- A new connection. -/
theorem connected_stage {u : Uuid} {s s' : State P}
    (h : step cfg env opts (.connected u) s = (.ok (), s')) : Stage u false false false false s' := by
  simp only [step, addConnection] at h
  split at h
  · cases h
  · rename_i hn
    unfold Proc.andThen at h
    split at h
    · rename_i s1 hs
      have hf := find_warned (cfg := cfg) env (defaultEvent cfg "connected".toList) none s u
      rw [hs] at hf
      injection h with _ h
      subst h
      refine ⟨Consumer.new, ?_, fun x => (nomatch x), rfl, rfl, fun x => (nomatch x), rfl,
        fun x => (nomatch x)⟩
      show (s1.consumers ++ [(u, Consumer.new)]).lookup u = _
      rw [List.lookup_append]
      have hz : s.find u = none := by
        cases hz : s.find u with
        | none => rfl
        | some c => rw [hz] at hn; exact absurd rfl hn
      show (s1.find u).or _ = _
      rw [hf, hz]
      simp
    · cases h
    · cases h

/-- The whole handshake. -/
theorem handshake_served {u : Uuid} {pre mid0 mid1 mid2 post : List (Input P)} {f1 f2 f3 : Frame}
    {k p : P} {ref : Ref} {r : Flow.Request} {s0 : State P}
    (ha0 : ∀ x ∈ mid0, Aside u x) (ha1 : ∀ x ∈ mid1, Aside u x) (ha2 : ∀ x ∈ mid2, Aside u x)
    (ok1 : f1.Ok) (ok2 : f2.Ok) (ok3 : f3.Ok)
    (sg1 : cfg.decoder.signature = f1.hdr.signature) (sg2 : cfg.decoder.signature = f2.hdr.signature)
    (sg3 : cfg.decoder.signature = f3.hdr.signature)
    (m1 : cfg.decoder.getMsg f1.hdr.id f1.body = .ok (.msg cfg.selfKey k))
    (m2 : cfg.decoder.getMsg f2.hdr.id f2.body = .ok (.hash cfg.protocolHash cfg.workflowHash))
    (m3 : cfg.decoder.getMsg f3.hdr.id f3.body = .ok (.msg ref p))
    (hr : r ∈ cfg.workflow.requests) (hn : r.request = some ref)
    (hp1 : cfg.packs (.selfKey u) = true) (hp2 : cfg.packs (.hash false) = true)
    (hs : ∀ s seq o, env.send s u seq o = true)
    (hst : Strict opts.identification → ∃ k o, .setAssigned u k o ∈ mid0 ++ mid1 ++ mid2)
    (hl : listen cfg env opts (pre ++ .connected u :: mid0) .new = (.running, s0))
    (hcf : .confirmed u ∈ since u s0.past)
    (hrun : (listen cfg env opts (pre ++ .connected u :: mid0 ++ (.received u f1.bytes :: mid1 ++
      (.received u f2.bytes :: mid2 ++ (.received u f3.bytes :: post)))) .new).1 = .running) :
    ∃ newer older, (listen cfg env opts (pre ++ .connected u :: mid0 ++ (.received u f1.bytes :: mid1 ++
      (.received u f2.bytes :: mid2 ++ (.received u f3.bytes :: post)))) .new).2.past =
        newer ++ .respond u ref f3.hdr.sequence :: older ∧
      .send u f1.hdr.sequence (.selfKey u) true ∈ older ∧
      .send u f2.hdr.sequence (.hash false) true ∈ older := by
  -- up to the confirmation
  have i0 : Inv cfg opts none s0 := by
    have := listen_inv (cfg := cfg) (opts := opts) env (pre ++ .connected u :: mid0) inv_new
    rw [hl] at this
    exact this
  obtain ⟨t1, e1, e2⟩ := listen_append pre (.connected u :: mid0) .new (by rw [hl])
  rw [hl] at e2
  obtain ⟨t2, e3, e4⟩ := listen_append [.connected u] mid0 t1 (by rw [List.singleton_append, e2])
  rw [List.singleton_append, e2] at e4
  have st0 := (listen_aside mid0 ha0 (connected_stage (listen_one _ _ _ e3)) e4)
  have st0a : Stage u true false false false s0 := st0.1.confirm i0 hcf
  have st0b : (∃ k o, .setAssigned u k o ∈ mid0) → Stage u true false false true s0 :=
    fun x => (st0.2 x).confirm i0 hcf
  -- the rest
  obtain ⟨t, e5, e6⟩ := listen_append _ _ _ hrun
  rw [hl] at e5
  injection e5 with _ e5
  subst e5
  rw [← e6] at hrun ⊢
  clear e6
  obtain ⟨s1, e1, e2⟩ := listen_append [.received u f1.bytes] (mid1 ++
      (.received u f2.bytes :: mid2 ++ (.received u f3.bytes :: post))) s0 hrun
  have e1 := listen_one _ _ _ e1
  simp only [List.cons_append, List.singleton_append, List.nil_append] at e2 hrun ⊢
  rw [← e2] at hrun ⊢
  clear e2
  have key1 : ∀ a, Stage u true false false a s0 → Stage u true true false a s1 ∧
      .send u f1.hdr.sequence (.selfKey u) true ∈ s1.past := by
    intro a st
    have := serve_selfKey (env := env) (opts := opts) st ok1 sg1 m1 hp1 (fun s => hs s _ _)
    rw [show received cfg env opts u f1.bytes s0 = (.ok (), s1) from e1] at this
    refine ⟨this.2.1, ?_⟩
    rw [this.2.2]
    exact List.mem_cons_self
  obtain ⟨s2, e3, e4⟩ := listen_append mid1 _ s1 hrun
  rw [← e4] at hrun ⊢
  clear e4
  obtain ⟨s3, e5, e6⟩ := listen_append [.received u f2.bytes] (mid2 ++ (.received u f3.bytes :: post))
    s2 hrun
  have e5 := listen_one _ _ _ e5
  simp only [List.singleton_append] at e6
  rw [← e6] at hrun ⊢
  clear e6
  have key2 : ∀ a, Stage u true true false a s2 → Stage u true true true a s3 ∧
      s3.past = .send u f2.hdr.sequence (.hash false) true ::
        .got u (.hash cfg.protocolHash cfg.workflowHash) f2.hdr.sequence :: .chunk u :: s2.past := by
    intro a st
    have := serve_hash (env := env) (opts := opts) st ok2 sg2 m2 hp2 (fun s => hs s _ _)
    rw [show received cfg env opts u f2.bytes s2 = (.ok (), s3) from e5] at this
    exact ⟨this.2.1, this.2.2⟩
  obtain ⟨s4, e7, e8⟩ := listen_append mid2 _ s3 hrun
  rw [← e8] at hrun ⊢
  clear e8
  obtain ⟨s5, e9, e10⟩ := listen_append [.received u f3.bytes] post s4 hrun
  have e9 := listen_one _ _ _ e9
  simp only [List.singleton_append] at e10
  rw [← e10] at hrun ⊢
  clear e10
  -- the stage at the end
  have p1 := key1 _ st0a
  have l1 := listen_aside mid1 ha1 p1.1 e3
  have p2 := key2 _ l1.1
  have l2 := listen_aside mid2 ha2 p2.1 e7
  have fin : ∃ a, Stage u true true true a s4 ∧ (Strict opts.identification → a = true) := by
    by_cases h : Strict opts.identification
    · refine ⟨true, ?_, fun _ => rfl⟩
      obtain ⟨k, o, hm⟩ := hst h
      rcases List.mem_append.1 hm with hm | hm
      · rcases List.mem_append.1 hm with hm | hm
        · exact (listen_aside mid2 ha2 (key2 _ (listen_aside mid1 ha1
            (key1 _ (st0b ⟨k, o, hm⟩)).1 e3).1).1 e7).1
        · exact (listen_aside mid2 ha2 (key2 _ (l1.2 ⟨k, o, hm⟩)).1 e7).1
      · exact l2.2 ⟨k, o, hm⟩
    · exact ⟨false, l2.1, fun x => absurd x h⟩
  obtain ⟨a, st, hst⟩ := fin
  obtain ⟨q, hq, _, hd⟩ := serve_other (env := env) (opts := opts) st hst ok3 sg3 m3
  obtain ⟨nq, hresp⟩ := dispatch_responds (cfg := cfg) (env := env) (opts := opts) hr hn u p
    f3.hdr.sequence q
  have e9' : received cfg env opts u f3.bytes s4 = (.ok (), s5) := e9
  rw [hd] at e9'
  rw [e9'] at hresp
  obtain ⟨n1, g1⟩ := listen_grows (cfg := cfg) (env := env) (opts := opts) mid1 s1
  rw [e3] at g1
  obtain ⟨n2, g2⟩ := listen_grows (cfg := cfg) (env := env) (opts := opts) mid2 s3
  rw [e7] at g2
  obtain ⟨n3, g3⟩ := listen_grows (cfg := cfg) (env := env) (opts := opts) post s5
  have old2 : .send u f2.hdr.sequence (.hash false) true ∈ q.past := by
    rw [hq, g2, p2.2]
    simp
  have old1 : .send u f1.hdr.sequence (.selfKey u) true ∈ q.past := by
    rw [hq, g2, p2.2, g1]
    simp [p1.2]
  rw [g3]
  exact ⟨n3 ++ nq, q.past, by rw [hresp, List.append_assoc], old1, old2⟩

end Verif.Server
