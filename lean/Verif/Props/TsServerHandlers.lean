import Verif.Props.TsServerMore
set_option autoImplicit false
/-!
Property theorems about the generated TypeScript server, third part: errors and single conclusions
(C84), whole handlers (C94), and events (C95).
-/
namespace Verif.Props

open Verif Verif.Spec Verif.TsServer

/-! ### C84: errors and single conclusions -/

/-- **C84** (partial), errors: every request can be answered with its error, if no conclusion has this
message too, and a request with one action also with its response. No broadcasts are given. -/
theorem C84_error_partial (cfg : Cfg) (env : Env) (opts : Server.Options) {s : State} {t : Nat}
    {u : Uuid} {seq : UInt32} {r : Flow.Request} {resp : Ref} {body : Js}
    (hl : s.tasks.lookup t = some ⟨u, seq, .request r, .user⟩)
    (h : (r.error = some resp ∧ ∀ a ∈ r.actions, a.response ≠ some resp) ∨
      ∃ a, r.actions = [a] ∧ a.response = some resp)
    (hp : cfg.packs (.msg resp body) = true) :
    let s' := (step cfg env opts (.settled t (.answer resp body [])) s).2
    s'.past = .send (.answer t) u seq (.msg resp body) :: s.past ∧
      s'.tasks.lookup t = some ⟨u, seq, .request r, .sending []⟩ := by
  intro s'
  have he : resp ∈ expectations r := by
    unfold expectations
    rcases h with ⟨h, _⟩ | ⟨a, h1, h2⟩
    · rw [h]; simp
    · rw [h1]; simp [h2]
  have hs : s' = (sendAnswer cfg env opts t ⟨u, seq, .request r, .user⟩ (.msg resp body) [] s).2 := by
    show (step cfg env opts (.settled t (.answer resp body _)) s).2 = _
    simp only [step, hl, resume]
    rw [if_neg (fun h => h he)]
    by_cases h2 : r.actions.length > 1
    · rw [if_pos h2]
      have hcomp : complete r resp [] = true := by
        rw [complete_iff]
        rintro ref ⟨b, hb, h3, _⟩
        rcases h with ⟨_, h⟩ | ⟨a, h, _⟩
        · exact absurd h3 (h b hb)
        · rw [h] at h2; simp at h2
      rw [show collect (requestMethods r) resp [] [] = some [] from rfl]
      dsimp only
      rw [if_pos hcomp]
    · rw [if_neg h2]
  unfold sendAnswer at hs
  rw [if_pos hp] at hs
  rw [hs]
  exact ⟨rfl, wait_lookup hl⟩

example : (shopRequest.error = some ['E'] ∧ ∀ a ∈ shopRequest.actions, a.response ≠ some ['E']) ∧
    ∃ a, soleRequest.actions = [a] ∧ a.response = some ['R'] :=
  ⟨⟨rfl, by simp [shopRequest]⟩, _, rfl, rfl⟩

/-! ### C94: whole handlers -/

theorem lookup_new {l : List (Nat × Task)} {t : Nat} {x : Task} (h : ∀ p ∈ l, p.1 < t) :
    (l ++ [(t, x)]).lookup t = some x := by
  induction l with
  | nil => simp
  | cons p l ih =>
    have hp := h p List.mem_cons_self
    rw [List.cons_append, List.lookup_cons]
    have : (t == p.1) = false := by simp; omega
    rw [this]
    exact ih (fun q hq => h q (List.mem_cons_of_mem _ hq))

/-- The tests before a message of the workflow are passed. -/
theorem onMessage_dispatch {cfg : Cfg} {env : Env} {opts : Server.Options} {u : Uuid} {c : Consumer}
    {m : Msg} {seq : UInt32} {s : State} (h1 : c.key.isSome = true) (h2 : c.hash = true)
    (hh : ∀ k, ¬ Found m hashRequest k) :
    onMessage cfg env opts u c m seq s = dispatch cfg env opts u m seq s := by
  unfold onMessage onOther
  rw [h2, extract_none hh, isAssigned_true]
  cases hk : c.key with
  | none => rw [hk] at h1; cases h1
  | some k => cases m.extract cfg.selfKey <;> rfl

/-- **C94**, start: after any run, a client that did the handshake sends a message of exactly one
request, or of no request and exactly one beacon. The handler of this request or beacon is called and
waits for user code, with the client and the sequence of the message. -/
theorem C94_started (cfg : Cfg) (env : Env) (opts : Server.Options) (is : List Input) {u : Uuid}
    {c : Consumer} {f : Frame} {m : Msg} {b : Js} :
    let s := (run cfg env opts is .new).2
    let s' := (step cfg env opts (.received u f.bytes) s).2
    s.find u = some c → c.discredited = false → c.reader = ⟨[], []⟩ → c.hash = true → c.key ≠ none →
    f.Ok → f.hdr.signature = cfg.decoder.signature → cfg.decoder.getMsg f.hdr.id f.body = .ok m →
    (∀ k, ¬ Found m "InternalServiceGroup.HashRequest".toList k) →
    (∀ r ref, r ∈ cfg.workflow.requests → r.request = some ref → Found m ref b →
      (∀ r' ∈ cfg.workflow.requests, ∀ ref' b', r'.request = some ref' → Found m ref' b' → r' = r) →
      s'.tasks.lookup s.next = some ⟨u, f.hdr.sequence, .request r, .user⟩ ∧
      ∃ l, s'.past = l ++ .respond s.next u ref b f.hdr.sequence :: .got u m f.hdr.sequence ::
        .chunk u :: s.past ∧ ∀ a ∈ l, ∃ v, Changes v a) ∧
    (∀ x ∈ cfg.workflow.beacons, Found m x.reference b →
      (∀ r ∈ cfg.workflow.requests, ∀ ref b', r.request = some ref → ¬ Found m ref b') →
      (∀ y ∈ cfg.workflow.beacons, ∀ b', Found m y.reference b' → y.reference = x.reference) →
      s'.tasks.lookup s.next = some ⟨u, f.hdr.sequence, .beacon, .user⟩ ∧
      ∃ l, s'.past = l ++ .beacon s.next u x.reference b f.hdr.sequence :: .got u m f.hdr.sequence ::
        .chunk u :: s.past ∧ ∀ a ∈ l, ∃ v, Changes v a) := by
  intro s s' hc hd hr hh hk hf hs hm hn
  have ids := (run_inv cfg env opts is).ids
  have hkey : c.key.isSome = true := by
    cases e : c.key with
    | none => exact absurd e hk
    | some _ => rfl
  obtain ⟨c1, s1, _, _, c3, c4, _, c6, c7, c8, c9⟩ := received_frame (env := env) (opts := opts)
    (key := true) (s := s) ⟨c, hc, hr, hd, fun _ => hkey, hh⟩ hf hs hm
  have e : s' = (dispatch cfg env opts u m f.hdr.sequence s1).2 := by
    rw [← onMessage_dispatch (c := c1) (c3 rfl) c4 hn]
    exact c7
  have done : ∀ (task : Task) (a : Nat → Act), (start cfg env task a s1).2 = s' →
      s'.tasks.lookup s.next = some task ∧
      ∃ l, s'.past = l ++ a s.next :: .got u m f.hdr.sequence :: .chunk u :: s.past ∧
        ∀ x ∈ l, ∃ v, Changes v x := by
    intro task a h
    rw [← h]
    unfold start
    dsimp only
    rw [enter_tasks, c8, c9]
    refine ⟨lookup_new ids, ?_⟩
    obtain ⟨l, h1, h2⟩ := enter_past cfg env (a s.next)
      { s1 with tasks := s.tasks ++ [(s.next, task)], next := s.next + 1 }
    exact ⟨l, by rw [h1]; exact congrArg (fun x => l ++ a s.next :: x) c6, h2⟩
  constructor
  · intro r ref hr1 hr2 hr3 ho
    unfold dispatch at e
    cases e1 : cfg.workflow.requests.findSome? (fun r =>
        r.request.bind (fun ref => (m.extract ref).map (fun b => (r, ref, b)))) with
    | none =>
      exfalso
      rw [List.findSome?_eq_none_iff] at e1
      have := e1 r hr1
      rw [hr2, Option.bind_some, (extract_iff _ _ _).2 hr3] at this
      cases this
    | some y =>
      rw [e1] at e
      obtain ⟨r', hr', e2⟩ := List.exists_of_findSome?_eq_some e1
      cases hq' : r'.request with
      | none => rw [hq'] at e2; cases e2
      | some ref' =>
        cases hx : m.extract ref' with
        | none => simp [hq', hx] at e2
        | some b' =>
          have hfo := (extract_iff _ _ _).1 hx
          have hre := ho r' hr' ref' b' hq' hfo
          subst hre
          rw [hr2] at hq'
          cases hq'
          have h1 := (extract_iff _ _ _).2 hr3
          rw [hr2, Option.bind_some, h1] at e2
          cases e2
          exact done _ (fun t => .respond t u ref b f.hdr.sequence) e.symm
  · intro x hx1 hx2 hq ho
    unfold dispatch at e
    have n1 : cfg.workflow.requests.findSome? (fun r =>
        r.request.bind (fun ref => (m.extract ref).map (fun b => (r, ref, b)))) = none := by
      rw [List.findSome?_eq_none_iff]
      intro r hr
      cases e : r.request with
      | none => rfl
      | some ref =>
        rw [Option.bind_some, extract_none (fun b => hq r hr ref b e)]
        rfl
    rw [n1] at e
    cases e1 : cfg.workflow.beacons.findSome? (fun x =>
        (m.extract x.reference).map (fun b => (x.reference, b))) with
    | none =>
      exfalso
      rw [List.findSome?_eq_none_iff] at e1
      have := e1 x hx1
      rw [(extract_iff _ _ _).2 hx2] at this
      cases this
    | some y =>
      rw [e1] at e
      obtain ⟨x', hx', e2⟩ := List.exists_of_findSome?_eq_some e1
      cases hx : m.extract x'.reference with
      | none => simp [hx] at e2
      | some b' =>
        have hre := ho x' hx' b' ((extract_iff _ _ _).1 hx)
        rw [hre, (extract_iff _ _ _).2 hx2] at e2
        cases e2
        exact done _ (fun t => .beacon t u x.reference b f.hdr.sequence) e.symm

set_option maxRecDepth 20000 in
/-- The beacon of the witness, from the message to the end. -/
example : (run yardCfg yardEnv yardOpts (yardOpen ++ [.received 1 (shopFrame 5 10).bytes,
    .settled 1 .done, .settled 1 (.sent true)]) .new).2.past =
    [.deferred 1, .send (.answer 1) 1 10 .beacon, .beacon 1 1 ['B'] (.obj []) 10,
      .got 1 ⟨[['B']], .obj []⟩ 10, .chunk 1] ++ yardPast := by
  rw [run_append yardOpen_run]
  rfl

/-- **C94**, beacons: when user code is done with a beacon, its sender gets the confirmation with the
sequence of the beacon. -/
theorem C94_beacon_confirmed (cfg : Cfg) (env : Env) (opts : Server.Options) {s : State} {t : Nat}
    {u : Uuid} {seq : UInt32} (hl : s.tasks.lookup t = some ⟨u, seq, .beacon, .user⟩)
    (hp : cfg.packs .beacon = true) :
    let s' := (step cfg env opts (.settled t .done) s).2
    s'.past = .send (.answer t) u seq .beacon :: s.past ∧
      s'.tasks.lookup t = some ⟨u, seq, .beacon, .sending []⟩ := by
  simp only [step, hl, resume, sendAnswer, hp, if_true]
  exact ⟨rfl, wait_lookup hl⟩

/-- **C94**, end: when the answer is out, the deferred code of a request or beacon runs, at once without
broadcasts, else when the broadcasts are out; then the handler is gone. If deferred code throws, this
counts as an error of the client. -/
theorem C94_deferred (cfg : Cfg) (env : Env) (opts : Server.Options) {s : State} {t : Nat}
    {task : Task} (hl : s.tasks.lookup t = some task) (hj : ∀ e, task.job ≠ .event e) :
    let Ends : State → Prop := fun s' => s'.tasks.lookup t = none ∧
      ∃ l, (∀ a ∈ l, ∃ v, Changes v a) ∧
        ((env.throws (s.push (.deferred t)) (.deferred t) = false ∧ s'.past = l ++ .deferred t :: s.past) ∨
          (env.throws (s.push (.deferred t)) (.deferred t) = true ∧
            Reacts opts.onError task.u (l ++ .deferred t :: s.past) s'.past))
    (task.phase = .sending [] → Ends (step cfg env opts (.settled t (.sent true)) s).2) ∧
    (∀ casts, casts ≠ [] → task.phase = .sending casts →
      (∀ x ∈ casts, cfg.packs (.msg x.1 x.2.2) = true) →
      (step cfg env opts (.settled t (.sent true)) s).2.past = (deliveries t casts).reverse ++ s.past ∧
      (step cfg env opts (.settled t (.sent true)) s).2.tasks.lookup t =
        some { task with phase := .casting }) ∧
    (task.phase = .casting → Ends (step cfg env opts (.settled t .cast) s).2) := by
  intro Ends
  obtain ⟨u, seq, job, phase⟩ := task
  have hfin : Ends (finish cfg env opts t ⟨u, seq, job, phase⟩ s).2 := by
    refine ⟨(finish_mute (cfg := cfg) (env := env) (opts := opts) (t := t) (task := ⟨u, seq, job, phase⟩)
      s).2, ?_⟩
    obtain ⟨l, h1, h2⟩ := enter_past cfg env (.deferred t) s
    refine ⟨l, h2, ?_⟩
    unfold finish
    cases job with
    | event e => exact absurd rfl (hj e)
    | request r =>
      dsimp only
      cases ht : env.throws (s.push (.deferred t)) (.deferred t) with
      | false => exact .inl ⟨rfl, h1⟩
      | true =>
        refine .inr ⟨rfl, ?_⟩
        rw [← h1]
        exact reacts_receivingErr _
    | beacon =>
      dsimp only
      cases ht : env.throws (s.push (.deferred t)) (.deferred t) with
      | false => exact .inl ⟨rfl, h1⟩
      | true =>
        refine .inr ⟨rfl, ?_⟩
        rw [← h1]
        exact reacts_receivingErr _
  refine ⟨?_, ?_, ?_⟩
  · intro hph
    cases hph
    have e : step cfg env opts (.settled t (.sent true)) s =
        finish cfg env opts t ⟨u, seq, job, .sending []⟩ s := by
      simp only [step, hl, resume]
      rfl
    rw [e]
    exact hfin
  · intro casts hne hph hp
    cases hph
    have e : step cfg env opts (.settled t (.sent true)) s =
        broadcastAll cfg env opts t ⟨u, seq, job, .sending casts⟩ casts s := by
      simp only [step, hl, resume]
    rw [e]
    unfold broadcastAll
    rw [if_neg (by simp [hne]), castAll_ok casts s hp]
    exact ⟨rfl, wait_lookup hl⟩
  · intro hph
    cases hph
    have e : step cfg env opts (.settled t .cast) s =
        finish cfg env opts t ⟨u, seq, job, .casting⟩ s := by
      simp only [step, hl, resume]
    rw [e]
    exact hfin

/-! ### C95: events -/

theorem since_opened {u : Uuid} {a : Act} {h : List Act} : ∀ {l : List Act},
    a ∈ since u (l ++ .opened u :: h) → a ∈ l
  | [], ha => by simp [since] at ha
  | x :: l, ha => by
    have ih := since_opened (u := u) (a := a) (h := h) (l := l)
    rw [List.cons_append] at ha
    cases x with
    | opened v =>
      unfold since at ha
      split at ha
      · cases ha
      · rcases List.mem_cons.1 ha with rfl | ha
        · exact List.mem_cons_self
        · exact List.mem_cons_of_mem _ (ih ha)
    | _ =>
      rcases List.mem_cons.1 ha with rfl | ha
      · exact List.mem_cons_self
      · exact List.mem_cons_of_mem _ (ih ha)

/-- The handler of an event is called. -/
theorem emitEvent_calls {cfg : Cfg} {env : Env} {e : Flow.Event} {s : State}
    (ids : ∀ p ∈ s.tasks, p.1 < s.next) :
    ∃ l, (emitEvent cfg env e s).2.past = l ++ .event s.next (e.reference.getD []) :: s.past ∧
      (∀ x ∈ l, ∃ v, Changes v x) ∧
      ((∀ s a, env.throws s a = false) →
        (emitEvent cfg env e s).2.tasks.lookup s.next = some ⟨0, 0, .event e, .user⟩) ∧
      ∀ v, ((emitEvent cfg env e s).2.find v = none ↔ s.find v = none) ∧
        ∀ c, s.find v = some c → ∃ d, (emitEvent cfg env e s).2.find v = some d ∧
          d.reader = c.reader ∧ d.hash = c.hash := by
  have hf : ∀ s0 : State, s0.consumers = s.consumers → ∀ a v,
      ((enter cfg env a s0).find v = none ↔ s.find v = none) ∧
        ∀ c, s.find v = some c → ∃ d, (enter cfg env a s0).find v = some d ∧
          d.reader = c.reader ∧ d.hash = c.hash := by
    intro s0 h0 a v
    obtain ⟨l, hl⟩ := frame_changes (P := fun _ => False) (U := fun _ => False) (G := fun _ => False)
      (cfg := cfg) (env.during (s0.push a) a) (s0.push a)
    have := hl.same v (fun k => k)
    have h1 : (s0.push a).find v = s.find v := by
      show s0.consumers.lookup v = s.consumers.lookup v
      rw [h0]
    rw [h1] at this
    unfold enter
    refine ⟨?_, fun c hc => ?_⟩
    rotate_left
    · obtain ⟨d, h2, h3⟩ := hl.still v (fun k => k) c (h1.trans hc)
      exact ⟨d, h2, h3.reader, h3.hash⟩
    cases e1 : (List.foldl (change cfg) (s0.push a) (env.during (s0.push a) a)).find v <;>
      cases e2 : s.find v <;> rw [e1, e2] at this <;> simp at this ⊢
  unfold emitEvent
  dsimp only
  split
  · rename_i h
    obtain ⟨l, h1, h2⟩ := enter_past cfg env (.event s.next (e.reference.getD [])) { s with next := s.next + 1 }
    refine ⟨l, h1, h2, fun h3 => ?_, hf { s with next := s.next + 1 } rfl _⟩
    rw [h3] at h
    cases h
  · obtain ⟨l, h1, h2⟩ := enter_past cfg env (.event s.next (e.reference.getD []))
      { s with tasks := s.tasks ++ [(s.next, ⟨0, 0, .event e, .user⟩)], next := s.next + 1 }
    refine ⟨l, h1, h2, fun _ => ?_, hf { s with
      tasks := s.tasks ++ [(s.next, ⟨0, 0, .event e, .user⟩)], next := s.next + 1 } rfl _⟩
    rw [enter_tasks]
    exact lookup_new ids

/-- **C95** After any run: when a client connects that is not connected, it has a fresh record and the
handler of `connected` is called once, after this; when a connected client disconnects, its record is
gone and the handler of `disconnected` is called once, after this; a declared event calls its handler
once. Nothing else but changes by user code happens. If the handler does not throw at once, it is
then waiting for user code, with the declared broadcasts. -/
theorem C95_events (cfg : Cfg) (env : Env) (opts : Server.Options) (is : List Input) :
    let s := (run cfg env opts is .new).2
    let Handles : Option Act → Ref → State → Prop := fun a ref s' =>
      ∃ l, s'.past = l ++ .event s.next ref :: (a.toList ++ s.past) ∧ (∀ x ∈ l, ∃ v, Changes v x) ∧
        ((∀ s a, env.throws s a = false) → ∃ e, s'.tasks.lookup s.next = some ⟨0, 0, .event e, .user⟩ ∧
          ((e.reference = some ref ∧ e ∈ cfg.workflow.events) ∨
            (e.broadcasts = [] ∧ ∀ e ∈ cfg.workflow.events, e.reference ≠ some ref)))
    (∀ u, ¬ Online u s.past →
      Handles (some (.opened u)) "connected".toList (step cfg env opts (.connected u) s).2 ∧
      Online u (step cfg env opts (.connected u) s).2.past ∧
      ∃ d, (step cfg env opts (.connected u) s).2.find u = some d ∧ d.reader = ⟨[], []⟩ ∧
        d.hash = false) ∧
    (∀ u, Online u s.past →
      Handles (some (.closed u)) "disconnected".toList (step cfg env opts (.disconnected u) s).2 ∧
      (step cfg env opts (.disconnected u) s).2.find u = none) ∧
    (∀ ref, Flow.isDefaultEvent ref = false → (∃ e ∈ cfg.workflow.events, e.reference = some ref) →
      Handles none ref (step cfg env opts (.event ref) s).2) := by
  intro s Handles
  have inv : Inv cfg none none s := run_inv cfg env opts is
  have hdef : ∀ name, (defaultEvent cfg name).reference = some name ∧
      ((defaultEvent cfg name ∈ cfg.workflow.events) ∨
        (defaultEvent cfg name).broadcasts = [] ∧ ∀ e ∈ cfg.workflow.events, e.reference ≠ some name) := by
    intro name
    unfold defaultEvent
    cases h : cfg.workflow.events.find? (fun e => e.reference = some name) with
    | some e =>
      have h1 := List.find?_some h
      exact ⟨by simpa using h1, .inl (List.mem_of_find?_eq_some h)⟩
    | none =>
      refine ⟨rfl, .inr ⟨rfl, fun e he => ?_⟩⟩
      rw [List.find?_eq_none] at h
      simpa using h e he
  have handles : ∀ (e : Flow.Event) (ref : Ref) (a : Option Act) (s1 : State), s1.tasks = s.tasks →
      s1.next = s.next → s1.past = a.toList ++ s.past → e.reference = some ref →
      (e ∈ cfg.workflow.events ∨ e.broadcasts = [] ∧ ∀ e ∈ cfg.workflow.events, e.reference ≠ some ref) →
      Handles a ref (emitEvent cfg env e s1).2 ∧
        ∀ v, ((emitEvent cfg env e s1).2.find v = none ↔ s1.find v = none) ∧
          ∀ c, s1.find v = some c → ∃ d, (emitEvent cfg env e s1).2.find v = some d ∧
            d.reader = c.reader ∧ d.hash = c.hash := by
    intro e ref a s1 h1 h2 h3 h4 h5
    obtain ⟨l, g1, g2, g3, g4⟩ := emitEvent_calls (cfg := cfg) (env := env) (e := e) (s := s1)
      (by rw [h1, h2]; exact inv.ids)
    rw [h2, h3, h4] at g1
    rw [h2] at g3
    refine ⟨⟨l, g1, g2, fun ht => ⟨e, g3 ht, ?_⟩⟩, g4⟩
    rcases h5 with h5 | h5
    · exact .inl ⟨h4, h5⟩
    · exact .inr h5
  refine ⟨?_, ?_, ?_⟩
  · intro u hu
    have hn : s.find u = none := by
      cases h : s.find u with
      | none => rfl
      | some c => exact absurd (inv.known u c h).online hu
    have e : step cfg env opts (.connected u) s = emitEvent cfg env (defaultEvent cfg "connected".toList)
        (({ s with consumers := s.consumers ++ [(u, Consumer.new)] } : State).push (.opened u)) := by
      simp only [step, hn]
    rw [e]
    have h1 := handles (defaultEvent cfg "connected".toList) "connected".toList (some (.opened u))
      (({ s with consumers := s.consumers ++ [(u, Consumer.new)] } : State).push (.opened u))
      rfl rfl rfl (hdef _).1 (hdef _).2
    have hnew : ((({ s with consumers := s.consumers ++ [(u, Consumer.new)] } : State).push
        (.opened u)).find u) = some Consumer.new := by
      show (s.consumers ++ [(u, Consumer.new)]).lookup u = some Consumer.new
      rw [List.lookup_append, show s.consumers.lookup u = none from hn]
      simp
    refine ⟨h1.1, ?_, (h1.2 u).2 _ hnew⟩
    obtain ⟨l, g1, g2, _⟩ := h1.1
    rw [g1]
    refine ⟨by simp, fun h => ?_⟩
    have := since_opened (l := l ++ [.event s.next "connected".toList]) (h := s.past)
      (by simpa using h)
    rcases List.mem_append.1 this with h | h
    · obtain ⟨v, h | h | h⟩ := g2 _ h <;> cases h
    · simp at h
  · intro u hu
    have hn : ∃ c, s.find u = some c := by
      cases h : s.find u with
      | none => exact absurd hu (inv.gone u h)
      | some c => exact ⟨c, rfl⟩
    obtain ⟨c, hc⟩ := hn
    have e : step cfg env opts (.disconnected u) s =
        emitEvent cfg env (defaultEvent cfg "disconnected".toList)
        (({ s with consumers := s.consumers.filter (fun p => p.1 ≠ u) } : State).push (.closed u)) := by
      simp only [step, hc]
    rw [e]
    have h1 := handles (defaultEvent cfg "disconnected".toList) "disconnected".toList (some (.closed u))
      (({ s with consumers := s.consumers.filter (fun p => p.1 ≠ u) } : State).push (.closed u))
      rfl rfl rfl (hdef _).1 (hdef _).2
    refine ⟨h1.1, (h1.2 u).1.2 ?_⟩
    show (s.consumers.filter (fun p => p.1 ≠ u)).lookup u = none
    refine (lookup_none_iff _ _).2 ?_
    simp
  · intro ref hd ⟨e, he, hr⟩
    have hx : (step cfg env opts (.event ref) s) = ((match cfg.workflow.events.find? (fun e : Flow.Event =>
        e.reference = some ref && !Flow.isDefaultEvent ref) with
      | some e => emitEvent cfg env e
      | none => Proc.skip) s) := rfl
    rw [hx]
    cases h : cfg.workflow.events.find? (fun e => e.reference = some ref && !Flow.isDefaultEvent ref) with
    | none =>
      rw [List.find?_eq_none] at h
      exact absurd (by simp [hr, hd]) (h e he)
    | some e' =>
      have h1 := List.find?_some h
      have h2 : e'.reference = some ref := by simpa [hd] using h1
      exact (handles e' ref none s rfl rfl rfl h2 (.inl (List.mem_of_find?_eq_some h))).1

/-- Connected and disconnected clients, and a declared event. -/
def bellCfg : Cfg :=
  { yardCfg with workflow := ⟨[⟨some ['T'], [⟨['U'], false⟩], [], .nothing, true⟩], [], [], none⟩ }

set_option maxRecDepth 20000 in
example : (run bellCfg yardEnv yardOpts [.connected 1, .event ['T'], .settled 1 (.output
      [⟨[1], ['U'], .other⟩]), .disconnected 1] .new).2.past =
    [.event 2 "disconnected".toList, .closed 1, .send (.cast 1) 1 0 (.msg ['U'] .other), .event 1 ['T'],
      .event 0 "connected".toList, .opened 1] := by
  rfl

end Verif.Props
