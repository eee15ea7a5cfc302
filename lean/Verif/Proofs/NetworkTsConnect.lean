import Verif.Proofs.NetworkTsLive
set_option autoImplicit false
/-!
New connections and calls of TypeScript clients of a Rust server, from one quiet moment to the next.
-/
namespace Verif.Network

open Verif Verif.Spec

variable {P : Type} {cfg : Server.Cfg P} {env : Server.Env P} {opts : Server.Options}
  {down : UInt64 → UInt32 → Server.Out P → Bytes} {ccfg : TsClient.Cfg} {cenv : TsClient.Env}
  {up : UInt64 → UInt32 → TsClient.Out → Bytes}

/-! ### Steps of the client -/

theorem client_connected (sm : Gentle ccfg cenv) :
    TsClient.step ccfg cenv .new .connected = some ⟨⟨[], []⟩, [(1, .assign 0 true)], none, 2, [], [], 1,
      [.emitted .connected, .sent (.assign 0 true) 1 .selfKey, .assigning 0 true, .opened]⟩ := by
  simp only [TsClient.step, TsClient.assign, TsClient.getSequence]
  rw [request_quiet sm _ _ (by decide) rfl, enter_quiet sm]
  rfl

theorem client_key {t : Terms P} {u : Uuid} {m : TsServer.Msg} (h : SameDown t (.selfKey u) m) (hv : (t.name u).all TsClient.jsSpace = false)
    (h0 : List TsClient.Act) :
    TsClient.step ccfg cenv ⟨⟨[], []⟩, [], none, 2, [], [.answered (.assign 0 true) m], 1, h0⟩ (.work 0) =
      some ⟨⟨[], []⟩, [], some (t.name u), 2, [], [.assigned 0 (.str (t.name u))], 1,
        .assignEnded 0 (some (.str (t.name u))) :: h0⟩ := by
  obtain ⟨h1, ps, h2, h3⟩ := h
  have h4 : TsClient.extract m TsClient.selfKeyResponse = some m.body := (TsClient.extract_iff _ _ _).2
    (TsClient.isA_holds (show TsServer.Spells m.path _ by rw [h1]; exact ⟨by decide, _, ⟨by decide, rfl⟩, selfKey_name⟩))
  have h5 : m.body.prop "uuid".toList = some (.str (t.name u)) := by rw [h2]; exact h3
  simp only [TsClient.step, TsClient.work, TsClient.onAssigned, List.getElem?_cons_zero, List.eraseIdx_cons_zero, h4, h5, TsClient.setUuid,
    hv]
  rfl

theorem client_hash (sm : Gentle ccfg cenv) (name : List Char) (v : TsServer.Js) (h0 : List TsClient.Act) :
    TsClient.step ccfg cenv ⟨⟨[], []⟩, [], some name, 2, [], [.assigned 0 v], 1, h0⟩ (.work 0) =
      some ⟨⟨[], []⟩, [(2, .hash 0 v)], some name, 3, [], [], 1, .sent (.hash 0 v) 2 .hash :: h0⟩ := by
  simp only [TsClient.step, TsClient.work, TsClient.hash, TsClient.getSequence, List.getElem?_cons_zero, List.eraseIdx_cons_zero]
  rw [request_quiet sm _ _ (by decide) rfl]

theorem client_ready (sm : Gentle ccfg cenv) {t : Terms P} {m : TsServer.Msg} (h : SameDown t (.hash false) m)
    (name : List Char) (v : TsServer.Js) (h0 : List TsClient.Act) :
    TsClient.step ccfg cenv ⟨⟨[], []⟩, [], some name, 3, [], [.answered (.hash 0 v) m], 1, h0⟩ (.work 0) =
      some ⟨⟨[], []⟩, [], some name, 3, [], [], 1, .emitted (.ready v) :: .shakeEnded 0 true :: h0⟩ := by
  obtain ⟨h1, ps, h2, _, h3⟩ := h
  have h4 : TsClient.extract m TsClient.hashResponse = some m.body := (TsClient.extract_iff _ _ _).2
    (TsClient.isA_holds (show TsServer.Spells m.path _ by rw [h1]; exact ⟨by decide, _, ⟨by decide, rfl⟩, hash_name⟩))
  have h5 : m.body.prop "error".toList = none := by rw [h2]; exact h3.1 rfl
  simp only [TsClient.step, TsClient.work, TsClient.onHash, List.getElem?_cons_zero, List.eraseIdx_cons_zero, h4, h5]
  rw [enter_quiet sm]
  rfl

/-! ### A new connection -/

theorem pairs_snoc {α β : Type} {R : α → β → Prop} {a : α} : ∀ {as : List α} {bs : List β}, System.Pairs R (as ++ [a]) bs →
    ∃ cs b, bs = cs ++ [b] ∧ System.Pairs R as cs ∧ R a b
  | [], _, .cons h .nil => ⟨[], _, rfl, .nil, h⟩
  | _ :: _, _, .cons h k => by
    obtain ⟨cs, b, rfl, k1, k2⟩ := pairs_snoc k
    exact ⟨_ :: cs, b, rfl, .cons h k1, k2⟩

theorem connects (sm : Smooth cfg env ccfg cenv) (he : ∀ s e p, env.emit s e p ≠ .panic) {t : Terms P}
    {n : Net (rustServer cfg env opts down) (tsClient ccfg cenv up)} {u : Uuid} (hrun : n.server.1 = .running) (hf : Fresh n u)
    (hn : n.server.2.find u = none) (hcf : u ∉ n.server.2.confirms)
    (hk : HeardRight t cfg up .selfKey) (hh : HeardRight t cfg up .hash) (hhash : t.hashes = (cfg.protocolHash, cfg.workflowHash))
    (rc : ReadRight t ccfg down .confirmation) (rk : ReadRight t ccfg down (.selfKey u)) (rh : ReadRight t ccfg down (.hash false))
    (hv : (t.name u).all TsClient.jsSpace = false)
    (hb : ∀ s e cs l, env.emit s e none = .ok cs → Server.Gives e.broadcasts cs l → ∀ x ∈ l, x.1 = u → ReadRight t ccfg down x.2) :
    ∃ es cl sv, (∀ e ∈ es, Regular u e.2) ∧ At (run es n) u cl [] [] sv ∧ Idle cl ∧ Server.Stage u true true true false sv ∧
      .emitted (.ready (.str (t.name u))) ∈ cl.past ∧ cl.uuid = some (t.name u) ∧ cl.sequence = 3 := by
  have waits : ∀ {es : List (UInt64 × Event (rustServer cfg env opts down) (tsClient ccfg cenv up))},
      (∀ e ∈ es, Waits u e.2) → ∀ e ∈ es, Regular u e.2 := by
    intro es h e he
    cases e with
    | mk ts e => cases h _ he <;> constructor
  -- the connection is taken
  obtain ⟨s1, l1, e1, k1, k2, k3, k4, k5⟩ := System.connected_sent (cfg := cfg) (opts := opts) sm.send sm.answer hn he
  have A0 : At ({ n with conns := n.conns ++ [(u, ⟨(false, .new), [], [], [], []⟩)] } : Net (rustServer cfg env opts down) (tsClient ccfg cenv up))
      u .new [] [] n.server.2 :=
    ⟨Prod.ext hrun rfl, [], [], by rw [find_snoc hf.conns, if_pos rfl]⟩
  have A1 := A0.serve 0 (e := .opened u) (i := .connected u) rfl (by simp) (by simp) k1 (.opened u :: l1 ++ [.event e1]) (by rw [k4]; simp)
  have hL : ∃ bl : List (Uuid × Server.Out P), (∀ x ∈ bl, ∃ ref p, x.2 = .msg ref p) ∧ (∀ x ∈ bl, x.1 = u → ReadRight t ccfg down x.2) ∧
      System.sends u (.opened u :: l1 ++ [.event e1]) = (bl.filter (fun x => x.1 = u)).map (fun x => (0, x.2)) := by
    rcases k5 with rfl | ⟨e, t, cs, l', h1, h2, rfl, h4⟩
    · exact ⟨[], by simp, by simp, rfl⟩
    · refine ⟨l', h4, hb _ _ _ _ h1 h2, ?_⟩
      rw [List.cons_append, List.cons_append]
      show System.sends u (System.allSent l' ++ _) = _
      rw [System.sends_append, System.sends_allSent]
      rfl
  obtain ⟨bl, b1, b2, b3⟩ := hL
  rw [b3, List.nil_append] at A1
  have h0 : run [(0, .opened u)] n = Net.serve 0 (.opened u) { n with conns := n.conns ++ [(u, ⟨(false, .new), [], [], [], []⟩)] } := by
    have hu : sendsTo u (rustSent n.server.2.past) = [] := by
      rw [sendsTo_rustSent, List.eq_nil_iff_forall_not_mem]
      rintro ⟨q, o⟩ hq
      exact hf.unsent q o (System.mem_sends.1 hq)
    simp [run, step, hf.conns, hu]
  rw [← h0] at A1
  -- the client asks at once
  have A2 := A1.own 0 rfl (client_connected sm.toGentle) _ (List.append_nil _).symm
  rw [show ([] : Bytes) ++ packAll up 0 (tsSent [.emitted .connected, .sent (.assign 0 true) 1 .selfKey, .assigning 0 true, .opened]) =
    up 0 1 .selfKey by simp [tsSent, packAll]] at A2
  -- the confirmation
  obtain ⟨es3, sv3, P3, A3, st3⟩ := confirms_all sm n.server.2.confirms A2 k3 hcf k2
  obtain ⟨fs, g1, g2, g3⟩ := travels (t := t) (ccfg := ccfg) (down := down)
    (L := (bl.filter (fun x => x.1 = u)).map (fun x => ((0 : UInt32), x.2)) ++ [(0, .confirmation)]) (by
      intro x hx
      rcases List.mem_append.1 hx with hx | hx
      · obtain ⟨y, hy, rfl⟩ := List.mem_map.1 hx
        obtain ⟨hy, hu⟩ := List.mem_filter.1 hy
        exact b2 y hy (by simpa using hu)
      · rw [List.mem_singleton.1 hx]; exact rc)
  rw [packAll, List.flatMap_append, List.flatMap_cons, List.flatMap_nil, List.append_nil] at g2
  rw [packAll, g2] at A3
  obtain ⟨ys, i, hxs, g4, g5, g6⟩ := pairs_snoc g3
  obtain ⟨more, j1, j2, j3⟩ := offered sm.toGentle (t := t) u [] [i] bl ys ⟨⟨[], []⟩, [(1, .assign 0 true)], none, 2, [], [], 1,
    [.chunk (stream fs), .emitted .connected, .sent (.assign 0 true) 1 .selfKey, .assigning 0 true, .opened]⟩ b1 g4 rfl
  obtain ⟨a, m1, m2, _⟩ := onMessage_offered sm.toGentle i ⟨⟨[], []⟩, [(1, .assign 0 true)], none, 2, [], [], 1,
    more ++ [.chunk (stream fs), .emitted .connected, .sent (.assign 0 true) 1 .selfKey, .assigning 0 true, .opened]⟩ g5 rfl
  have A4 := A3.toClient 0 g1 rfl (cl' := ⟨⟨[], []⟩, [(1, .assign 0 true)], none, 2, [], [], 1,
      (a :: .got 0 i.msg :: (more ++ [.chunk (stream fs)])) ++
        [.emitted .connected, .sent (.assign 0 true) 1 .selfKey, .assigning 0 true, .opened]⟩) (by
      rw [hxs, j3, TsClient.onMessages, m1]
      simp [TsClient.onMessages]) _ rfl
  have hsn : tsSent (a :: .got 0 i.msg :: (more ++ [.chunk (stream fs)])) = [] := by
    rw [show a :: .got 0 i.msg :: (more ++ [.chunk (stream fs)]) = [a] ++ ([.got 0 i.msg] ++ (more ++ [.chunk (stream fs)])) from rfl,
      tsSent_append, tsSent_append, tsSent_append, m2, j1]
    rfl
  rw [hsn] at A4
  generalize (a :: .got 0 i.msg :: (more ++ [.chunk (stream fs)])) ++
        [.emitted .connected, .sent (.assign 0 true) 1 .selfKey, .assigning 0 true, .opened] = p4 at A4
  simp only [packAll, List.flatMap_nil, List.append_nil] at A4
  -- the self key
  obtain ⟨es5, sv5, P5, A5, st5⟩ := A4.asked (r := .selfKey u) hk (fun f m hm k1 k2 k3 k4 => by
    obtain ⟨k, rfl⟩ := hm
    have := Server.serve_selfKey (env := env) (opts := opts) st3 k1 k2 k3 (sm.answer _) (fun s => sm.send s _ _ _)
    rw [k4] at this
    exact this)
  obtain ⟨es6, m6, more6, P6, s6, _, A6⟩ := A5.one sm rk rfl rfl
  have A7 := A6.own 0 rfl (client_key s6 hv _) [.assignEnded 0 (some (.str (t.name u)))] rfl
  have A8 := A7.own 0 rfl (client_hash sm.toGentle _ _ _) [.sent (.hash 0 (.str (t.name u))) 2 .hash] rfl
  rw [show ([] : Bytes) ++ packAll up 0 (tsSent [.assignEnded 0 (some (.str (t.name u)))]) ++
      packAll up 0 (tsSent [.sent (.hash 0 (.str (t.name u))) 2 .hash]) = up 0 2 .hash by simp [tsSent, packAll]] at A8
  -- the hash
  obtain ⟨es9, sv9, P9, A9, st9⟩ := A8.asked (r := .hash false) hh (fun f m hm k1 k2 k3 k4 => by
    cases (show m = _ from hm)
    rw [hhash] at k3 ⊢
    have := Server.serve_hash (env := env) (opts := opts) st5 k1 k2 k3 (sm.answer _) (fun s => sm.send s _ _ _)
    rw [k4] at this
    exact this)
  obtain ⟨es10, m10, more10, P10, s10, _, A10⟩ := A9.one sm rh rfl rfl
  have A11 := A10.own 0 rfl (client_ready sm.toGentle s10 _ _ _) [.emitted (.ready (.str (t.name u))), .shakeEnded 0 true] rfl
  rw [show ([] : Bytes) ++ packAll up 0 (tsSent [.emitted (.ready (.str (t.name u))), .shakeEnded 0 true]) = [] by simp [tsSent, packAll]] at A11
  simp only [← run_append] at A11
  refine ⟨_, _, _, ?_, A11, ⟨rfl, rfl, rfl⟩, st9, by simp, rfl, rfl⟩
  intro e he
  simp only [List.mem_append, List.mem_singleton] at he
  rcases he with (((((((((he | he) | he) | he) | he) | he) | he) | he) | he) | he) | he
  all_goals first
    | (subst he; constructor)
    | exact waits P3 e he
    | exact waits P5 e he
    | exact waits P6 e he
    | exact waits P9 e he
    | exact waits P10 e he

/-- Who waits for its confirmation was connected. -/
theorem confirms_serverRun {v : Uuid} (es : List (ServerEvent (Server.Input P)))
    (h : v ∈ (serverRun (rustServer cfg env opts down) es).2.confirms) : ∃ e ∈ es, Touches v e := by
  revert h
  suffices k : ∀ r : List (ServerEvent (Server.Input P)), v ∈ (serverRun (rustServer cfg env opts down) r.reverse).2.confirms →
      ∃ e ∈ r.reverse, Touches v e by
    have := k es.reverse
    rwa [List.reverse_reverse] at this
  intro r
  induction r with
  | nil => intro h; cases h
  | cons e r ih =>
    rw [List.reverse_cons]
    generalize r.reverse = es at ih
    rw [serverRun_snoc]
    intro h
    have old : v ∈ (serverRun (rustServer cfg env opts down) es).2.confirms → ∃ e' ∈ es ++ [e], Touches v e' := fun k => by
      obtain ⟨e', h1, h2⟩ := ih k
      exact ⟨e', List.mem_append_left _ h1, h2⟩
    rcases rustServer_step (cfg := cfg) (env := env) (opts := opts) (pack := down) e (serverRun (rustServer cfg env opts down) es) with
      ⟨k, _⟩ | ⟨i, k1, k2⟩
    · rw [k] at h; exact old h
    · rw [k2] at h
      rcases System.confirms_serverStep h with k | rfl
      · exact old k
      · refine ⟨e, by simp, ?_⟩
        cases e with
        | opened u => injection k1 with k1; injection k1 with k1; subst k1; exact .inl rfl
        | closed u => cases k1
        | data u b => cases k1
        | own i =>
          simp only [rustInput] at k1
          split at k1
          · rename_i ho
            injection k1 with k1
            rw [k1] at ho
            cases ho
          · cases k1

theorem fresh_server {n : Net (rustServer cfg env opts down) (tsClient ccfg cenv up)} {es : List (ServerEvent (Server.Input P))} {u : Uuid}
    (hi : InvWith n es) (hc : n.find u = none) : n.server.2.find u = none ∧ u ∉ n.server.2.confirms := by
  have h := hi.none u hc
  rw [hi.server]
  refine ⟨((rustKnown_run es).none u h).1, fun k => ?_⟩
  obtain ⟨e, h1, h2⟩ := confirms_serverRun es k
  exact h e h1 h2

/-! ### Quiet moments -/

section
variable {n : Net (rustServer cfg env opts down) (tsClient ccfg cenv up)} {u : Uuid}

theorem Established.pieces (h : Established n u) :
    ∃ cl a, At n u cl [] [] n.server.2 ∧ Idle cl ∧ Server.Stage u true true true a n.server.2 ∧
      (Admitted n u → Server.Strict opts.identification → a = true) := by
  obtain ⟨⟨⟨b, cl⟩, ub, db, gu, gd⟩, h1, h2, h3, h4, h5⟩ := h.conn
  obtain ⟨c, k1, k2, k3, k4, k5, k6⟩ := h.server
  cases (show b = false from h2)
  cases (show ub = [] from h4)
  cases (show db = [] from h5)
  have A : At n u cl [] [] n.server.2 := ⟨Prod.ext h.running rfl, _, _, h1⟩
  by_cases hs : Admitted n u ∧ Server.Strict opts.identification
  · refine ⟨cl, true, A, h3, ⟨c, k1, fun _ => k3, k4, k2, fun _ => k6, k5, fun _ => ?_⟩, fun _ _ => rfl⟩
    obtain ⟨c', e, hc⟩ := hs.1 hs.2
    rw [k1] at e
    cases e
    exact hc
  · exact ⟨cl, false, A, h3, ⟨c, k1, fun _ => k3, k4, k2, fun _ => k6, k5, (nomatch ·)⟩, fun a b => absurd ⟨a, b⟩ hs⟩

theorem At.established {cl : TsClient.State} {sv : Server.State P} {a : Bool} (h : At n u cl [] [] sv) (hi : Idle cl)
    (st : Server.Stage u true true true a sv) :
    Established n u ∧ ((Server.Strict opts.identification → a = true) → Admitted n u) := by
  obtain ⟨c, k1, k2, k3, k4, k5, k6, k7⟩ := st.here
  obtain ⟨gu, gd, hc⟩ := h.conn
  have hs : n.server.2 = sv := by rw [h.server]
  subst hs
  exact ⟨⟨by rw [h.server], ⟨_, hc, rfl, hi, rfl, rfl⟩, c, k1, k4, k2 rfl, k3, k6, k5 rfl⟩, fun ha hs => ⟨c, k1, k7 (ha hs)⟩⟩

end

/-! ### Calls -/

/-- The state after `create` and `send`. -/
def sentState (s : TsClient.State) (k : TsClient.Kind) (b : TsServer.Js) : TsClient.State :=
  { s with
    pending := [(s.sequence, .call (s.next + 1) s.next)], sequence := s.sequence + 1
    objs := s.objs.map (fun p => if p.1 = s.next then (s.next, ⟨k, b, .pending, []⟩) else p) ++ [(s.next, ⟨k, b, .pending, []⟩)]
    next := s.next + 2
    past := .sent (.call (s.next + 1) s.next) s.sequence (.msg k.ref b) :: .called (s.next + 1) s.next :: .created s.next k b :: s.past }

theorem client_create (s : TsClient.State) (k : TsClient.Kind) (b : TsServer.Js) :
    TsClient.step ccfg cenv s (.user (.create k b)) = some { s with
      objs := s.objs ++ [(s.next, ⟨k, b, .ready, []⟩)], next := s.next + 1, past := .created s.next k b :: s.past } := rfl

theorem client_send (sm : Gentle ccfg cenv) (s : TsClient.State) (k : TsClient.Kind) (b : TsServer.Js) (hp : s.pending = [])
    (ho : s.objs.lookup s.next = none) (hq : s.sequence < 4294967296) :
    TsClient.step ccfg cenv { s with
      objs := s.objs ++ [(s.next, ⟨k, b, .ready, []⟩)], next := s.next + 1, past := .created s.next k b :: s.past }
      (.user (.send s.next)) = some (sentState s k b) := by
  have hl : (s.objs ++ [(s.next, (⟨k, b, .ready, []⟩ : TsClient.Obj))]).lookup s.next = some ⟨k, b, .ready, []⟩ := by
    rw [List.lookup_append, ho]; simp
  simp only [TsClient.step, TsClient.userOp, TsClient.send, hl, TsClient.getSequence]
  rw [request_quiet sm _ _ (by exact hq) (by exact hp)]
  simp [sentState, TsClient.State.setObj, TsClient.State.push]

theorem sentState_lookup (s : TsClient.State) (k : TsClient.Kind) (b : TsServer.Js) (ho : s.objs.lookup s.next = none) :
    (sentState s k b).objs.lookup s.next = some ⟨k, b, .pending, []⟩ := by
  simp only [sentState]
  rw [List.lookup_append, TsClient.lookup_set, if_pos rfl, ho]
  simp

/-- The job of an answer. -/
theorem client_answer {s : TsClient.State} {n o : Nat} {k : TsClient.Kind} {b : TsServer.Js} {m : TsServer.Msg} {r : TsClient.Result}
    (ht : s.tasks = [.answered (.call n o) m]) (ho : s.objs.lookup o = some ⟨k, b, .pending, []⟩)
    (hr : ∀ s', s'.objs.lookup o = some ⟨k, b, .ready, []⟩ →
      (match k with | .request r => TsClient.conclude ccfg cenv n o r m s' | .beacon _ => TsClient.confirm ccfg cenv n o m s') =
        s'.push (.ended n r)) :
    TsClient.step ccfg cenv s (.work 0) = some { s with
      tasks := [], objs := s.objs.map (fun p => if p.1 = o then (o, ⟨k, b, .ready, []⟩) else p), past := .ended n r :: s.past } := by
  simp only [TsClient.step, ht, List.getElem?_cons_zero, List.eraseIdx_cons_zero, TsClient.work, TsClient.onAnswer, ho]
  have := hr (({ s with tasks := [] } : TsClient.State).setObj o ⟨k, b, .ready, []⟩) (by
    show (s.objs.map _).lookup o = _
    rw [TsClient.lookup_set, if_pos rfl, ho]; rfl)
  cases k <;> exact congrArg some this

theorem settle_quiet {s : TsClient.State} {o : Nat} {k : TsClient.Kind} {b : TsServer.Js} {st : TsClient.ReqState}
    (ho : s.objs.lookup o = some ⟨k, b, st, []⟩) (n : Nat) (name : TsClient.Name) (v : Option TsServer.Js) (r : TsClient.Result) :
    TsClient.settle ccfg cenv n o name v r s = s.push (.ended n r) := by
  unfold TsClient.settle
  rw [ho]
  simp [TsClient.State.endCall]

theorem settle_conclude {s : TsClient.State} {n o : Nat} {k : TsClient.Kind} {b : TsServer.Js} {st : TsClient.ReqState}
    (ho : s.objs.lookup o = some ⟨k, b, st, []⟩) {req : Flow.Request} {m : TsServer.Msg} {rref : Flow.Ref}
    (hm : TsServer.Spells m.path rref) (ha : AnswerOf req rref) (hd : ∀ a b, AnswerOf req a → AnswerOf req b → Apart a b) :
    TsClient.conclude ccfg cenv n o req m s = s.push (.ended n (.resolved rref m.body)) := by
  have own : TsClient.extract m rref = some m.body := (TsClient.extract_iff _ _ _).2 (TsClient.isA_holds hm)
  have only : ∀ a v, AnswerOf req a → TsClient.extract m a = some v → a = rref ∧ v = m.body := by
    intro a v h1 h2
    obtain ⟨ns, k1, k2, k3⟩ := holds_path ((TsClient.extract_iff _ _ _).1 h2)
    have e := hd a rref h1 ha ns m.path k1 hm k2
    subst e
    rw [own] at h2
    injection h2 with h2
    exact ⟨rfl, h2.symm⟩
  unfold TsClient.conclude
  cases hp : TsClient.pick req m with
  | some x =>
    obtain ⟨name, ref, v⟩ := x
    dsimp only
    unfold TsClient.pick at hp
    obtain ⟨a, h1, h2⟩ := List.exists_of_findSome?_eq_some hp
    cases h3 : a.response with
    | none => rw [h3] at h2; cases h2
    | some ref' =>
      rw [h3, Option.bind_some] at h2
      cases h4 : TsClient.extract m ref' with
      | none => rw [h4] at h2; cases h2
      | some v' =>
        rw [h4] at h2
        simp only [Option.map_some, Option.some.injEq, Prod.mk.injEq] at h2
        obtain ⟨_, rfl, rfl⟩ := h2
        obtain ⟨rfl, rfl⟩ := only _ _ (.inl ⟨a, h1, h3⟩) h4
        exact settle_quiet ho _ _ _ _
  | none =>
    dsimp only
    have he : req.error = some rref := by
      rcases ha with ⟨a, h1, h2⟩ | h
      · unfold TsClient.pick at hp
        have := List.findSome?_eq_none_iff.1 hp a h1
        rw [h2, Option.bind_some, own] at this
        cases this
      · exact h
    rw [he, Option.bind_some, own]
    exact settle_quiet ho _ _ _ _

theorem settle_confirm {s : TsClient.State} {n o : Nat} {k : TsClient.Kind} {b : TsServer.Js} {st : TsClient.ReqState}
    (ho : s.objs.lookup o = some ⟨k, b, st, []⟩) {t : Terms P} {m : TsServer.Msg} (hm : SameDown t .beacon m) :
    TsClient.confirm ccfg cenv n o m s = s.push (.ended n .confirmed) := by
  obtain ⟨h1, ps, h2, h3⟩ := hm
  have h4 : TsClient.extract m TsClient.beaconConfirmation = some m.body := (TsClient.extract_iff _ _ _).2
    (TsClient.isA_holds (show TsServer.Spells m.path _ by rw [h1]; exact ⟨by decide, _, ⟨by decide, rfl⟩, beacon_name⟩))
  have h5 : m.body.prop "error".toList = none := by rw [h2]; exact h3
  unfold TsClient.confirm
  rw [h4]
  dsimp only
  rw [h5]
  exact settle_quiet ho _ _ _ _

/-- The object number of a new object is free. -/
theorem objs_next {n : Net (rustServer cfg env opts down) (tsClient ccfg cenv up)} {es : List (ServerEvent (Server.Input P))} {u : Uuid}
    {c : Conn (tsClient ccfg cenv up)} (hi : InvWith n es) (hc : n.find u = some c) :
    c.client.2.objs.lookup c.client.2.next = none := by
  obtain ⟨is, h1, _⟩ := (hi.links u c hc).client
  obtain ⟨js, h2, _⟩ := tsClient_run (cfg := ccfg) (env := cenv) (pack := up) is
  rw [h1, h2]
  have k := TsClient.inv_run ccfg cenv js
  cases e : (TsClient.run ccfg cenv js .new).2.objs.lookup (TsClient.run ccfg cenv js .new).2.next with
  | none => rfl
  | some x => exact absurd (k.objs _ _ e) ((k.fresh _ (Nat.le_refl _)).1 _ _)

/-- A call is answered. -/
theorem round (sm : Smooth cfg env ccfg cenv) {t : Terms P} {n : Net (rustServer cfg env opts down) (tsClient ccfg cenv up)} {u : Uuid}
    {cl : TsClient.State} {sv : Server.State P} {a : Bool} (h : At n u cl [] [] sv) (hi : Idle cl)
    (hq : cl.sequence < 4294967296) (ho : cl.objs.lookup cl.next = none)
    (st : Server.Stage u true true true a sv) (ha : Server.Strict opts.identification → a = true)
    (kind : TsClient.Kind) (body : TsServer.Js) (hh : HeardRight t cfg up (.msg kind.ref body))
    {Q : P → Server.State P → UInt32 → Server.Out P → List (Uuid × Server.Out P) → Prop}
    (hsrv : ∀ p q s1, t.same p body → s1.past = .got u (.msg kind.ref p) q :: .chunk u :: sv.past → Server.Stage u true true true a s1 →
      ∃ o bl mids, Q p s1 q o bl ∧ ReadRight t ccfg down o ∧ (∀ x ∈ bl, ∃ ref p, x.2 = .msg ref p) ∧
        (∀ x ∈ bl, x.1 = u → ReadRight t ccfg down x.2) ∧ (∀ v, System.sends v mids = []) ∧
        Server.dispatch cfg env opts u kind.ref p q s1 = (.ok (),
          { s1 with past := .deferred :: System.allSent bl ++ .send u q o true :: mids ++ s1.past }))
    {R : P → Server.State P → UInt32 → Server.Out P → List (Uuid × Server.Out P) → TsClient.Result → Prop}
    (hcl : ∀ p q s1 o bl m, t.same p body → s1.past = .got u (.msg kind.ref p) q :: .chunk u :: sv.past → Q p s1 q o bl → SameDown t o m →
      ∃ r, R p s1 q o bl r ∧ ∀ s', s'.objs.lookup cl.next = some ⟨kind, body, .ready, []⟩ →
      (match kind with
        | .request r => TsClient.conclude ccfg cenv (cl.next + 1) cl.next r m s'
        | .beacon _ => TsClient.confirm ccfg cenv (cl.next + 1) cl.next m s') = s'.push (.ended (cl.next + 1) r)) :
    ∃ es cl' sv' p s1 q o bl r newer, (∀ e ∈ es, Waits u e.2) ∧
      At (run ((0, .client u (.user (.create kind body))) :: (0, .client u (.user (.send cl.next))) :: es) n) u cl' [] [] sv' ∧ Idle cl' ∧
      cl'.sequence = cl.sequence + 1 ∧ Server.Stage u true true true a sv' ∧ R p s1 q o bl r ∧ t.same p body ∧
      cl'.past = newer ++ cl.past ∧ .created cl.next kind body ∈ newer ∧ .called (cl.next + 1) cl.next ∈ newer ∧
      .ended (cl.next + 1) r ∈ newer ∧ Heard t ccfg.workflow u bl (tsCasts newer) ∧ (∀ x ∈ bl, ∃ ref p, x.2 = .msg ref p) ∧
      ∃ later, sv'.past = later ++ sv.past ∧
        ∀ v, v ≠ u → System.sends v later = (bl.filter (fun x => x.1 = v)).map (fun x => (0, x.2)) := by
  obtain ⟨m0, ht, p, rfl, hp⟩ := hh
  -- the call
  have A0 := h.own 0 rfl (client_create cl kind body) [.created cl.next kind body] rfl
  have A1 := A0.own 0 rfl (client_send sm.toGentle cl kind body hi.pending ho hq)
    [.sent (.call (cl.next + 1) cl.next) cl.sequence (.msg kind.ref body), .called (cl.next + 1) cl.next] rfl
  rw [show ([] : Bytes) ++ packAll up 0 (tsSent [.created cl.next kind body]) ++ packAll up 0 (tsSent
      [.sent (.call (cl.next + 1) cl.next) cl.sequence (.msg kind.ref body), .called (cl.next + 1) cl.next]) =
      up 0 cl.sequence.toUInt32 (.msg kind.ref body) by simp [tsSent, packAll]] at A1
  have hqn : cl.sequence.toUInt32.toNat = cl.sequence := by
    rw [Nat.toUInt32_eq, UInt32.toNat_ofNat']
    exact Nat.mod_eq_of_lt hq
  generalize hqe : cl.sequence.toUInt32 = q at A1 hqn
  have hlook := sentState_lookup cl kind body ho
  -- the server
  obtain ⟨f, f1, f2, f3, f4⟩ := ht 0 q
  rw [f3] at A1
  obtain ⟨f5, f6⟩ := System.delivered_ok f4
  obtain ⟨s1, k1, k2, k3⟩ := Server.serve_other (env := env) (opts := opts) st ha f1 f5 f6
  rw [f2] at k1 k3
  obtain ⟨o, bl, mids, hQ, hro, hbl, hrb, hmids, hdis⟩ := hsrv p q s1 hp k1 k2
  rw [hdis] at k3
  have A2 := A1.toServer 0 k3 (.deferred :: System.allSent bl ++ .send u q o true :: mids ++
    [.got u (.msg kind.ref p) q, .chunk u]) (by simp [k1])
  have st2 : Server.Stage u true true true a { s1 with past := .deferred :: System.allSent bl ++ .send u q o true :: mids ++ s1.past } :=
    k2.of_find rfl
  have hL : System.sends u (.deferred :: System.allSent bl ++ .send u q o true :: mids ++ [.got u (.msg kind.ref p) q, .chunk u]) =
      (q, o) :: (bl.filter (fun x => x.1 = u)).map (fun x => (0, x.2)) := by
    rw [List.cons_append, List.cons_append, List.append_assoc]
    show System.sends u (System.allSent bl ++ _) = _
    rw [System.sends_append, System.sends_allSent]
    show System.sends u (.send u q o true :: (mids ++ _)) ++ _ = _
    simp only [System.sends, if_true]
    rw [System.sends_append, hmids]
    rfl
  have hL' : ∀ v, v ≠ u → System.sends v (.deferred :: System.allSent bl ++ .send u q o true :: mids ++
      [.got u (.msg kind.ref p) q, .chunk u]) = (bl.filter (fun x => x.1 = v)).map (fun x => (0, x.2)) := by
    intro v hv
    rw [List.cons_append, List.cons_append, List.append_assoc]
    show System.sends v (System.allSent bl ++ _) = _
    rw [System.sends_append, System.sends_allSent]
    show System.sends v (.send u q o true :: (mids ++ _)) ++ _ = _
    simp only [System.sends, if_neg (Ne.symm hv)]
    rw [System.sends_append, hmids]
    rfl
  rw [hL, List.nil_append] at A2
  -- the client
  obtain ⟨fs, g1, g2, g3⟩ := travels (t := t) (ccfg := ccfg) (down := down)
    (L := (q, o) :: (bl.filter (fun x => x.1 = u)).map (fun x => ((0 : UInt32), x.2))) (by
      intro x hx
      rcases List.mem_cons.1 hx with rfl | hx
      · exact hro
      · obtain ⟨y, hy, rfl⟩ := List.mem_map.1 hx
        obtain ⟨hy, hu⟩ := List.mem_filter.1 hy
        exact hrb y hy (by simpa using hu))
  rw [g2] at A2
  generalize hxs : fs.filterMap (Spec.delivered ccfg.decoder) = xs at g3
  obtain _ | ⟨⟨e1, e2⟩, g4⟩ := g3
  rename_i i xs
  obtain ⟨hd, m⟩ := i
  obtain ⟨more, j1, j2, j3⟩ := onMessages_answered sm.toGentle (t := t) (u := u) (w := .call (cl.next + 1) cl.next)
    (s := { sentState cl kind body with past := .chunk (stream fs) :: (sentState cl kind body).past }) (m := m)
    (by rw [hqn]; rfl) e1 hbl g4
  rw [← hxs] at j3
  have A3 := A2.toClient 0 g1 hi.reader j3 (more ++ [.delivered (.call (cl.next + 1) cl.next) q m, .got q m, .chunk (stream fs)])
    (by simp)
  rw [show tsSent (more ++ [.delivered (.call (cl.next + 1) cl.next) q m, .got q m, .chunk (stream fs)]) = [] by
    rw [tsSent_append, j1]; rfl] at A3
  obtain ⟨r, hR, hr⟩ := hcl p q s1 o bl m hp k1 hQ e2
  have A4 := A3.own 0 rfl (client_answer (n := cl.next + 1) (o := cl.next) (r := r)
    (by show (sentState cl kind body).tasks ++ _ = _; rw [show (sentState cl kind body).tasks = [] from hi.tasks]; rfl)
    hlook hr) [.ended (cl.next + 1) r] rfl
  simp only [tsSent, packAll, List.flatMap_nil, List.append_nil] at A4
  simp only [← run_append] at A4
  refine ⟨[(0, .toServer u f.bytes.length), (0, .toClient u (stream fs).length), (0, .client u (.work 0))], _, _, p, s1, q, o, bl, r,
    .ended (cl.next + 1) r :: more ++ [.delivered (.call (cl.next + 1) cl.next) q m, .got q m, .chunk (stream fs),
      .sent (.call (cl.next + 1) cl.next) cl.sequence (.msg kind.ref body), .called (cl.next + 1) cl.next, .created cl.next kind body],
    ?_, A4, ⟨rfl, rfl, rfl⟩, rfl, st2, hR, hp, ?_, by simp, by simp, by simp, ?_, hbl, _, ?_, hL'⟩
  · intro e he
    simp only [List.mem_cons, List.not_mem_nil, or_false] at he
    rcases he with rfl | rfl | rfl <;> constructor
  · simp [sentState]
  · rw [List.cons_append, tsCasts, tsCasts_append]
    · exact j2
    · intro _ _ e; cases e
  · show _ = _
    simp [k1]

theorem answered (sm : Smooth cfg env ccfg cenv) {t : Terms P} {n : Net (rustServer cfg env opts down) (tsClient ccfg cenv up)}
    {es0 : List (ServerEvent (Server.Input P))} (hinv : InvWith n es0) {u : Uuid} (h : Established n u) (ha : Admitted n u)
    (hq : ∀ c, n.find u = some c → c.client.2.sequence < 4294967296)
    {kind : TsClient.Kind} {body : TsServer.Js} (hs : Servable t cfg env ccfg down up u kind body) :
    ∃ o es res l heard, (∀ e ∈ es, Waits u e.2) ∧
      let n' : Net (rustServer cfg env opts down) (tsClient ccfg cenv up) := run ((0, .client u (.user (.create kind body))) :: (0, .client u (.user (.send o))) :: es) n
      Established n' u ∧ Admitted n' u ∧ Told t env u n.server.2.past kind body res l ∧ Heard t ccfg.workflow u l heard ∧
      Returned n n' u kind body res heard ∧
      (∀ c c', n.find u = some c → n'.find u = some c' → c'.client.2.sequence = c.client.2.sequence + 1) ∧
      (∀ x ∈ l, ∃ ref p, x.2 = .msg ref p) ∧
      ∃ later, n'.server.2.past = later ++ n.server.2.past ∧
        ∀ v, v ≠ u → System.sends v later = (l.filter (fun x => x.1 = v)).map (fun x => (0, x.2)) := by
  obtain ⟨cl, a, A, hi, st, hst⟩ := h.pieces
  replace hst := hst ha
  obtain ⟨gu, gd, hc⟩ := A.conn
  have hq := hq _ hc
  have ho := objs_next hinv hc
  have key : ∀ (Q : P → Server.State P → UInt32 → Server.Out P → List (Uuid × Server.Out P) → Prop),
      HeardRight t cfg up (.msg kind.ref body) →
      (∀ p q s1, t.same p body → s1.past = .got u (.msg kind.ref p) q :: .chunk u :: n.server.2.past → Server.Stage u true true true a s1 →
      ∃ o bl mids, Q p s1 q o bl ∧ ReadRight t ccfg down o ∧ (∀ x ∈ bl, ∃ ref p, x.2 = .msg ref p) ∧
        (∀ x ∈ bl, x.1 = u → ReadRight t ccfg down x.2) ∧ (∀ v, System.sends v mids = []) ∧
        Server.dispatch cfg env opts u kind.ref p q s1 = (.ok (),
          { s1 with past := .deferred :: System.allSent bl ++ .send u q o true :: mids ++ s1.past })) →
      (∀ p q s1 o bl m, t.same p body → s1.past = .got u (.msg kind.ref p) q :: .chunk u :: n.server.2.past → Q p s1 q o bl →
        SameDown t o m → ∃ r, Told t env u n.server.2.past kind body r bl ∧
        ∀ s', s'.objs.lookup cl.next = some ⟨kind, body, .ready, []⟩ →
        (match kind with
          | .request r => TsClient.conclude ccfg cenv (cl.next + 1) cl.next r m s'
          | .beacon _ => TsClient.confirm ccfg cenv (cl.next + 1) cl.next m s') = s'.push (.ended (cl.next + 1) r)) →
      ∃ o es res l heard, (∀ e ∈ es, Waits u e.2) ∧
        let n' : Net (rustServer cfg env opts down) (tsClient ccfg cenv up) := run ((0, .client u (.user (.create kind body))) :: (0, .client u (.user (.send o))) :: es) n
        Established n' u ∧ Admitted n' u ∧ Told t env u n.server.2.past kind body res l ∧ Heard t ccfg.workflow u l heard ∧
        Returned n n' u kind body res heard ∧
      (∀ c c', n.find u = some c → n'.find u = some c' → c'.client.2.sequence = c.client.2.sequence + 1) ∧
      (∀ x ∈ l, ∃ ref p, x.2 = .msg ref p) ∧
        ∃ later, n'.server.2.past = later ++ n.server.2.past ∧
          ∀ v, v ≠ u → System.sends v later = (l.filter (fun x => x.1 = v)).map (fun x => (0, x.2)) := by
    intro Q hh hsrv hcl
    obtain ⟨es, cl', sv', p, s1, q, o, bl, r, newer, k1, k2, k3, ks, k4, k5, k6, k7, k8, k9, k10, k11, k12, k13⟩ :=
      round sm A hi hq ho st hst kind body hh hsrv (R := fun _ _ _ _ bl r => Told t env u n.server.2.past kind body r bl) hcl
    obtain ⟨e1, e2⟩ := k2.established k3 k4
    obtain ⟨gu', gd', hc'⟩ := k2.conn
    refine ⟨cl.next, es, r, bl, tsCasts newer, k1, e1, e2 hst, k5, k11, ?_, ?_, k12, ?_⟩
    · exact ⟨_, _, newer, _, _, hc, hc', k7, k8, k9, k10, rfl⟩
    · intro c c' j j'
      rw [hc] at j
      rw [hc'] at j'
      injection j with j
      injection j' with j'
      subst j j'
      exact ks
    · rw [k2.server]; exact k13
  cases hs with
  | @request req ref _ c1 c2 c3 c4 c5 c6 c7 c8 =>
    have hjob : (TsClient.Kind.request req).ref = ref := by simp [TsClient.Kind.ref, c2]
    rw [hjob] at key
    have hfind : cfg.workflow.requests.find? (fun r => r.request = some ref) = some req := by
      cases hq : cfg.workflow.requests.find? (fun r => r.request = some ref) with
      | none =>
        have := List.find?_eq_none.1 hq req c1
        simp [c2] at this
      | some r => rw [c3 r (List.mem_of_find?_eq_some hq) (by simpa using List.find?_some hq)]
    refine key (fun p s1 q o bl => Server.Decides env req (s1.push (.respond u ref q)) u p o bl) c6 ?_ ?_
    · intro p q s1 hp k1 k2
      obtain ⟨o, l, d1, d2, d3⟩ := System.process_sent (cfg := cfg) (env := env) sm.send sm.answer req u p q s1 (c7 _ _ hp)
      rw [c2, Option.getD_some] at d1 d3
      obtain ⟨r1, r2⟩ := c8 _ _ _ _ hp d1
      refine ⟨_, l, [.respond u ref q], d1, r1, d2, r2, fun _ => rfl, ?_⟩
      unfold Server.dispatch
      rw [hfind]
      dsimp only
      rw [d3]
      simp
    · intro p q s1 o bl m hp k1 d1 k2
      obtain ⟨rref, x, rfl, hans⟩ := answer_of_decides c4 d1
      obtain ⟨k3, k4⟩ := k2
      refine ⟨.resolved rref m.body, ?_, fun s' hs' => settle_conclude hs' k3 hans c5⟩
      exact .answer (s := s1.push (.respond u ref q)) (q := q) c2 hp (by rw [Server.past_push, k1]) d1 k4 hans
  | @beacon b _ c1 c2 c3 c4 c5 =>
    have hnone : cfg.workflow.requests.find? (fun r => r.request = some b.reference) = none :=
      List.find?_eq_none.2 (fun r hr => by simpa using c2 r hr)
    have hb : ∃ b', cfg.workflow.beacons.find? (fun x => x.reference = b.reference) = some b' := by
      cases hq : cfg.workflow.beacons.find? (fun x => x.reference = b.reference) with
      | none =>
        have := List.find?_eq_none.1 hq b c1
        simp at this
      | some r => exact ⟨r, rfl⟩
    obtain ⟨b', hb⟩ := hb
    refine key (fun p s1 q o bl => o = .beacon ∧ bl = []) c3 ?_ ?_
    · intro p q s1 hp k1 k2
      refine ⟨.beacon, [], [.beacon u b.reference q], ⟨rfl, rfl⟩, c5, by simp, by simp, fun _ => rfl, ?_⟩
      unfold Server.dispatch
      show (match cfg.workflow.requests.find? (fun r => r.request = some b.reference) with | some r => _ | none => _) = _
      rw [hnone]
      dsimp only
      show (match cfg.workflow.beacons.find? (fun x => x.reference = b.reference) with | some _ => _ | none => _) = _
      rw [hb]
      dsimp only [TsClient.Kind.ref]
      unfold Server.emitBeacon
      dsimp only
      rw [c4 _ _ hp]
      dsimp only
      rw [System.finish_sent sm.send sm.answer]
      rfl
    · rintro p q s1 o bl m hp k1 ⟨rfl, rfl⟩ k2
      exact ⟨.confirmed, .beacon, fun s' hs' => settle_confirm hs' k2⟩

/-! ### Broadcasts -/

/-- Bytes that are these messages, packed at any times. -/
inductive Underway {Out : Type} (pack : UInt64 → UInt32 → Out → Bytes) : List (UInt32 × Out) → Bytes → Prop where
  | nil : Underway pack [] []
  | cons {q : UInt32} {o : Out} {L : List (UInt32 × Out)} {b : Bytes} (ts : UInt64) : Underway pack L b →
      Underway pack ((q, o) :: L) (pack ts q o ++ b)

theorem Underway.all {Out : Type} {pack : UInt64 → UInt32 → Out → Bytes} (ts : UInt64) : ∀ L : List (UInt32 × Out),
    Underway pack L (packAll pack ts L)
  | [] => .nil
  | (_, _) :: L => by rw [packAll, List.flatMap_cons]; exact .cons ts (all ts L)

theorem Underway.append {Out : Type} {pack : UInt64 → UInt32 → Out → Bytes} {L M : List (UInt32 × Out)} {a b : Bytes}
    (h : Underway pack L a) (k : Underway pack M b) : Underway pack (L ++ M) (a ++ b) := by
  induction h with
  | nil => exact k
  | cons ts _ ih => rw [List.cons_append, List.append_assoc]; exact .cons ts ih

theorem Underway.frames {t : Terms P} {L : List (UInt32 × Server.Out P)} {b : Bytes} (h : Underway down L b)
    (hr : ∀ x ∈ L, ReadRight t ccfg down x.2) :
    ∃ fs, (∀ f ∈ fs, Good ccfg.decoder f) ∧ b = stream fs ∧
      System.Pairs (fun x (i : Rust.Income TsClient.Msg) => i.header.sequence = x.1 ∧ SameDown t x.2 i.msg) L
        (fs.filterMap (Spec.delivered ccfg.decoder)) := by
  induction h with
  | nil => exact ⟨[], by simp, rfl, .nil⟩
  | @cons q o L b ts _ ih =>
    obtain ⟨fs, h1, h2, h3⟩ := ih (fun y hy => hr y (List.mem_cons_of_mem _ hy))
    obtain ⟨m, k, hs⟩ := hr _ List.mem_cons_self
    obtain ⟨f, k1, k2, k3, k4⟩ := k ts q
    refine ⟨f :: fs, fun g hg' => ?_, ?_, ?_⟩
    · rcases List.mem_cons.1 hg' with rfl | hg'
      · obtain ⟨j1, j2⟩ := System.delivered_ok k4
        exact ⟨k1, j1, m, j2⟩
      · exact h1 g hg'
    · rw [k3, h2]; rfl
    · rw [List.filterMap_cons, k4]
      exact .cons ⟨k2, hs⟩ h3

section
variable {n : Net (rustServer cfg env opts down) (tsClient ccfg cenv up)} {u : Uuid}

/-- Broadcasts that are under way reach user code of a client. -/
theorem catches_up (sm : Smooth cfg env ccfg cenv) {t : Terms P} {cl : TsClient.State} {sv : Server.State P} {db : Bytes}
    (h : At n u cl [] db sv) (hi : Idle cl) {L : List (UInt32 × Server.Out P)} (hL : ∀ x ∈ L, x.1 = 0 ∧ ∃ ref p, x.2 = .msg ref p)
    (hrd : ∀ x ∈ L, ReadRight t ccfg down x.2) (hd : Underway down L db) :
    ∃ k cl' newer, At (run [(0, .toClient u k)] n) u cl' [] [] sv ∧ Idle cl' ∧ cl'.past = newer ++ cl.past ∧
      Heard t ccfg.workflow u (L.map (fun x => (u, x.2))) (tsCasts newer) := by
  obtain ⟨fs, g1, rfl, g3⟩ := hd.frames hrd
  generalize hxs : fs.filterMap (Spec.delivered ccfg.decoder) = xs at g3
  have hL2 : (((L.map (fun x => (u, x.2))).filter (fun x => x.1 = u)).map (fun x => ((0 : UInt32), x.2))) = L := by
    clear g3 hrd hd
    induction L with
    | nil => rfl
    | cons x L ih =>
      rw [List.map_cons, List.filter_cons_of_pos (by simp), List.map_cons, ih (fun y hy => hL y (List.mem_cons_of_mem _ hy))]
      rw [← (hL x List.mem_cons_self).1]
  rw [← hL2] at g3
  obtain ⟨more, j1, j2, j3⟩ := offered sm.toGentle (t := t) u [] [] (L.map (fun x => (u, x.2))) xs
    { cl with past := .chunk (stream fs) :: cl.past }
    (by
      intro x hx
      obtain ⟨y, hy, rfl⟩ := List.mem_map.1 hx
      exact (hL y hy).2) g3 (by show cl.pending.lookup 0 = none; rw [hi.pending]; rfl)
  rw [List.append_nil, ← hxs] at j3
  have A := h.toClient 0 g1 hi.reader j3 (more ++ [.chunk (stream fs)]) (by simp [TsClient.onMessages])
  rw [show tsSent (more ++ [.chunk (stream fs)]) = [] by rw [tsSent_append, j1]; rfl] at A
  simp only [packAll, List.flatMap_nil, List.append_nil] at A
  refine ⟨_, _, more ++ [.chunk (stream fs)], A, ⟨?_, ?_, ?_⟩, ?_, ?_⟩
  · rfl
  · exact hi.pending
  · exact hi.tasks
  · simp [TsClient.onMessages]
  · rw [tsCasts_append]; exact j2

/-- What one step of the server does to a client it is not about. -/
theorem serve_elsewhere {c : Conn (tsClient ccfg cenv up)} {a : Bool} (ts : UInt64) {e : ServerEvent (Server.Input P)}
    (he : ∀ i, rustInput e = some i → Server.Aside u i) (hc : n.find u = some c) (st : Server.Stage u true true true a n.server.2) :
    ∃ l b, (n.serve ts e).server.2.past = l ++ n.server.2.past ∧ (n.serve ts e).find u = some { c with down := c.down ++ b } ∧
      Underway down (System.sends u l) b ∧ Server.Stage u true true true a (n.serve ts e).server.2 := by
  have key : ∃ l, ((rustServer cfg env opts down).step e n.server).2.past = l ++ n.server.2.past ∧
      Server.Stage u true true true a ((rustServer cfg env opts down).step e n.server).2 := by
    rcases rustServer_step (cfg := cfg) (env := env) (opts := opts) (pack := down) e n.server with ⟨k, _⟩ | ⟨i, k1, k2⟩
    · rw [k]; exact ⟨[], rfl, st⟩
    · rw [k2]
      obtain ⟨l, hl⟩ := System.serverStep_grows (w := someSetup cfg env opts) n.server.1 i n.server.2
      refine ⟨l, hl, ?_⟩
      rcases System.serverStep_cases (w := someSetup cfg env opts) n.server.1 i n.server.2 with ⟨k, _⟩ | ⟨_, k, _⟩
      · rw [k]; exact st
      · rw [k]
        exact (Server.step_aside (he i k1) st).weaken (fun h => by simp [h])
  obtain ⟨l, hl, hst⟩ := key
  refine ⟨l, packAll down ts (System.sends u l), hl, ?_, .all ts _, hst⟩
  rw [find_serve, hc]
  show some ({ c with down := c.down ++ packAll down ts (sendsTo u ((rustSent _).drop _)) } : Conn (tsClient ccfg cenv up)) = _
  rw [rustSent_drop hl, sendsTo_rustSent]

theorem own_aside {i : Server.Input P} (h : System.ownServer i = true) : Server.Aside u i := by
  cases i with
  | connected => cases h
  | disconnected => cases h
  | received => cases h
  | _ => trivial

/-- What happens elsewhere leaves a client alone, but for messages of the server. -/
theorem elsewhere {a : Bool} : ∀ (es : List (UInt64 × Event (rustServer cfg env opts down) (tsClient ccfg cenv up))),
    (∀ e ∈ es, Elsewhere u e.2) → ∀ {n : Net (rustServer cfg env opts down) (tsClient ccfg cenv up)} {c : Conn (tsClient ccfg cenv up)},
    n.find u = some c → Server.Stage u true true true a n.server.2 →
    ∃ l b, (run es n).server.2.past = l ++ n.server.2.past ∧ (run es n).find u = some { c with down := c.down ++ b } ∧
      Underway down (System.sends u l) b ∧ Server.Stage u true true true a (run es n).server.2
  | [], _, n, c, hc, st => ⟨[], [], rfl, by simpa [run] using hc, .nil, st⟩
  | (ts, e) :: es, he, n, c, hc, st => by
    have one : ∃ l b, (step n (ts, e)).server.2.past = l ++ n.server.2.past ∧
        (step n (ts, e)).find u = some { c with down := c.down ++ b } ∧
        Underway down (System.sends u l) b ∧ Server.Stage u true true true a (step n (ts, e)).server.2 := by
      have none' : ∃ l b, n.server.2.past = l ++ n.server.2.past ∧ n.find u = some { c with down := c.down ++ b } ∧
          Underway down (System.sends u l) b ∧ Server.Stage u true true true a n.server.2 :=
        ⟨[], [], rfl, by simpa using hc, .nil, st⟩
      have hv := he _ List.mem_cons_self
      cases e with
      | opened v =>
        simp only [step]
        split
        · rename_i hx
          simp only [Bool.and_eq_true, Option.isNone_iff_eq_none] at hx
          refine serve_elsewhere ts (fun i hi => ?_) ?_ st
          · cases hi; exact hv
          · rw [find_snoc hx.1, if_neg (Ne.symm hv)]
            exact hc
        · exact none'
      | lost v => exact serve_elsewhere ts (fun i hi => by cases hi; exact hv) hc st
      | toServer v k =>
        simp only [step]
        split
        · refine serve_elsewhere ts (fun i hi => ?_) ?_ st
          · cases hi; exact hv
          · rw [find_set_other (Ne.symm hv), hc]
        · exact none'
      | toClient v k =>
        simp only [step]
        split
        · split
          · refine ⟨[], [], rfl, ?_, .nil, st⟩
            rw [find_set_other (Ne.symm hv), hc, List.append_nil]
          · exact none'
        · exact none'
      | server i =>
        refine serve_elsewhere ts (fun j hj => ?_) hc st
        simp only [rustInput] at hj
        split at hj
        · rename_i ho
          cases hj
          exact own_aside ho
        · cases hj
      | client v i =>
        simp only [step]
        split
        · refine ⟨[], [], rfl, ?_, .nil, st⟩
          rw [find_set_other (Ne.symm hv), hc, List.append_nil]
        · exact none'
    obtain ⟨l, b, h1, h2, h3, h4⟩ := one
    obtain ⟨l', b', k1, k2, k3, k4⟩ := elsewhere es (fun e h => he e (List.mem_cons_of_mem _ h)) h2 h4
    refine ⟨l' ++ l, b ++ b', ?_, ?_, ?_, k4⟩
    · show (run es (step n (ts, e))).server.2.past = _
      rw [k1, h1, List.append_assoc]
    · show (run es (step n (ts, e))).find u = _
      rw [k2]
      simp
    · rw [System.sends_append]
      exact h3.append k3

/-- A quiet client gets what was sent to it while other things happened. -/
theorem overheard (sm : Smooth cfg env ccfg cenv) {t : Terms P} (h : Established n u)
    {es : List (UInt64 × Event (rustServer cfg env opts down) (tsClient ccfg cenv up))} (hes : ∀ e ∈ es, Elsewhere u e.2)
    (hrun : (run es n).server.1 = .running) {later : List (Server.Act P)}
    (hl : (run es n).server.2.past = later ++ n.server.2.past)
    (hb : ∀ x ∈ System.sends u later, x.1 = 0 ∧ ∃ ref p, x.2 = .msg ref p)
    (hrd : ∀ x ∈ System.sends u later, ReadRight t ccfg down x.2) :
    ∃ k c c' newer, let n' : Net (rustServer cfg env opts down) (tsClient ccfg cenv up) := run (es ++ [(0, .toClient u k)]) n
      Established n' u ∧ (Admitted n u → Admitted n' u) ∧ n.find u = some c ∧ n'.find u = some c' ∧
      c'.client.2.past = newer ++ c.client.2.past ∧
      Heard t ccfg.workflow u ((System.sends u later).map (fun x => (u, x.2))) (tsCasts newer) := by
  obtain ⟨cl, a, A, hi, st, hst⟩ := h.pieces
  obtain ⟨gu, gd, hc⟩ := A.conn
  obtain ⟨l, b, k1, k2, k3, k4⟩ := elsewhere es hes hc st
  have : l = later := List.append_cancel_right (k1.symm.trans hl)
  subst this
  have A1 : At (run es n) u cl [] b (run es n).server.2 := ⟨Prod.ext hrun rfl, gu, gd, by simpa using k2⟩
  obtain ⟨k, cl', newer, p2, p3, p4, p5⟩ := catches_up sm A1 hi hb hrd k3
  rw [← run_append] at p2
  obtain ⟨gu', gd', hc'⟩ := p2.conn
  obtain ⟨e1, e2⟩ := p2.established p3 k4
  exact ⟨k, _, _, newer, e1, fun ha => e2 (hst ha), hc, hc', p4, p5⟩

end

end Verif.Network
