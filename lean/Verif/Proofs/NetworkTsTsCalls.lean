import Verif.Proofs.NetworkTsTsLive
set_option autoImplicit false
/-!
Calls of TypeScript clients of a TypeScript server, from one quiet moment to the next, and broadcasts.
-/
namespace Verif.Network

open Verif Verif.Spec

variable {cfg : TsServer.Cfg} {env : TsServer.Env} {opts : Server.Options}
  {takes : List TsServer.Act → Uuid → UInt32 → TsServer.Out → Bool}
  {down : UInt64 → UInt32 → TsServer.Out → Bytes} {ccfg : TsClient.Cfg} {cenv : TsClient.Env}
  {up : UInt64 → UInt32 → TsClient.Out → Bytes}

/-! ### Handlers of the server -/

/-- The handler for a message. -/
def jobOf : TsClient.Kind → TsServer.Job
  | .request r => .request r
  | .beacon _ => .beacon

/-- How the call of a handler is noted. -/
def noted (u : Uuid) (kind : TsClient.Kind) (body : TsServer.Js) (q : UInt32) (k : Nat) : TsServer.Act :=
  match kind with
  | .request _ => .respond k u kind.ref body q
  | .beacon _ => .beacon k u kind.ref body q

theorem noted_mild (u : Uuid) (kind : TsClient.Kind) (body : TsServer.Js) (q : UInt32) (k : Nat) : TsServer.Mild (noted u kind body q k) := by
  cases kind <;> simp [noted, TsServer.Mild, TsServer.Mute]

/-- The handler is called. -/
theorem serve_call (sm : TsSmooth cfg env takes ccfg cenv) {t : TsTerms} {u : Uuid} {sv : TsServer.State}
    (hinv : TsServer.Inv cfg none none sv) (st : TsServer.Stage u true true sv) {kind : TsClient.Kind} {body : TsServer.Js}
    (hs : TsServable t cfg up kind body) (q : UInt32) :
    ∃ f m l, up 0 q (.msg kind.ref body) = Frame.bytes f ∧ (TsServer.received cfg env opts u f.bytes sv).1 ≠ .hung ∧
      (TsServer.received cfg env opts u f.bytes sv).2.past = l ++ noted u kind body q sv.next :: .got u m q :: .chunk u :: sv.past ∧
      (∀ x ∈ l, TsServer.Mild x) ∧ TsServer.Stage u true true (TsServer.received cfg env opts u f.bytes sv).2 ∧
      (TsServer.received cfg env opts u f.bytes sv).2.tasks.lookup sv.next = some ⟨u, q, jobOf kind, .user⟩ := by
  have nohash : ∀ {m : TsServer.Msg} {ref : Flow.Ref}, TsServer.Spells m.path ref → Foreign ref →
      ∀ k, ¬ TsServer.Found m TsServer.hashRequest k := by
    intro m ref h1 h2 k hk
    refine foreign_service h1 h2 (name := "HashRequest".toList) (v := k) ?_
    rw [← hashRequest_name]
    exact found_holds hk
  cases hs with
  | @request req ref _ c1 c2 c3 c4 c5 c6 =>
    obtain ⟨m, ps, ht, ⟨hm, hb⟩, hp⟩ := c6
    obtain ⟨f, f1, f2, f3, f4⟩ := ht 0 q
    obtain ⟨f5, f6⟩ := System.delivered_ok f4
    have hfound := TsServer.found_isA hm hp
    rw [hb] at hfound
    have hk : (TsClient.Kind.request req).ref = ref := by simp [TsClient.Kind.ref, c2]
    obtain ⟨l, k1, k2, k3, k4⟩ := TsServer.serve_start (env := env) (opts := opts) sm.kept hinv st f1 f5.symm f6 (nohash hm c4.foreign)
      (TsServer.dispatch_request (seq := f.hdr.sequence) c1 c2 hfound (fun r' hr' ref' b' hq' hf' => by
        obtain ⟨rfl, _⟩ := holds_apart hm (found_holds hf') (c4.requests r' hr' ref' hq')
        exact c3 r' hr' hq'))
    rw [f2] at k1 k4
    refine ⟨f, m, l, by rw [hk]; exact f3, TsServer.frame_not_hung st f1 f5.symm f6, ?_, k2, k3, k4⟩
    rw [k1]
    simp only [noted, hk]
  | @beacon b _ c1 c2 c3 c4 =>
    obtain ⟨m, ps, ht, ⟨hm, hb⟩, hp⟩ := c4
    obtain ⟨f, f1, f2, f3, f4⟩ := ht 0 q
    obtain ⟨f5, f6⟩ := System.delivered_ok f4
    have hfound := TsServer.found_isA hm hp
    rw [hb] at hfound
    obtain ⟨l, k1, k2, k3, k4⟩ := TsServer.serve_start (env := env) (opts := opts) sm.kept hinv st f1 f5.symm f6 (nohash hm c3.foreign)
      (TsServer.dispatch_beacon (seq := f.hdr.sequence) c1 rfl hfound
        (fun r hr ref' b' hq' hf' => by
          obtain ⟨rfl, _⟩ := holds_apart hm (found_holds hf') (c3.requests r hr ref' hq')
          exact c2 r hr hq')
        (fun y hy b' hf' => (holds_apart hm (found_holds hf') (c3.beacons y hy)).1.symm))
    rw [f2] at k1 k4
    refine ⟨f, m, l, f3, TsServer.frame_not_hung st f1 f5.symm f6, ?_, k2, k3, k4⟩
    rw [k1]
    rfl

theorem expected {r : Flow.Request} {ref : Flow.Ref} (h : AnswerOf r ref) : ref ∈ TsServer.expectations r := by
  unfold TsServer.expectations
  rcases h with ⟨a, h1, h2⟩ | h
  · refine List.mem_append_left _ ?_
    split
    · exact List.mem_filterMap.2 ⟨a, h1, h2⟩
    · rename_i hl
      cases e : r.actions with
      | nil => rw [e] at h1; cases h1
      | cons b l =>
        have : l = [] := by
          rw [e] at hl
          cases l with
          | nil => rfl
          | cons => simp at hl
        rw [e, this, List.mem_singleton] at h1
        subst h1
        simp [h2]
  · exact List.mem_append_right _ (by simp [h])

/-- The answer is sent. -/
theorem decides_step (sm : TsSmooth cfg env takes ccfg cenv) {sv : TsServer.State} {k : Nat} {u : Uuid} {q : UInt32} {kind : TsClient.Kind}
    (hl : sv.tasks.lookup k = some ⟨u, q, jobOf kind, .user⟩) {x : TsServer.Settled} {o : TsServer.Out} {res : TsClient.Result}
    {casts : List TsServer.Cast} (hd : TsDecides kind x o res casts) :
    TsServer.step cfg env opts (.settled k x) sv =
      (.next, (sv.push (.send (.answer k) u q o)).wait k ⟨u, q, jobOf kind, .user⟩ (.sending casts)) := by
  have send : ∀ task o casts, TsServer.sendAnswer cfg env opts k task o casts sv =
      (.next, (sv.push (.send (.answer k) task.u task.seq o)).wait k task (.sending casts)) := by
    intro task o casts
    unfold TsServer.sendAnswer
    rw [if_pos (sm.answer o)]
  show (match sv.tasks.lookup k with | some task => TsServer.resume cfg env opts k task x sv | none => (.next, sv)) = _
  rw [hl]
  dsimp only
  cases hd with
  | @plain r ref v calls h1 h2 =>
    show (if ref ∉ TsServer.expectations r then TsServer.Proc.skip else if r.actions.length > 1 then _ else _ : TsServer.Proc) sv = _
    rw [if_neg (by simpa using expected h2), if_neg (by omega)]
    exact send _ _ _
  | @action r ref v casts h1 h2 h3 h4 h5 h6 =>
    show (if ref ∉ TsServer.expectations r then TsServer.Proc.skip else if r.actions.length > 1 then
      match TsServer.collect (TsServer.requestMethods r) ref _ [] with
        | none => TsServer.fail cfg env opts k _
        | some casts => if TsServer.complete r ref casts then TsServer.sendAnswer cfg env opts k _ (.msg ref v) casts
          else TsServer.fail cfg env opts k _
      else _ : TsServer.Proc) sv = _
    rw [if_neg (by simpa using expected h2), if_pos h1]
    have := TsServer.collect_all (methods := TsServer.requestMethods r) (resp := ref) (only := some ref) (.inr rfl)
      (by rw [TsServer.methods_names]; exact h3) casts []
      (fun x hx => by
        obtain ⟨a, a1, a2, b, a3, a4⟩ := h5 x hx
        exact TsServer.requestMethods_mem.2 ⟨a, a1, b, a3, rfl, a4, a2⟩) h4
    rw [show TsServer.collect (TsServer.requestMethods r) ref (giving casts) [] =
      some ([] ++ casts) from this]
    dsimp only
    rw [List.nil_append, if_pos (TsServer.complete_iff.2 h6)]
    exact send _ _ _
  | @beacon ref => exact send _ _ _

/-- The answer was sent, now the broadcasts. -/
theorem sent_step (sm : TsSmooth cfg env takes ccfg cenv) {sv : TsServer.State} {k : Nat} {task : TsServer.Task} {casts : List TsServer.Cast}
    (hl : sv.tasks.lookup k = some task) (hp : task.phase = .sending casts) {u : Uuid} {key hash : Bool} (st : TsServer.Stage u key hash sv) :
    (TsServer.step cfg env opts (.settled k (.sent true)) sv).1 ≠ .hung ∧
    TsServer.Stage u key hash (TsServer.step cfg env opts (.settled k (.sent true)) sv).2 ∧
    ∃ l, (TsServer.step cfg env opts (.settled k (.sent true)) sv).2.past = l ++ (TsServer.deliveries k casts).reverse ++ sv.past ∧
      ∀ a ∈ l, TsServer.Mild a := by
  have e : TsServer.step cfg env opts (.settled k (.sent true)) sv = TsServer.broadcastAll cfg env opts k task casts sv := by
    show (match sv.tasks.lookup k with | some task => TsServer.resume cfg env opts k task (.sent true) sv | none => (.next, sv)) = _
    rw [hl]
    dsimp only
    unfold TsServer.resume
    rw [hp]
  refine ⟨fun h => ?_, ?_⟩
  · obtain ⟨_, _, _, h, _⟩ := TsServer.step_hung.1 h
    cases h
  · rw [e]
    exact TsServer.broadcast_step sm.kept sm.quiet sm.answer st

theorem not_delivered {k : Nat} {casts : List TsServer.Cast} {v : Uuid} (h : .discredited v ∈ TsServer.deliveries k casts) : False := by
  simp [TsServer.deliveries] at h

/-! ### Calls -/

theorem ts_objs_next {n : Net (tsServer cfg env opts takes down) (tsClient ccfg cenv up)} {es : List (ServerEvent TsServer.Input)} {u : Uuid}
    {c : Conn (tsClient ccfg cenv up)} (hi : InvWith n es) (hc : n.find u = some c) :
    c.client.2.objs.lookup c.client.2.next = none := by
  obtain ⟨is, h1, _⟩ := (hi.links u c hc).client
  obtain ⟨js, h2, _⟩ := tsClient_run (cfg := ccfg) (env := cenv) (pack := up) is
  rw [h1, h2]
  have k := TsClient.inv_run ccfg cenv js
  cases e : (TsClient.run ccfg cenv js .new).2.objs.lookup (TsClient.run ccfg cenv js .new).2.next with
  | none => rfl
  | some x => exact absurd (k.objs _ _ e) ((k.fresh _ (Nat.le_refl _)).1 _ _)

/-- What the client makes of the answer. -/
theorem ts_concluded {t : TsTerms} {kind : TsClient.Kind} {body : TsServer.Js} (hs : TsServable t cfg up kind body)
    {x : TsServer.Settled} {o : TsServer.Out} {res : TsClient.Result} {casts : List TsServer.Cast} (hd : TsDecides kind x o res casts)
    {m : TsServer.Msg} (hm : TsSameDown t o m) {k obj : Nat} {s' : TsClient.State} (ho : s'.objs.lookup obj = some ⟨kind, body, .ready, []⟩) :
    (match (generalizing := false) kind with
      | .request r => TsClient.conclude ccfg cenv k obj r m s'
      | .beacon _ => TsClient.confirm ccfg cenv k obj m s') = s'.push (.ended k res) := by
  cases hd with
  | @plain r ref v calls h1 h2 =>
    obtain ⟨j1, j2⟩ := hm
    cases hs with
    | request c1 c2 c3 c4 c5 c6 => rw [← j2]; exact settle_conclude ho j1 h2 c5
  | @action r ref v casts h1 h2 h3 h4 h5 h6 =>
    obtain ⟨j1, j2⟩ := hm
    cases hs with
    | request c1 c2 c3 c4 c5 c6 => rw [← j2]; exact settle_conclude ho j1 h2 c5
  | beacon => exact settle_confirm ho (sameDown_iff.1 hm)

theorem ts_round (sm : TsSmooth cfg env takes ccfg cenv) {t : TsTerms} {n : Net (tsServer cfg env opts takes down) (tsClient ccfg cenv up)}
    {u : Uuid} {cl : TsClient.State} {sv : TsServer.State} (h : TsAt n u cl [] [] sv) (hi : Idle cl)
    (hq : cl.sequence < 4294967296) (ho : cl.objs.lookup cl.next = none) (hinv : TsServer.Inv cfg none none sv)
    (st : TsServer.Stage u true true sv) {kind : TsClient.Kind} {body : TsServer.Js} (hs : TsServable t cfg up kind body)
    {x : TsServer.Settled} {o : TsServer.Out} {res : TsClient.Result} {casts : List TsServer.Cast} (hd : TsDecides kind x o res casts)
    (hro : TsReadRight t ccfg down o) (hrb : ∀ y ∈ eachCast casts, y.1 = u → TsReadRight t ccfg down (.msg y.2.1 y.2.2)) :
    ∃ count count' cl' sv' newer later, TsAt (run (callEvents u kind body cl.next count sv.next x count') n) u cl' [] [] sv' ∧ Idle cl' ∧
      cl'.sequence = cl.sequence + 1 ∧ TsServer.Stage u true true sv' ∧ cl'.past = newer ++ cl.past ∧ .created cl.next kind body ∈ newer ∧
      .called (cl.next + 1) cl.next ∈ newer ∧ .ended (cl.next + 1) res ∈ newer ∧
      TsHeardOf ccfg.workflow u (eachCast casts) (tsCasts newer) ∧ sv'.past = later ++ sv.past ∧ TsAsked u kind body sv.next later ∧
      (∀ v, .discredited v ∉ later) ∧ ∀ v, v ≠ u → tsPosted takes v later = ((eachCast casts).filter (fun y => y.1 = v)).map (fun y => (0, .msg y.2.1 y.2.2)) := by
  -- the call
  have A0 := h.own 0 rfl (client_create cl kind body) [.created cl.next kind body] rfl
  have A1 := A0.own 0 rfl (client_send sm.toGentle cl kind body hi.pending ho hq)
    [.sent (.call (cl.next + 1) cl.next) cl.sequence (.msg kind.ref body), .called (cl.next + 1) cl.next] rfl
  rw [show ([] : Bytes) ++ packAll up 0 (tsSent [.created cl.next kind body]) ++ packAll up 0 (tsSent
      [.sent (.call (cl.next + 1) cl.next) cl.sequence (.msg kind.ref body), .called (cl.next + 1) cl.next]) =
      up 0 cl.sequence.toUInt32 (.msg kind.ref body) by simp [tsSent, packAll]] at A1
  have hqn : cl.sequence.toUInt32.toNat = cl.sequence := by
    rw [Nat.toUInt32_eq, UInt32.toNat_ofNat']
    exact Nat.mod_eq_of_lt hq
  generalize hqe : cl.sequence.toUInt32 = q at A1 hqn
  have hlook := sentState_lookup cl kind body ho
  -- the server
  obtain ⟨f, m0, l1, b1, b2, b3, b4, b5, b6⟩ := serve_call (opts := opts) sm hinv st hs q
  rw [b1] at A1
  have A2 := A1.toServer sm.taken 0 b2 (l1 ++ [noted u kind body q sv.next, .got u m0 q, .chunk u]) (by rw [b3]; simp)
  have hmid : ∀ a ∈ l1 ++ [noted u kind body q sv.next, .got u m0 q, .chunk u], TsServer.Mild a := by
    intro a ha
    simp only [List.mem_append, List.mem_cons, List.not_mem_nil, or_false] at ha
    rcases ha with ha | rfl | rfl | rfl
    · exact b4 a ha
    · exact noted_mild _ _ _ _ _
    · simp [TsServer.Mild, TsServer.Mute]
    · simp [TsServer.Mild, TsServer.Mute]
  rw [tsPosted_mute u (fun a ha => (hmid a ha).1)] at A2
  simp only [packAll, List.flatMap_nil, List.append_nil] at A2
  generalize TsServer.received cfg env opts u f.bytes sv = r2 at A2 b3 b5 b6
  obtain ⟨e2, s2⟩ := r2
  dsimp only at A2 b3 b5 b6
  have d := decides_step (opts := opts) sm b6 hd
  have A3 := A2.serve sm.taken 0 (e := .own (.settled sv.next x)) (i := .settled sv.next x) rfl (by rw [d]; simp)
    [.send (.answer sv.next) u q o] (by rw [d]; rfl)
  have st3 : TsServer.Stage u true true (TsServer.step cfg env opts (.settled sv.next x) s2).2 := by
    rw [d]; exact b5.of_find rfl
  have t3 : (TsServer.step cfg env opts (.settled sv.next x) s2).2.tasks.lookup sv.next = some ⟨u, q, jobOf kind, .sending casts⟩ := by
    rw [d]
    exact TsServer.wait_lookup (s := s2.push (.send (.answer sv.next) u q o)) b6
  have p3 : (TsServer.step cfg env opts (.settled sv.next x) s2).2.past = .send (.answer sv.next) u q o :: s2.past := by
    rw [d]; rfl
  generalize TsServer.step cfg env opts (.settled sv.next x) s2 = r3 at A3 st3 t3 p3
  obtain ⟨e3, s3⟩ := r3
  dsimp only at A3 st3 t3 p3
  obtain ⟨g1, g2, l4, g3, g4⟩ := sent_step (opts := opts) sm t3 rfl st3
  have A4 := A3.serve sm.taken 0 (e := .own (.settled sv.next (.sent true))) (i := .settled sv.next (.sent true)) rfl g1
    (l4 ++ (TsServer.deliveries sv.next casts).reverse) g3
  generalize TsServer.step cfg env opts (.settled sv.next (.sent true)) s3 = r4 at A4 g1 g2 g3
  obtain ⟨e4, s4⟩ := r4
  dsimp only at A4 g1 g2 g3
  rw [tsPosted_append sm.taken, tsPosted_mute u (fun a ha => (g4 a ha).1), List.append_nil, tsPosted_deliveries sm.taken] at A4
  rw [show tsPosted takes u [.send (.answer sv.next) u q o] = [(q, o)] by simp [tsPosted, sm.taken]] at A4
  have hbytes : ([] : Bytes) ++ packAll down 0 [(q, o)] ++ packAll down 0 (((eachCast casts).filter (fun x => x.1 = u)).map
      (fun x => (0, .msg x.2.1 x.2.2))) = packAll down 0 ((q, o) :: ((eachCast casts).filter (fun x => x.1 = u)).map
      (fun x => (0, .msg x.2.1 x.2.2))) := by
    simp [packAll]
  rw [hbytes] at A4
  -- the client
  obtain ⟨fs, g1', g2', g3'⟩ := tsTravels (t := t) (ccfg := ccfg) (Underway.all (pack := down) 0
    ((q, o) :: ((eachCast casts).filter (fun x => x.1 = u)).map (fun x => (0, .msg x.2.1 x.2.2)))) (by
      intro y hy
      rcases List.mem_cons.1 hy with rfl | hy
      · exact hro
      · obtain ⟨z, hz, rfl⟩ := List.mem_map.1 hy
        obtain ⟨hz, hu⟩ := List.mem_filter.1 hz
        exact hrb z hz (by simpa using hu))
  rw [g2'] at A4
  replace g3' := pairs_terms g3'
  rw [List.map_cons, ← casted_filter] at g3'
  generalize hxs : fs.filterMap (Spec.delivered ccfg.decoder) = xs at g3'
  obtain _ | ⟨⟨e1, e2⟩, g4'⟩ := g3'
  rename_i i xs
  obtain ⟨hd', m⟩ := i
  obtain ⟨more, j1, j2, j3⟩ := onMessages_answered sm.toGentle (t := t.terms) (u := u) (w := .call (cl.next + 1) cl.next)
    (s := { sentState cl kind body with past := .chunk (stream fs) :: (sentState cl kind body).past }) (m := m)
    (by rw [hqn]; rfl) e1 (casted_msg _) g4'
  rw [← hxs] at j3
  have A5 := A4.toClient 0 g1' hi.reader j3 (more ++ [.delivered (.call (cl.next + 1) cl.next) q m, .got q m, .chunk (stream fs)])
    (by simp)
  rw [show tsSent (more ++ [.delivered (.call (cl.next + 1) cl.next) q m, .got q m, .chunk (stream fs)]) = [] by
    rw [tsSent_append, j1]; rfl] at A5
  have A6 := A5.own 0 rfl (client_answer (n := cl.next + 1) (o := cl.next) (r := res)
    (by show (sentState cl kind body).tasks ++ _ = _; rw [show (sentState cl kind body).tasks = [] from hi.tasks]; rfl)
    hlook (fun s' hs' => ts_concluded hs hd (sameDown_iff.2 e2) hs')) [.ended (cl.next + 1) res] rfl
  simp only [tsSent, packAll, List.flatMap_nil, List.append_nil] at A6
  refine ⟨f.bytes.length, (stream fs).length, _, _, .ended (cl.next + 1) res :: more ++
      [.delivered (.call (cl.next + 1) cl.next) q m, .got q m, .chunk (stream fs),
      .sent (.call (cl.next + 1) cl.next) cl.sequence (.msg kind.ref body), .called (cl.next + 1) cl.next, .created cl.next kind body],
    (l4 ++ (TsServer.deliveries sv.next casts).reverse) ++ ([.send (.answer sv.next) u q o] ++
      (l1 ++ [noted u kind body q sv.next, .got u m0 q, .chunk u])),
    A6, ⟨rfl, rfl, rfl⟩, rfl, g2, ?_, by simp, by simp, by simp, ?_, ?_, ?_, ?_, ?_⟩
  · simp [sentState]
  · rw [List.cons_append, tsCasts, tsCasts_append]
    · exact heard_casted j2
    · intro _ _ e; cases e
  · rw [g3, p3, b3]; simp
  · refine ⟨q, ?_⟩
    cases kind <;> simp [noted]
  · intro v hv
    simp only [List.mem_append, List.mem_reverse] at hv
    rcases hv with (hv | hv) | hv | hv
    · exact (g4 _ hv).2 v rfl
    · exact not_delivered hv
    · simp at hv
    · exact (hmid _ (by simpa using hv)).2 v rfl
  · intro v hv
    rw [tsPosted_append sm.taken, tsPosted_append sm.taken v [.send (.answer sv.next) u q o], tsPosted_mute v (fun a ha => (hmid a ha).1),
      tsPosted_append sm.taken, tsPosted_mute v (fun a ha => (g4 a ha).1), tsPosted_deliveries sm.taken]
    simp [tsPosted, Ne.symm hv]

/-! ### Quiet moments -/

section
variable {n : Net (tsServer cfg env opts takes down) (tsClient ccfg cenv up)} {u : Uuid}

theorem TsEstablished.pieces (h : TsEstablished n u) :
    ∃ cl, TsAt n u cl [] [] n.server.2 ∧ Idle cl ∧ TsServer.Stage u true true n.server.2 := by
  obtain ⟨⟨⟨b, cl⟩, ub, db, gu, gd⟩, h1, h2, h3, h4, h5⟩ := h.conn
  obtain ⟨c, k1, k2, k3, k4, k5⟩ := h.server
  cases (show b = false from h2)
  cases (show ub = [] from h4)
  cases (show db = [] from h5)
  exact ⟨cl, ⟨Prod.ext h.running rfl, _, _, h1⟩, h3, c, k1, k2, k3, fun _ => k5, k4⟩

theorem TsAt.established {cl : TsClient.State} {sv : TsServer.State} (h : TsAt n u cl [] [] sv) (hi : Idle cl)
    (st : TsServer.Stage u true true sv) : TsEstablished n u := by
  obtain ⟨c, k1, k2, k3, k4, k5⟩ := st
  obtain ⟨gu, gd, hc⟩ := h.conn
  have hs : n.server.2 = sv := by rw [h.server]
  subst hs
  exact ⟨by rw [h.server], ⟨_, hc, rfl, hi, rfl, rfl⟩, c, k1, k2, k3, k5, k4 rfl⟩

/-- A call is answered. -/
theorem ts_answered (sm : TsSmooth cfg env takes ccfg cenv) {t : TsTerms} {es0 : List (ServerEvent TsServer.Input)} (hinv : InvWith n es0)
    (h : TsEstablished n u) (hq : ∀ c, n.find u = some c → c.client.2.sequence < 4294967296)
    {kind : TsClient.Kind} {body : TsServer.Js} (hs : TsServable t cfg up kind body)
    {x : TsServer.Settled} {o : TsServer.Out} {res : TsClient.Result} {casts : List TsServer.Cast} (hd : TsDecides kind x o res casts)
    (hro : TsReadRight t ccfg down o) (hrb : ∀ y ∈ eachCast casts, y.1 = u → TsReadRight t ccfg down (.msg y.2.1 y.2.2)) :
    ∃ obj count count' heard later,
      let n' : Net (tsServer cfg env opts takes down) (tsClient ccfg cenv up) :=
        run (callEvents u kind body obj count n.server.2.next x count') n
      TsEstablished n' u ∧ TsReturned n n' u kind body res heard ∧ TsHeardOf ccfg.workflow u (eachCast casts) heard ∧
      (∀ c c', n.find u = some c → n'.find u = some c' → c'.client.2.sequence = c.client.2.sequence + 1) ∧
      n'.server.2.past = later ++ n.server.2.past ∧ TsAsked u kind body n.server.2.next later ∧
      (∀ v, .discredited v ∉ later) ∧ ∀ v, v ≠ u → tsPosted takes v later = ((eachCast casts).filter (fun y => y.1 = v)).map (fun y => (0, .msg y.2.1 y.2.2)) := by
  obtain ⟨cl, A, hi, st⟩ := h.pieces
  obtain ⟨gu, gd, hc⟩ := A.conn
  have hsv : TsServer.Inv cfg none none n.server.2 := by rw [hinv.server]; exact (tsKnown_run es0).inv
  obtain ⟨count, count', cl', sv', newer, later, k1, k2, k3, k4, k5, k6, k7, k8, k9, k10, k11, k12, k13⟩ :=
    ts_round sm A hi (hq _ hc) (ts_objs_next hinv hc) hsv st hs hd hro hrb
  obtain ⟨gu', gd', hc'⟩ := k1.conn
  refine ⟨cl.next, count, count', tsCasts newer, later, k1.established k2 k4, ⟨_, _, newer, _, _, hc, hc', k5, k6, k7, k8, rfl⟩, k9, ?_, ?_,
    k11, k12, k13⟩
  · intro c c' j j'
    rw [hc] at j
    rw [hc'] at j'
    injection j with j
    injection j' with j'
    subst j j'
    exact k3
  · rw [k1.server]; exact k10

end

/-! ### Broadcasts -/

section
variable {n : Net (tsServer cfg env opts takes down) (tsClient ccfg cenv up)} {u : Uuid}

/-- Broadcasts that are under way reach user code of a client. -/
theorem ts_catches_up (sm : TsSmooth cfg env takes ccfg cenv) {t : TsTerms} {cl : TsClient.State} {sv : TsServer.State} {db : Bytes}
    (h : TsAt n u cl [] db sv) (hi : Idle cl) {xs : List (Flow.Ref × TsServer.Js)}
    (hrd : ∀ x ∈ xs, TsReadRight t ccfg down (.msg x.1 x.2)) (hd : Underway down (xs.map (fun x => (0, .msg x.1 x.2))) db) :
    ∃ k cl' newer, TsAt (run [(0, .toClient u k)] n) u cl' [] [] sv ∧ Idle cl' ∧ cl'.past = newer ++ cl.past ∧
      cl'.sequence = cl.sequence ∧ TsHeardOf ccfg.workflow u (xs.map (fun x => (u, x))) (tsCasts newer) := by
  obtain ⟨fs, g1, rfl, g3⟩ := tsTravels (t := t) (ccfg := ccfg) hd (by
    intro y hy
    obtain ⟨x, hx, rfl⟩ := List.mem_map.1 hy
    exact hrd x hx)
  replace g3 := pairs_terms g3
  generalize hxs : fs.filterMap (Spec.delivered ccfg.decoder) = ys at g3
  have hL2 : (xs.map (fun x => ((0 : UInt32), TsServer.Out.msg x.1 x.2))).map (fun x => (x.1, toOut x.2)) =
      ((casted (xs.map (fun x => (u, x)))).filter (fun x => x.1 = u)).map (fun x => ((0 : UInt32), x.2)) := by
    rw [casted_filter]
    congr 1
    clear g3 hd hrd
    induction xs with
    | nil => rfl
    | cons x xs ih =>
      rw [List.map_cons, List.map_cons, List.filter_cons_of_pos (by simp), List.map_cons, ← ih]
  rw [hL2] at g3
  obtain ⟨more, j1, j2, j3⟩ := offered sm.toGentle (t := t.terms) u [] [] (casted (xs.map (fun x => (u, x)))) ys
    { cl with past := .chunk (stream fs) :: cl.past } (casted_msg _) g3 (by show cl.pending.lookup 0 = none; rw [hi.pending]; rfl)
  rw [List.append_nil, ← hxs] at j3
  have A := h.toClient 0 g1 hi.reader j3 (more ++ [.chunk (stream fs)]) (by simp [TsClient.onMessages])
  rw [show tsSent (more ++ [.chunk (stream fs)]) = [] by rw [tsSent_append, j1]; rfl] at A
  simp only [packAll, List.flatMap_nil, List.append_nil] at A
  refine ⟨_, _, more ++ [.chunk (stream fs)], A, ⟨?_, ?_, ?_⟩, ?_, ?_, ?_⟩
  · rfl
  · exact hi.pending
  · exact hi.tasks
  · simp [TsClient.onMessages]
  · rfl
  · rw [tsCasts_append]; exact heard_casted j2

/-- A client whose data the server does not get. -/
theorem stage_aside {key hash : Bool} {i : TsServer.Input} {s : TsServer.State} (st : TsServer.Stage u key hash s) (hi : i.client ≠ some u)
    {l : List TsServer.Act} (hl : (TsServer.step cfg env opts i s).2.past = l ++ s.past) (hd : .discredited u ∉ l) :
    TsServer.Stage u key hash (TsServer.step cfg env opts i s).2 := by
  obtain ⟨l', hf⟩ := TsServer.frames_step (cfg := cfg) (env := env) (opts := opts) i s
  obtain rfl : l' = l := List.append_cancel_right (hf.past.symm.trans hl)
  obtain ⟨c, hc, h1, h2, h3, h4⟩ := st
  obtain ⟨d, hd', e⟩ := hf.still u hi c hc
  refine ⟨d, hd', e.reader.trans h1, ?_, fun k => e.key (h3 k), e.hash.trans h4⟩
  rw [e.discredited, h2]
  exact hd

theorem ts_serve_elsewhere (ht : ∀ h u q o, takes h u q o = true) {c : Conn (tsClient ccfg cenv up)} (ts : UInt64)
    {e : ServerEvent TsServer.Input} (he : ∀ i, tsInput e = some i → i.client ≠ some u) (hc : n.find u = some c) :
    ∃ l b, (n.serve ts e).server.2.past = l ++ n.server.2.past ∧ (n.serve ts e).find u = some { c with down := c.down ++ b } ∧
      Underway down (tsPosted takes u l) b ∧
      (TsServer.Stage u true true n.server.2 → .discredited u ∉ l → TsServer.Stage u true true (n.serve ts e).server.2) := by
  have key : ∃ l, ((tsServer cfg env opts takes down).step e n.server).2.past = l ++ n.server.2.past ∧
      (TsServer.Stage u true true n.server.2 → .discredited u ∉ l →
        TsServer.Stage u true true ((tsServer cfg env opts takes down).step e n.server).2) := by
    rcases tsServer_step (cfg := cfg) (env := env) (opts := opts) (takes := takes) (pack := down) e n.server with ⟨k, _⟩ | ⟨i, k1, _, k2⟩
    · rw [k]; exact ⟨[], rfl, fun st _ => st⟩
    · rw [k2, (ts_run_one i n.server.2).1]
      obtain ⟨l, hf⟩ := TsServer.frames_step (cfg := cfg) (env := env) (opts := opts) i n.server.2
      exact ⟨l, hf.past, fun st hd => stage_aside st (he i k1) hf.past hd⟩
  obtain ⟨l, hl, hst⟩ := key
  refine ⟨l, packAll down ts (tsPosted takes u l), hl, ?_, .all ts _, hst⟩
  rw [find_serve, hc]
  show some ({ c with down := c.down ++ packAll down ts (sendsTo u ((tsServerSent takes _).drop _)) } : Conn (tsClient ccfg cenv up)) = _
  rw [tsServerSent_drop ht hl, sendsTo_tsServerSent]

/-- What happens elsewhere leaves a client alone, but for messages of the server. -/
theorem ts_elsewhere (ht : ∀ h u q o, takes h u q o = true) :
    ∀ (es : List (UInt64 × Event (tsServer cfg env opts takes down) (tsClient ccfg cenv up))),
    (∀ e ∈ es, Elsewhere u e.2) → ∀ {n : Net (tsServer cfg env opts takes down) (tsClient ccfg cenv up)} {c : Conn (tsClient ccfg cenv up)},
    n.find u = some c →
    ∃ l b, (run es n).server.2.past = l ++ n.server.2.past ∧ (run es n).find u = some { c with down := c.down ++ b } ∧
      Underway down (tsPosted takes u l) b ∧
      (TsServer.Stage u true true n.server.2 → .discredited u ∉ l → TsServer.Stage u true true (run es n).server.2)
  | [], _, n, c, hc => ⟨[], [], rfl, by simpa [run] using hc, .nil, fun st _ => st⟩
  | (ts, e) :: es, he, n, c, hc => by
    have one : ∃ l b, (step n (ts, e)).server.2.past = l ++ n.server.2.past ∧
        (step n (ts, e)).find u = some { c with down := c.down ++ b } ∧ Underway down (tsPosted takes u l) b ∧
        (TsServer.Stage u true true n.server.2 → .discredited u ∉ l → TsServer.Stage u true true (step n (ts, e)).server.2) := by
      have none' : ∃ l b, n.server.2.past = l ++ n.server.2.past ∧ n.find u = some { c with down := c.down ++ b } ∧
          Underway down (tsPosted takes u l) b ∧
          (TsServer.Stage u true true n.server.2 → .discredited u ∉ l → TsServer.Stage u true true n.server.2) :=
        ⟨[], [], rfl, by simpa using hc, .nil, fun st _ => st⟩
      have hv := he _ List.mem_cons_self
      cases e with
      | opened v =>
        simp only [step]
        split
        · rename_i hx
          simp only [Bool.and_eq_true, Option.isNone_iff_eq_none] at hx
          refine ts_serve_elsewhere ht ts (fun i hi => ?_) ?_
          · cases hi
            intro h
            injection h with h
            exact hv h
          · rw [find_snoc hx.1, if_neg (Ne.symm hv)]
            exact hc
        · exact none'
      | lost v =>
        refine ts_serve_elsewhere ht ts (fun i hi => ?_) hc
        cases hi
        intro h
        injection h with h
        exact hv h
      | toServer v k =>
        simp only [step]
        split
        · refine ts_serve_elsewhere ht ts (fun i hi => ?_) ?_
          · cases hi
            intro h
            injection h with h
            exact hv h
          · rw [find_set_other (Ne.symm hv), hc]
        · exact none'
      | toClient v k =>
        simp only [step]
        split
        · split
          · refine ⟨[], [], rfl, ?_, .nil, fun st _ => st⟩
            rw [find_set_other (Ne.symm hv), hc, List.append_nil]
          · exact none'
        · exact none'
      | server i =>
        refine ts_serve_elsewhere ht ts (fun j hj => ?_) hc
        cases i <;> cases hj <;> exact fun h => nomatch h
      | client v i =>
        simp only [step]
        split
        · refine ⟨[], [], rfl, ?_, .nil, fun st _ => st⟩
          rw [find_set_other (Ne.symm hv), hc, List.append_nil]
        · exact none'
    obtain ⟨l, b, h1, h2, h3, h4⟩ := one
    obtain ⟨l', b', k1, k2, k3, k4⟩ := ts_elsewhere ht es (fun e h => he e (List.mem_cons_of_mem _ h)) h2
    refine ⟨l' ++ l, b ++ b', ?_, ?_, ?_, fun st hd => ?_⟩
    · show (run es (step n (ts, e))).server.2.past = _
      rw [k1, h1, List.append_assoc]
    · show (run es (step n (ts, e))).find u = _
      rw [k2]
      simp
    · rw [tsPosted_append ht]
      exact h3.append k3
    · exact k4 (h4 st (fun k => hd (List.mem_append_right _ k))) (fun k => hd (List.mem_append_left _ k))

/-- A quiet client gets what was sent to it while other things happened. -/
theorem ts_overheard (sm : TsSmooth cfg env takes ccfg cenv) {t : TsTerms} (h : TsEstablished n u)
    {es : List (UInt64 × Event (tsServer cfg env opts takes down) (tsClient ccfg cenv up))} (hes : ∀ e ∈ es, Elsewhere u e.2)
    (hrun : (run es n).server.1 = false) {later : List TsServer.Act}
    (hl : (run es n).server.2.past = later ++ n.server.2.past) (hdis : .discredited u ∉ later)
    {xs : List (Flow.Ref × TsServer.Js)} (hb : tsPosted takes u later = xs.map (fun x => (0, .msg x.1 x.2)))
    (hrd : ∀ x ∈ xs, TsReadRight t ccfg down (.msg x.1 x.2)) :
    ∃ k c c' newer, let n' : Net (tsServer cfg env opts takes down) (tsClient ccfg cenv up) := run (es ++ [(0, .toClient u k)]) n
      TsEstablished n' u ∧ n.find u = some c ∧ n'.find u = some c' ∧ c'.client.2.past = newer ++ c.client.2.past ∧
      c'.client.2.sequence = c.client.2.sequence ∧ TsHeardOf ccfg.workflow u (xs.map (fun x => (u, x))) (tsCasts newer) := by
  obtain ⟨cl, A, hi, st⟩ := h.pieces
  obtain ⟨gu, gd, hc⟩ := A.conn
  obtain ⟨l, b, k1, k2, k3, k4⟩ := ts_elsewhere sm.taken es hes hc
  have : l = later := List.append_cancel_right (k1.symm.trans hl)
  subst this
  have A1 : TsAt (run es n) u cl [] b (run es n).server.2 := ⟨Prod.ext hrun rfl, gu, gd, by simpa using k2⟩
  rw [hb] at k3
  obtain ⟨k, cl', newer, p2, p3, p4, p5, p6⟩ := ts_catches_up sm A1 hi hrd k3
  rw [← run_append] at p2
  obtain ⟨gu', gd', hc'⟩ := p2.conn
  exact ⟨k, _, _, newer, p2.established p3 (k4 st hdis), hc, hc', p4, p5, p6⟩

/-- The broadcasts of an event are sent. -/
theorem ts_event (sm : TsSmooth cfg env takes ccfg cenv) {es0 : List (ServerEvent TsServer.Input)} (hinv : InvWith n es0)
    (h : TsEstablished n u) {e : Flow.Event} (he : e ∈ cfg.workflow.events) {ref : Flow.Ref} (href : e.reference = some ref)
    (hdef : ref ≠ "connected".toList ∧ ref ≠ "disconnected".toList)
    (huniq : ∀ e' ∈ cfg.workflow.events, e'.reference = some ref → e' = e) {casts : List TsServer.Cast} (hg : TsGives e casts) :
    ∃ later,
      let n' : Net (tsServer cfg env opts takes down) (tsClient ccfg cenv up) :=
        run [(0, .server (.event ref)), (0, .server (.settled n.server.2.next (.output (giving casts))))] n
      n'.server.1 = false ∧ n'.server.2.past = later ++ n.server.2.past ∧ .event n.server.2.next ref ∈ later ∧ (∀ v, .discredited v ∉ later) ∧
      ∀ v, tsPosted takes v later = ((eachCast casts).filter (fun y => y.1 = v)).map (fun y => (0, .msg y.2.1 y.2.2)) := by
  obtain ⟨cl, A, hi, st⟩ := h.pieces
  have hsv : TsServer.Inv cfg none none n.server.2 := by rw [hinv.server]; exact (tsKnown_run es0).inv
  generalize hsve : n.server.2 = sv at A st hsv
  have hd : Flow.isDefaultEvent ref = false := by
    simp only [Flow.isDefaultEvent, Bool.or_eq_false_iff, decide_eq_false_iff_not]
    exact hdef
  have hf : cfg.workflow.events.find? (fun e => e.reference = some ref && !Flow.isDefaultEvent ref) = some e := by
    cases hq : cfg.workflow.events.find? (fun e => e.reference = some ref && !Flow.isDefaultEvent ref) with
    | none =>
      have := List.find?_eq_none.1 hq e he
      rw [href, hd] at this
      simp at this
    | some r =>
      have := List.find?_some hq
      simp only [Bool.and_eq_true, decide_eq_true_eq] at this
      rw [huniq r (List.mem_of_find?_eq_some hq) this.1]
  have e1 : TsServer.step cfg env opts (.event ref) sv = (.next, TsServer.enter cfg env (.event sv.next ref)
      { sv with next := sv.next + 1, tasks := sv.tasks ++ [(sv.next, ⟨0, 0, .event e, .user⟩)] }) := by
    simp only [TsServer.step]
    rw [hf]
    simp only [TsServer.emitEvent, sm.quiet, href, Option.getD_some, Bool.false_eq_true, if_false]
  obtain ⟨l1, p1, m1⟩ := TsServer.enter_mild (cfg := cfg) sm.kept (.event sv.next ref)
    { sv with next := sv.next + 1, tasks := sv.tasks ++ [(sv.next, ⟨0, 0, .event e, .user⟩)] }
  have st1 : TsServer.Stage u true true (TsServer.step cfg env opts (.event ref) sv).2 := by
    rw [e1]
    refine TsServer.Stage.enter ?_ sm.kept _
    exact st.of_find rfl
  have t1 : (TsServer.step cfg env opts (.event ref) sv).2.tasks.lookup sv.next = some ⟨0, 0, .event e, .user⟩ := by
    rw [e1, TsServer.enter_tasks]
    have : sv.tasks.lookup sv.next = none := by
      cases e : sv.tasks.lookup sv.next with
      | none => rfl
      | some x => exact absurd (hsv.ids _ (TsServer.lookup_mem e)) (Nat.lt_irrefl _)
    show (sv.tasks ++ [(sv.next, _)]).lookup sv.next = _
    rw [TsServer.lookup_append_new _ _ _ _ this, if_pos rfl]
  have q1 : (TsServer.step cfg env opts (.event ref) sv).2.past = (l1 ++ [.event sv.next ref]) ++ sv.past := by
    rw [e1]
    exact p1.trans (by simp)
  have A1 := A.serve sm.taken 0 (e := .own (.event ref)) (i := .event ref) rfl (by rw [e1]; simp) (l1 ++ [.event sv.next ref]) q1
  replace A1 : TsAt (run [(0, .server (.event ref))] n) u cl [] _ _ := A1
  generalize TsServer.step cfg env opts (.event ref) sv = r1 at A1 st1 t1 q1
  obtain ⟨d1, s1⟩ := r1
  dsimp only at A1 st1 t1 q1
  have e2 : TsServer.step cfg env opts (.settled sv.next (.output (giving casts))) s1 =
      TsServer.broadcastAll cfg env opts sv.next ⟨0, 0, .event e, .user⟩ casts s1 := by
    show (match s1.tasks.lookup sv.next with
      | some task => TsServer.resume cfg env opts sv.next task (.output (giving casts)) s1 | none => (.next, s1)) = _
    rw [t1]
    show (match TsServer.collect (TsServer.eventMethods e) [] (giving casts) [] with
      | none => TsServer.fail cfg env opts sv.next _
      | some casts => if TsServer.covers e.broadcasts casts then TsServer.broadcastAll cfg env opts sv.next _ casts
        else TsServer.fail cfg env opts sv.next _ : TsServer.Proc) s1 = _
    have := TsServer.collect_all (methods := TsServer.eventMethods e) (resp := []) (only := none) (.inl rfl)
      (by
        have := hg.names
        simpa [TsServer.eventMethods, TsServer.plain, List.map_map, Function.comp_def] using this) casts []
      (fun x hx => by
        obtain ⟨b, b1, b2⟩ := hg.allowed x hx
        exact List.mem_map.2 ⟨b, b1, by rw [b2]⟩) hg.once
    rw [show TsServer.collect (TsServer.eventMethods e) [] (giving casts) [] = some ([] ++ casts) from this]
    dsimp only
    rw [List.nil_append, if_pos (TsServer.covers_iff.2 (fun r hr => hg.required _ hr rfl))]
  obtain ⟨st2, l2, p2, m2⟩ := TsServer.broadcast_step (cfg := cfg) (opts := opts) (t := sv.next) (task := ⟨0, 0, .event e, .user⟩)
    (casts := casts) sm.kept sm.quiet sm.answer st1
  rw [← e2] at p2 st2
  have A2 := A1.serve sm.taken 0 (e := .own (.settled sv.next (.output (giving casts)))) (i := .settled sv.next (.output (giving casts))) rfl
    (fun h => by obtain ⟨_, _, _, h, _⟩ := TsServer.step_hung.1 h; cases h) (l2 ++ (TsServer.deliveries sv.next casts).reverse) p2
  replace A2 : TsAt (run [(0, .server (.event ref)), (0, .server (.settled sv.next (.output (giving casts))))] n) u cl [] _ _ := A2
  refine ⟨(l2 ++ (TsServer.deliveries sv.next casts).reverse) ++ (l1 ++ [.event sv.next ref]), ?_, ?_, ?_, ?_, ?_⟩
  · rw [A2.server]
  · rw [A2.server, p2, q1]; simp
  · simp
  · intro v hv
    simp only [List.mem_append, List.mem_reverse] at hv
    rcases hv with (hv | hv) | hv | hv
    · exact (m2 _ hv).2 v rfl
    · exact not_delivered hv
    · exact (m1 _ hv).2 v rfl
    · simp at hv
  · intro v
    have hm : ∀ a ∈ l1 ++ [TsServer.Act.event sv.next ref], TsServer.Mute a := by
      intro a ha
      rcases List.mem_append.1 ha with ha | ha
      · exact (m1 a ha).1
      · rw [List.mem_singleton.1 ha]
        simp [TsServer.Mute]
    rw [tsPosted_append sm.taken, tsPosted_mute v hm, tsPosted_append sm.taken, tsPosted_mute v (fun a ha => (m2 a ha).1),
      tsPosted_deliveries sm.taken]
    simp

end

end Verif.Network
