import Verif.Spec.NetworkTsLive
import Verif.Proofs.NetworkTsRustMore
import Verif.Proofs.SystemConnect
import Verif.Proofs.TsClientMore
import Verif.Proofs.TsServerServe
set_option autoImplicit false
/-!
A schedule for a connection between a TypeScript client and a Rust server: how both go on when everything
takes its regular course.
-/
namespace Verif.Network

open Verif Verif.Spec

variable {P : Type} {cfg : Server.Cfg P} {env : Server.Env P} {opts : Server.Options}
  {down : UInt64 → UInt32 → Server.Out P → Bytes} {ccfg : TsClient.Cfg} {cenv : TsClient.Env}
  {up : UInt64 → UInt32 → TsClient.Out → Bytes}

/-! ### The client -/

theorem tsCasts_append (a b : List TsClient.Act) : tsCasts (a ++ b) = tsCasts b ++ tsCasts a := by
  induction a with
  | nil => simp [tsCasts]
  | cons x a ih =>
    cases x with
    | emitted e => cases e <;> simp [tsCasts, ih]
    | _ => simp [tsCasts, ih]

theorem enter_quiet (sm : Gentle ccfg cenv) (a : TsClient.Act) (s : TsClient.State) :
    TsClient.enter ccfg cenv a s = s.push a := by
  unfold TsClient.enter
  rw [sm.during]
  rfl

theorem request_quiet (sm : Gentle ccfg cenv) (w : TsClient.Waiter) {q : Nat} (o : TsClient.Out) {s : TsClient.State}
    (hq : q < 4294967296) (hp : s.pending = []) :
    TsClient.request ccfg cenv w q o s = { s with pending := [(q, w)], past := .sent w q o :: s.past } := by
  unfold TsClient.request
  rw [if_pos ⟨sm.call o, hq⟩, hp, if_neg (by simp), if_pos (sm.sends _ _)]
  rfl

/-- A message nobody waits for. -/
theorem offer_quiet (sm : Gentle ccfg cenv) (q : UInt32) (m : TsClient.Msg) (s : TsClient.State) :
    ∃ a, TsClient.offer ccfg cenv q m s = (false, s.push a) ∧ tsSent [a] = [] ∧
      (∀ ref, TsServer.Spells m.path ref → TsClient.Broadcasts ccfg.workflow ref → tsCasts [a] = [(ref, m.body)]) ∧
      ((∀ ref, TsServer.Spells m.path ref → ¬ TsClient.Broadcasts ccfg.workflow ref) → tsCasts [a] = []) := by
  unfold TsClient.offer
  cases hf : ccfg.broadcasts.find? (fun ref => decide (Flow.splitDot ref = m.path)) with
  | none =>
    refine ⟨_, rfl, rfl, fun ref h1 h2 => ?_, fun _ => rfl⟩
    have := List.find?_eq_none.1 hf ref ((TsClient.mem_broadcasts ccfg ref).2 h2)
    exact absurd (TsServer.spells_unique h1).symm (by simpa using this)
  | some r =>
    have h2 : Flow.splitDot r = m.path := by simpa using List.find?_some hf
    have h3 : TsServer.Spells m.path r := h2 ▸ TsServer.spells_splitDot r
    have h4 := (TsClient.mem_broadcasts ccfg r).1 (List.mem_of_find?_eq_some hf)
    refine ⟨.emitted (.broadcast r m.body), ?_, rfl, fun ref h1 _ => ?_, fun h => absurd h4 (h r h3)⟩
    · unfold TsClient.callUser
      dsimp only
      rw [sm.throws, enter_quiet sm]
    · rw [spells_ref h1 h3]; rfl

theorem onMessage_offered (sm : Gentle ccfg cenv) (x : Rust.Income TsClient.Msg) (s : TsClient.State)
    (hq : x.header.sequence = 0) (hp : s.pending.lookup 0 = none) :
    ∃ a, TsClient.onMessage ccfg cenv x s = (false, { s with past := a :: .got 0 x.msg :: s.past }) ∧ tsSent [a] = [] ∧
      (∀ ref, TsServer.Spells x.msg.path ref → TsClient.Broadcasts ccfg.workflow ref → tsCasts [a] = [(ref, x.msg.body)]) ∧
      ((∀ ref, TsServer.Spells x.msg.path ref → ¬ TsClient.Broadcasts ccfg.workflow ref) → tsCasts [a] = []) := by
  obtain ⟨a, h1, h2⟩ := offer_quiet sm 0 x.msg (s.push (.got 0 x.msg))
  refine ⟨a, ?_, h2⟩
  unfold TsClient.onMessage
  dsimp only
  rw [hq, show (s.push (.got 0 x.msg)).pending.lookup (UInt32.toNat 0) = none from hp]
  exact h1

/-- Broadcasts reach user code. -/
theorem offered (sm : Gentle ccfg cenv) {t : Terms P} (u : Uuid) (b : Bytes) (ys : List (Rust.Income TsClient.Msg)) :
    ∀ (bl : List (Uuid × Server.Out P)) (xs : List (Rust.Income TsClient.Msg)) (s : TsClient.State),
    (∀ x ∈ bl, ∃ ref p, x.2 = .msg ref p) →
    System.Pairs (fun x (i : Rust.Income TsClient.Msg) => i.header.sequence = x.1 ∧ SameDown t x.2 i.msg)
      ((bl.filter (fun x => x.1 = u)).map (fun x => ((0 : UInt32), x.2))) xs →
    s.pending.lookup 0 = none →
    ∃ more, tsSent more = [] ∧ Heard t ccfg.workflow u bl (tsCasts more) ∧
      TsClient.onMessages ccfg cenv (xs ++ ys) { s with reader := ⟨b, xs ++ ys⟩ } =
        TsClient.onMessages ccfg cenv ys { s with reader := ⟨b, ys⟩, past := more ++ s.past }
  | [], xs, s, _, h, hp => by cases h; exact ⟨[], rfl, .nil, rfl⟩
  | (v, o) :: bl, xs, s, hb, h, hp => by
    obtain ⟨ref, p, ho⟩ := hb _ List.mem_cons_self
    cases (show o = _ from ho)
    have hb' : ∀ x ∈ bl, ∃ ref p, x.2 = .msg ref p := fun x hx => hb x (List.mem_cons_of_mem _ hx)
    by_cases hv : v = u
    · subst hv
      rw [List.filter_cons_of_pos (by simp), List.map_cons] at h
      obtain _ | ⟨⟨e1, e2⟩, h⟩ := h
      rename_i x xs
      obtain ⟨a, k1, k2, k3, k4⟩ := onMessage_offered sm x { s with reader := ⟨b, xs ++ ys⟩ } e1 hp
      obtain ⟨more, g1, g2, g3⟩ := offered sm v b ys bl xs { s with past := a :: .got 0 x.msg :: s.past } hb' h hp
      obtain ⟨e2, e3⟩ := e2
      refine ⟨more ++ [a, .got 0 x.msg], ?_, ?_, ?_⟩
      · rw [tsSent_append, g1, show [a, .got 0 x.msg] = [a] ++ [.got 0 x.msg] from rfl, tsSent_append, k2]; rfl
      · rw [tsCasts_append, show [a, .got 0 x.msg] = [a] ++ [.got 0 x.msg] from rfl, tsCasts_append]
        show Heard _ _ _ _ (([] ++ tsCasts [a]) ++ _)
        rw [List.nil_append]
        by_cases hr : TsClient.Broadcasts ccfg.workflow ref
        · rw [k3 ref e2 hr]
          exact .known hr e3 g2
        · rw [k4 (fun r h1 h2 => hr (spells_ref h1 e2 ▸ h2)), List.nil_append]
          exact .unknown hr g2
      · rw [List.cons_append, TsClient.onMessages]
        show (match TsClient.onMessage ccfg cenv x { s with reader := ⟨b, xs ++ ys⟩ } with | (true, s) => s | (false, s) => _) = _
        rw [k1]
        dsimp only
        rw [List.append_assoc]
        exact g3
    · rw [List.filter_cons_of_neg (by simpa using hv)] at h
      obtain ⟨more, g1, g2, g3⟩ := offered sm u b ys bl xs s hb' h hp
      exact ⟨more, g1, .other hv g2, g3⟩

/-- All that is read. -/
theorem received_stream {fs : List Frame} (h : ∀ f ∈ fs, Good ccfg.decoder f) {s : TsClient.State} (hr : s.reader = ⟨[], []⟩) :
    TsClient.received ccfg cenv (stream fs) s = some (TsClient.onMessages ccfg cenv (fs.filterMap (Spec.delivered ccfg.decoder))
      { s with reader := ⟨[], fs.filterMap (Spec.delivered ccfg.decoder)⟩, past := .chunk (stream fs) :: s.past }) := by
  have hc := Ts.chunk_returns ccfg.decoder s.reader (stream fs) fs (fun f hf => .inl (h f hf)) [] (by simp) TsServer.noFrame_nil
    (by rw [hr]; simp)
  rw [Ts.bodyErrors_good ccfg.decoder fs h, hr] at hc
  unfold TsClient.received
  dsimp only
  rw [show (s.push (.chunk (stream fs))).reader = ⟨[], []⟩ from hr, (TsServer.readChunk_iff _ _ _ _ _).2 hc]
  simp [TsClient.State.push]

/-- The answer a client waits for, and broadcasts. -/
theorem onMessages_answered (sm : Gentle ccfg cenv) {t : Terms P} {u : Uuid} {s : TsClient.State} {w : TsClient.Waiter}
    {q : UInt32} {hd : Rust.Header} {m : TsClient.Msg} {xs : List (Rust.Income TsClient.Msg)} {bl : List (Uuid × Server.Out P)}
    (hp : s.pending = [(q.toNat, w)]) (hq : hd.sequence = q) (hb : ∀ x ∈ bl, ∃ ref p, x.2 = .msg ref p)
    (h : System.Pairs (fun x (i : Rust.Income TsClient.Msg) => i.header.sequence = x.1 ∧ SameDown t x.2 i.msg)
      ((bl.filter (fun x => x.1 = u)).map (fun x => ((0 : UInt32), x.2))) xs) :
    ∃ more, tsSent more = [] ∧ Heard t ccfg.workflow u bl (tsCasts more) ∧
      TsClient.onMessages ccfg cenv (⟨hd, m⟩ :: xs) { s with reader := ⟨[], ⟨hd, m⟩ :: xs⟩ } =
        { s with reader := ⟨[], []⟩, pending := [], tasks := s.tasks ++ [.answered w m],
                 past := more ++ .delivered w q m :: .got q m :: s.past } := by
  obtain ⟨more, g1, g2, g3⟩ := offered sm u [] [] bl xs
    { s with pending := [], tasks := s.tasks ++ [.answered w m], past := .delivered w q m :: .got q m :: s.past } hb h rfl
  refine ⟨more, g1, g2, ?_⟩
  rw [TsClient.onMessages]
  unfold TsClient.onMessage
  dsimp only
  rw [hq, show (({ s with reader := ⟨[], xs⟩ } : TsClient.State).push (.got q m)).pending.lookup q.toNat = some w by
    show s.pending.lookup q.toNat = _; rw [hp]; simp]
  rw [List.append_nil] at g3
  rw [TsClient.onMessages] at g3
  rw [← g3]
  dsimp only
  congr 1
  simp [TsClient.State.push, TsClient.State.later, hp]

/-! ### The connection -/

/-- The connection of `u` while the server runs. -/
structure At (n : Net (rustServer cfg env opts down) (tsClient ccfg cenv up)) (u : Uuid) (cl : TsClient.State) (ub db : Bytes)
    (sv : Server.State P) : Prop where
  server : n.server = (.running, sv)
  conn : ∃ gu gd, n.find u = some ⟨(false, cl), ub, db, gu, gd⟩

section
variable {n : Net (rustServer cfg env opts down) (tsClient ccfg cenv up)} {u : Uuid} {cl : TsClient.State} {ub db : Bytes}
  {sv : Server.State P}

theorem run_append {S : ServerProg} {C : ClientProg} (a b : List (UInt64 × Event S C)) (n : Net S C) :
    run (a ++ b) n = run b (run a n) := by
  simp [run]

theorem sent_drop {l past past' : List TsClient.Act} (hl : past' = l ++ past) :
    (tsSent past').drop (tsSent past).length = tsSent l := by
  rw [hl, tsSent_append, List.drop_left]

theorem rustSent_drop {l past past' : List (Server.Act P)} (hl : past' = l ++ past) :
    (rustSent past').drop (rustSent past).length = rustSent l := by
  rw [hl, rustSent_append, List.drop_left]

/-- The client goes on. -/
theorem At.own (h : At n u cl ub db sv) (ts : UInt64) {i : TsClient.Input} {cl' : TsClient.State} (hi : tsOwn i = true)
    (hs : TsClient.step ccfg cenv cl i = some cl') (l : List TsClient.Act) (hl : cl'.past = l ++ cl.past) :
    At (run [(ts, .client u i)] n) u cl' (ub ++ packAll up ts (tsSent l)) db sv := by
  obtain ⟨gu, gd, hc⟩ := h.conn
  have hr : (if tsOwn i = true then TsClient.run ccfg cenv [i] cl else (false, cl)) = (false, cl') := by
    rw [if_pos hi, TsClient.run, hs]
    rfl
  have hk : run [(ts, .client u i)] n = n.set u ⟨(false, cl'), ub ++ packAll up ts (tsSent l), db, gu, gd⟩ := by
    simp only [run, List.foldl_cons, List.foldl_nil, step, hc, Conn.goOn]
    rw [hr]
    show n.set u ⟨_, ub ++ packAll up ts ((tsSent cl'.past).drop (tsSent cl.past).length), db, gu, gd⟩ = _
    rw [sent_drop hl]
  rw [hk]
  exact ⟨h.server, gu, gd, find_set_self hc⟩

/-- All bytes arrive at the client. -/
theorem At.toClient {fs : List Frame} (h : At n u cl ub (stream fs) sv) (ts : UInt64) (hg : ∀ f ∈ fs, Good ccfg.decoder f)
    (hr : cl.reader = ⟨[], []⟩) {cl' : TsClient.State}
    (hs : TsClient.onMessages ccfg cenv (fs.filterMap (Spec.delivered ccfg.decoder))
      { cl with reader := ⟨[], fs.filterMap (Spec.delivered ccfg.decoder)⟩, past := .chunk (stream fs) :: cl.past } = cl')
    (l : List TsClient.Act) (hl : cl'.past = l ++ cl.past) :
    At (run [(ts, .toClient u (stream fs).length)] n) u cl' (ub ++ packAll up ts (tsSent l)) [] sv := by
  obtain ⟨gu, gd, hc⟩ := h.conn
  have hk : TsClient.run ccfg cenv [.received (stream fs)] cl = (false, cl') := by
    rw [TsClient.run, show TsClient.step ccfg cenv cl (.received (stream fs)) = some cl' by
      show TsClient.received ccfg cenv (stream fs) cl = _
      rw [received_stream hg hr, hs]]
    rfl
  have hk : run [(ts, .toClient u (stream fs).length)] n =
      n.set u ⟨(false, cl'), ub ++ packAll up ts (tsSent l), [], gu, gd ++ stream fs⟩ := by
    simp only [run, List.foldl_cons, List.foldl_nil, step, hc, Conn.goOn, List.take_length, List.drop_length, Bool.not_false, if_true]
    rw [hk]
    show n.set u ⟨_, ub ++ packAll up ts ((tsSent cl'.past).drop (tsSent cl.past).length), [], gu, gd ++ stream fs⟩ = _
    rw [sent_drop hl]
  rw [hk]
  exact ⟨h.server, gu, _, find_set_self hc⟩

/-- A step of the server. -/
theorem At.serve (h : At n u cl ub db sv) (ts : UInt64) {e : ServerEvent (Server.Input P)} {i : Server.Input P} {s' : Server.State P}
    (he : rustInput e = some i) (h1 : i ≠ .shutdown) (h2 : i ≠ .stop) (hs : Server.step cfg env opts i sv = (.ok (), s'))
    (l : List (Server.Act P)) (hl : s'.past = l ++ sv.past) :
    At (n.serve ts e) u cl ub (db ++ packAll down ts (System.sends u l)) s' := by
  obtain ⟨gu, gd, hc⟩ := h.conn
  have hk : (rustServer cfg env opts down).step e n.server = (.running, s') := by
    rw [h.server]
    show (match rustInput e, Server.Exit.running with | some i, .running => Server.listen cfg env opts [i] sv | _, _ => _) = _
    rw [he]
    dsimp only
    rw [Server.listen]
    · rw [hs]; rfl
    · exact h1
    · exact h2
  refine ⟨hk, gu, gd, ?_⟩
  rw [find_serve, hc, hk, h.server]
  show some (Conn.mk _ _ (db ++ packAll down ts (sendsTo u ((rustSent s'.past).drop (rustSent sv.past).length))) _ _) = _
  rw [rustSent_drop hl, sendsTo_rustSent]

/-- All bytes arrive at the server. -/
theorem At.toServer (h : At n u cl ub db sv) (ts : UInt64) {s' : Server.State P}
    (hs : Server.received cfg env opts u ub sv = (.ok (), s')) (l : List (Server.Act P)) (hl : s'.past = l ++ sv.past) :
    At (run [(ts, .toServer u ub.length)] n) u cl [] (db ++ packAll down ts (System.sends u l)) s' := by
  obtain ⟨gu, gd, hc⟩ := h.conn
  have h0 : At (n.set u ⟨(false, cl), [], db, gu ++ ub, gd⟩) u cl [] db sv := ⟨h.server, _, _, find_set_self hc⟩
  have := h0.serve ts (e := .data u ub) (i := .received u ub) rfl (by simp) (by simp) hs l hl
  simpa [run, step, hc] using this

/-- All confirmations up to the one of `u` are sent. -/
theorem confirms_all (sm : Smooth cfg env ccfg cenv) : ∀ (vs : List Uuid)
    {n : Net (rustServer cfg env opts down) (tsClient ccfg cenv up)} {db : Bytes} {sv : Server.State P}, At n u cl ub db sv →
    sv.confirms = vs ++ [u] → u ∉ vs → Server.Stage u false false false false sv →
    ∃ es sv', (∀ e ∈ es, Waits u e.2) ∧ At (run es n) u cl ub (db ++ down 0 0 .confirmation) sv' ∧
      Server.Stage u true false false false sv'
  | [], n, db, sv, h, hc, _, st => by
    obtain ⟨s', h1, h2, h3⟩ := System.confirm_own (opts := opts) sm.send sm.answer hc st
    have := h.serve 0 (e := .own .confirm) (i := .confirm) rfl (by simp) (by simp) h1 [.send u 0 .confirmation true, .confirmed u] h3
    refine ⟨[(0, .server .confirm)], s', by simp [Waits.confirm], ?_, h2⟩
    simpa [System.sends, packAll, run, step] using this
  | v :: vs, n, db, sv, h, hc, hu, st => by
    obtain ⟨s', l, h1, h2, h3, h4, h5⟩ := System.confirm_other (opts := opts) sm.send sm.answer sm.error
      (fun e => hu (e ▸ List.mem_cons_self) : v ≠ u) (show sv.confirms = v :: (vs ++ [u]) from hc)
    have k := h.serve 0 (e := .own .confirm) (i := .confirm) rfl (by simp) (by simp) h1 l h4
    rw [h5] at k
    simp only [packAll, List.flatMap_nil, List.append_nil] at k
    obtain ⟨es, sv', k1, k2, k3⟩ := confirms_all sm vs k h2 (fun e => hu (List.mem_cons_of_mem _ e)) (st.of_find h3)
    refine ⟨(0, .server .confirm) :: es, sv', ?_, k2, k3⟩
    intro e he
    rcases List.mem_cons.1 he with rfl | he
    · exact .confirm
    · exact k1 e he

/-- The server gets one message. -/
theorem At.asked {t : Terms P} {q : UInt32} {o : TsClient.Out} (h : At n u cl (up 0 q o) [] sv) (hh : HeardRight t cfg up o)
    {conf key hash a : Bool} {r : Server.Out P}
    (hs : ∀ (f : Frame) m, SameUp t cfg o m → f.Ok → cfg.decoder.signature = f.hdr.signature →
      cfg.decoder.getMsg f.hdr.id f.body = .ok m → f.hdr.sequence = q →
      (Server.received cfg env opts u f.bytes sv).1 = .ok () ∧
      Server.Stage u conf key hash a (Server.received cfg env opts u f.bytes sv).2 ∧
      (Server.received cfg env opts u f.bytes sv).2.past = .send u q r true :: .got u m q :: .chunk u :: sv.past) :
    ∃ es sv', (∀ e ∈ es, Waits u e.2) ∧ At (run es n) u cl [] (down 0 q r) sv' ∧ Server.Stage u conf key hash a sv' := by
  obtain ⟨m, ht, hsame⟩ := hh
  obtain ⟨f, f1, f2, f3, f4⟩ := ht 0 q
  obtain ⟨k1, k2⟩ := System.delivered_ok f4
  obtain ⟨h1, h2, h3⟩ := hs f m hsame f1 k1 k2 f2
  rw [f3] at h
  have := h.toServer 0 (s' := (Server.received cfg env opts u f.bytes sv).2) (by rw [← h1])
    [.send u q r true, .got u m q, .chunk u] h3
  refine ⟨[(0, .toServer u f.bytes.length)], _, by simp [Waits.toServer], ?_, h2⟩
  simpa [System.sends, packAll] using this

/-- Bytes of messages, as frames. -/
theorem travels {t : Terms P} {L : List (UInt32 × Server.Out P)} (h : ∀ x ∈ L, ReadRight t ccfg down x.2) :
    ∃ fs, (∀ f ∈ fs, Good ccfg.decoder f) ∧ packAll down 0 L = stream fs ∧
      System.Pairs (fun x (i : Rust.Income TsClient.Msg) => i.header.sequence = x.1 ∧ SameDown t x.2 i.msg) L
        (fs.filterMap (Spec.delivered ccfg.decoder)) :=
  System.travels_all (R := SameDown t) (d := ccfg.decoder) (pack := down) L h 0

/-- The answer a client waits for arrives. -/
theorem At.one (sm : Smooth cfg env ccfg cenv) {t : Terms P} {q : UInt32} {o : Server.Out P} {w : TsClient.Waiter}
    (h : At n u cl [] (down 0 q o) sv) (hr : ReadRight t ccfg down o) (hrd : cl.reader = ⟨[], []⟩) (hp : cl.pending = [(q.toNat, w)]) :
    ∃ es m more, (∀ e ∈ es, Waits u e.2) ∧ SameDown t o m ∧ tsSent more = [] ∧ At (run es n) u { cl with
      pending := [], tasks := cl.tasks ++ [.answered w m], past := more ++ cl.past } [] [] sv := by
  obtain ⟨fs, g1, g2, g3⟩ := travels (L := [(q, o)]) (by simpa using hr)
  rw [show packAll down 0 [(q, o)] = down 0 q o by simp [packAll]] at g2
  rw [g2] at h
  generalize hxs : fs.filterMap (Spec.delivered ccfg.decoder) = xs at g3
  obtain _ | ⟨⟨e1, e2⟩, g4⟩ := g3
  rename_i i xs
  cases g4
  obtain ⟨hd, m⟩ := i
  obtain ⟨more, k1, _, k3⟩ := onMessages_answered sm.toGentle (t := t) (u := u) (s := { cl with past := .chunk (stream fs) :: cl.past }) (m := m) (xs := []) (bl := [])
    hp e1 (by simp) .nil
  have := h.toClient 0 g1 hrd (cl' := { cl with
      reader := ⟨[], []⟩, pending := [], tasks := cl.tasks ++ [.answered w m],
      past := more ++ .delivered w q m :: .got q m :: .chunk (stream fs) :: cl.past }) (by rw [hxs]; exact k3)
    (more ++ [.delivered w q m, .got q m, .chunk (stream fs)]) (by simp)
  have hl : tsSent (more ++ [.delivered w q m, .got q m, .chunk (stream fs)]) = [] := by
    rw [tsSent_append, k1]; rfl
  rw [hl] at this
  refine ⟨[(0, .toClient u (stream fs).length)], m, more ++ [.delivered w q m, .got q m, .chunk (stream fs)],
    by simp [Waits.toClient], e2, hl, ?_⟩
  simp only [packAll, List.flatMap_nil, List.append_nil] at this
  rw [List.append_assoc, hrd]
  exact this

end

end Verif.Network
