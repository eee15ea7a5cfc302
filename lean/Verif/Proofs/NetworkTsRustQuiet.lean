import Verif.Proofs.NetworkTsRust
import Verif.Proofs.NetworkTsRustMore
import Verif.Proofs.NetworkTsTsQuiet
import Verif.Proofs.ServerTreated
import Verif.Spec.NetworkTsRustQuiet
set_option autoImplicit false
/-!
Moments in which nothing is under way between a TypeScript client and a Rust server.
-/
namespace Verif.Network

open Verif Verif.Spec

variable {P : Type} {cfg : Server.Cfg P} {env : Server.Env P} {opts : Server.Options}
  {down : UInt64 → UInt32 → Server.Out P → Bytes} {ccfg : TsClient.Cfg} {cenv : TsClient.Env}
  {up : UInt64 → UInt32 → TsClient.Out → Bytes}

/-! ### All that was sent was read -/

/-- If the frames that were sent can be decoded, then so can those that were read. -/
theorem all_good {Out T : Type} {pack : UInt64 → UInt32 → Out → Bytes} {d : Rust.Decoder T} {sent : List (UInt32 × Out)}
    {got buffer : Bytes} (hf : Flows pack sent got)
    (hfr : ∀ q o, (q, o) ∈ sent → ∀ ts, System.IsFrame q (pack ts q o))
    (hr : ∀ x ∈ sent, ∀ ts, ∃ m, System.Decodes d (pack ts x.1 x.2) m)
    {fs : List Frame} (h1 : ∀ f ∈ fs, Frame.Ok f) (h2 : got = stream fs ++ buffer) :
    ∀ f ∈ fs, ∃ x, Spec.delivered d f = some x := by
  obtain ⟨L, e1, e2⟩ := hf
  obtain ⟨gs, k1, k2, k3⟩ := System.frames_of (pack := pack) (fun x : UInt32 × Out => x.1) (fun x => x.2) L (by
    intro x hx ts
    refine hfr _ _ ?_ ts
    rw [← e1]
    exact List.mem_map_of_mem hx)
  rw [e1] at k2
  have e3 : stream fs ++ buffer = stream gs := by rw [← h2, e2, k3]
  obtain ⟨hs, e4, _⟩ := System.stream_inj h1 k1 e3
  intro f hf
  obtain ⟨x, hx, w1, w2, ts, w3⟩ := Pairs.right k2 (show f ∈ gs by rw [e4]; simp [hf])
  obtain ⟨m, g', y, z1, z2, z3, _⟩ := hr x hx ts
  obtain ⟨rfl, _⟩ := System.frame_inj (a := []) (b := []) w1 z1 (by rw [w3, z2])
  exact ⟨y, z3⟩

/-! ### What the server did after a message -/

theorem rustServer_treated (es : List (ServerEvent (Server.Input P))) :
    Server.Inv cfg opts none (serverRun (rustServer cfg env opts down) es).2 ∧
    ((serverRun (rustServer cfg env opts down) es).1 = .running →
      Server.Treated cfg env opts (serverRun (rustServer cfg env opts down) es).2.past) := by
  suffices h : ∀ r : List (ServerEvent (Server.Input P)), Server.Inv cfg opts none (serverRun (rustServer cfg env opts down) r.reverse).2 ∧
      ((serverRun (rustServer cfg env opts down) r.reverse).1 = .running →
        Server.Treated cfg env opts (serverRun (rustServer cfg env opts down) r.reverse).2.past) by
    have := h es.reverse
    rwa [List.reverse_reverse] at this
  intro r
  induction r with
  | nil =>
    refine ⟨Server.inv_new, fun _ => ?_⟩
    intro l u ref p q older e
    exact absurd e (by simp [serverRun, rustServer, Server.State.new])
  | cons e r ih =>
    rw [List.reverse_cons, serverRun_snoc]
    generalize serverRun (rustServer cfg env opts down) r.reverse = s at ih
    rcases rustServer_step (pack := down) (cfg := cfg) (env := env) (opts := opts) e s with ⟨h, _⟩ | ⟨i, _, h⟩
    · rw [h]; exact ih
    · rw [h]
      rcases System.serverStep_cases (w := someSetup cfg env opts) s.1 i s.2 with ⟨k, k'⟩ | ⟨k0, k, k'⟩
      · rw [k]; exact ih
      · rw [k]
        exact ⟨Server.step_keeps env i s.2 ih.1, fun hr => Server.step_treated i ih.1 (ih.2 k0) (k' hr)⟩

/-! ### Quiet moments -/

section
variable {n : Net (rustServer cfg env opts down) (tsClient ccfg cenv up)} {es : List (ServerEvent (Server.Input P))} {u : Uuid}
  {c : Conn (tsClient ccfg cenv up)}

theorem rustQuiet_up (hi : InvWith n es) (hf : Framed n) (hr : Readable n) (hq : RustQuiet n u c) :
    System.Pairs (fun x (y : UInt32 × Server.In P) => x.1 = y.1 ∧ System.Arrives up cfg.decoder x.1 x.2 y.2)
      (tsSent c.client.2.past) (System.heard u n.server.2.past) := by
  obtain ⟨h1, h2⟩ := hi.once u c hq.conn
  have hk := (rustKnown_run (cfg := cfg) (env := env) (opts := opts) (pack := down) es).once u h1
  have hinv := (rustServer_treated (cfg := cfg) (env := env) (opts := opts) (down := down) es).1
  rw [← hi.server] at hinv hk
  rw [h2] at hk
  obtain ⟨d, d1⟩ := hq.kept
  have d2 : d.discredited = false := by
    cases hx : d.discredited with
    | false => rfl
    | true => exact absurd (Server.since_sub ((hinv.known u d d1).discredited.1 hx)) hq.never
  obtain ⟨fs, g1, g2, g3, g4⟩ := hk.alive hq.running d d1 d2
  have hfl := (hi.links u c hq.conn).up
  rw [hq.up, List.append_nil] at hfl
  have hrd : ∀ x ∈ tsSent c.client.2.past, ∀ ts, ∃ m, System.Decodes cfg.decoder (up ts x.1 x.2) m := by
    rintro ⟨q, o⟩ hx ts
    obtain ⟨w, k, h4, rfl⟩ := mem_tsSent.1 hx
    exact hr.up u c hq.conn w k o h4 ts
  rcases g4 with ⟨g4, g5⟩ | ⟨f, g4, g5⟩
  · rw [g5, List.map_nil, List.append_nil] at g3
    exact pairs_of_all hfl (fun q o ho ts => hf.up u c hq.conn q o ho ts) hrd g1 g2 g3 (.inl g4)
  · obtain ⟨x, hx⟩ := all_good hfl (fun q o ho ts => hf.up u c hq.conn q o ho ts) hrd g1 g2 f g4
    rw [g5] at hx
    cases hx

theorem rustQuiet_down (hi : InvWith n es) (hf : Framed n) (hs : Small n) (hr : Readable n) (hq : RustQuiet n u c) :
    System.Pairs (fun x (y : UInt32 × TsServer.Msg) => x.1 = y.1 ∧ System.Arrives down ccfg.decoder x.1 x.2 y.2)
      (System.sends u n.server.2.past) (TsClient.looked c.client.2.past) := by
  have hl := hi.links u c hq.conn
  obtain ⟨is, h1, h2⟩ := hl.client
  obtain ⟨js, k1, _, k3⟩ := tsClient_run (cfg := ccfg) (env := cenv) (pack := up) is
  have ha := hq.awake
  have hrd := hq.read
  rw [h1, k1] at ha hrd
  have k3 := k3 ha
  obtain ⟨fs, g1, g2, g3, g4⟩ := TsClient.reading_run ccfg cenv js (by rw [← k3, h2]; exact (hs u c hq.conn).2)
  rw [hrd, List.map_nil, List.append_nil] at g3
  have hfl := (tsRust_reads_down hi hs hq.conn).1
  rw [hq.down, List.append_nil] at hfl
  rw [h1, k1]
  refine pairs_of_all hfl (tsRust_framed_down hf) ?_ (fun f hf => TsClient.readable_ok (g1 f hf)) (by rw [← h2, k3]; exact g2) g3 g4
  rintro ⟨q, o⟩ hx ts
  exact hr.down u q o (System.mem_sends.1 hx) ts

/-- What the server sent a client is an answer to a message this client sent before, or has number 0. -/
theorem rustPosted_after (hi : InvWith n es) (hf : Framed n) (hc : n.find u = some c)
    {q : UInt32} {o : Server.Out P} (hp : (q, o) ∈ System.sends u n.server.2.past) (hq : q ≠ 0) :
    ∃ w out, .sent w q.toNat out ∈ c.client.2.past := by
  have hj : System.J cfg env n.server.2 := by rw [hi.server]; exact (rustKnown_run es).just
  rcases System.justified_mem hj (System.mem_sends.1 hp) with ⟨h, _⟩ | ⟨newer, older, m, e, ha⟩
  · exact absurd h hq
  · have hh : (q, m) ∈ System.heard u n.server.2.past := System.mem_heard.2 (by rw [e]; simp [ha.got])
    obtain ⟨⟨q', out⟩, h1, h2, _⟩ := (tsRust_up hi hf hc).mem hh
    obtain ⟨w, k, h3, h4⟩ := mem_tsSent.1 h1
    dsimp only at h2
    subst h2 h4
    rw [(lawful_number (tsRust_law hi hc) h3).2]
    exact ⟨w, out, h3⟩

theorem tsRust_treated (hi : InvWith n es) (hc : n.find u = some c) : TsClient.Treated c.client.2.past := by
  obtain ⟨is, h1, _⟩ := (hi.links u c hc).client
  obtain ⟨js, h2, _⟩ := tsClient_run (cfg := ccfg) (env := cenv) (pack := up) is
  rw [h1, h2]
  exact TsClient.treated_run ccfg cenv js

end

section
variable {es : List (UInt64 × Event (rustServer cfg env opts down) (tsClient ccfg cenv up))} {u : Uuid} {c : Conn (tsClient ccfg cenv up)}

theorem rustLooked_after (es : List (UInt64 × Event (rustServer cfg env opts down) (tsClient ccfg cenv up)))
    (hf : Framed (run es (.new : Net (rustServer cfg env opts down) (tsClient ccfg cenv up)))) (hs : Small (run es (.new : Net (rustServer cfg env opts down) (tsClient ccfg cenv up))))
    {u : Uuid} {c : Conn (tsClient ccfg cenv up)} (hc : (run es (.new : Net (rustServer cfg env opts down) (tsClient ccfg cenv up))).find u = some c)
    {newer older : List TsClient.Act} {q : UInt32} {m : TsServer.Msg} (e : c.client.2.past = newer ++ .got q m :: older) (hq : q ≠ 0) :
    ∃ w out, .sent w q.toNat out ∈ older := by
  suffices h : ∀ r : List (UInt64 × Event (rustServer cfg env opts down) (tsClient ccfg cenv up)),
      Framed (run r.reverse (.new : Net (rustServer cfg env opts down) (tsClient ccfg cenv up))) →
      Small (run r.reverse (.new : Net (rustServer cfg env opts down) (tsClient ccfg cenv up))) →
      ∀ {c : Conn (tsClient ccfg cenv up)}, (run r.reverse (.new : Net (rustServer cfg env opts down) (tsClient ccfg cenv up))).find u = some c →
      ∀ {newer older : List TsClient.Act}, c.client.2.past = newer ++ .got q m :: older → ∃ w out, .sent w q.toNat out ∈ older by
    have := h es.reverse
    rw [List.reverse_reverse] at this
    exact this hf hs hc e
  intro r
  induction r with
  | nil => intro _ _ c hc; cases hc
  | cons x r ih =>
    intro hf hs c hc newer older e
    have hrun : run (x :: r).reverse (.new : Net (rustServer cfg env opts down) (tsClient ccfg cenv up)) = step (run r.reverse .new) x := by
      rw [List.reverse_cons]; unfold run; rw [List.foldl_append]; rfl
    obtain ⟨es1, hi1⟩ := inv_run (growing_tsRust (cfg := cfg) (env := env) (opts := opts) (down := down) (ccfg := ccfg) (cenv := cenv) (up := up)) (x :: r).reverse
    obtain ⟨es0, hi0⟩ := inv_run (growing_tsRust (cfg := cfg) (env := env) (opts := opts) (down := down) (ccfg := ccfg) (cenv := cenv) (up := up)) r.reverse
    rw [hrun] at hf hs hc hi1
    generalize run r.reverse (.new : Net (rustServer cfg env opts down) (tsClient ccfg cenv up)) = n at *
    have hl := later_step growing_tsRust n x
    have hf0 := hf.before hl
    have hs0 := hs.before hl
    rcases step_conn hc with k | ⟨c0, h0, k | ⟨k, ev, k'⟩⟩
    · rw [k] at e
      exact absurd e (by simp [TsClient.State.new])
    · rw [k] at e
      exact ih hf0 hs0 h0 e
    · obtain ⟨l, h1⟩ := tsClient_grows (cfg := ccfg) (env := cenv) (pack := up) ev c0.client
      have h2 := e
      rw [k', h1] at h2
      rcases List.append_eq_append_iff.1 h2 with ⟨t, e1, e2⟩ | ⟨t, e1, e2⟩
      · cases t with
        | nil => exact ih hf0 hs0 h0 (newer := []) (by simpa using e2)
        | cons b t => exact ih hf0 hs0 h0 e2
      · cases t with
        | nil => exact ih hf0 hs0 h0 (newer := []) (by simpa using e2.symm)
        | cons b t =>
          simp only [List.cons_append, List.cons.injEq] at e2
          obtain ⟨rfl, rfl⟩ := e2
          have hlk : (q, m) ∈ TsClient.looked c.client.2.past := mem_tsLooked.2 (by rw [e]; simp)
          obtain ⟨⟨q', o⟩, h3, h4, _⟩ := (tsRust_down hi1 hf hs hc).mem hlk
          dsimp only at h4
          subst h4
          have k : (step n x).server = n.server := k
          rw [k] at h3
          obtain ⟨w, out, h5⟩ := rustPosted_after hi0 hf0 h0 h3 hq
          exact ⟨w, out, List.mem_append_right _ h5⟩

/-- If an answer never came, in a quiet moment, then the server sent none. -/
theorem rustQuiet_unanswered (hf : Framed (run es (.new : Net (rustServer cfg env opts down) (tsClient ccfg cenv up))))
    (hs : Small (run es (.new : Net (rustServer cfg env opts down) (tsClient ccfg cenv up))))
    (hr : Readable (run es (.new : Net (rustServer cfg env opts down) (tsClient ccfg cenv up))))
    (hq : RustQuiet (run es (.new : Net (rustServer cfg env opts down) (tsClient ccfg cenv up))) u c)
    {w : TsClient.Waiter} {q : UInt32} {out : TsClient.Out} (hsent : .sent w q.toNat out ∈ c.client.2.past)
    (hno : ∀ q m, .delivered w q m ∉ c.client.2.past) (o : Server.Out P) :
    (q, o) ∉ System.sends u (run es (.new : Net (rustServer cfg env opts down) (tsClient ccfg cenv up))).server.2.past := by
  intro hp
  obtain ⟨es', hi⟩ := inv_run (growing_tsRust (cfg := cfg) (env := env) (opts := opts) (down := down) (ccfg := ccfg) (cenv := cenv) (up := up)) es
  have hl := tsRust_law hi hq.conn
  obtain ⟨⟨q', m⟩, h1, h2, _⟩ := Pairs.left (rustQuiet_down hi hf hs hr hq) hp
  dsimp only at h2
  subst h2
  obtain ⟨newer, older, e⟩ := List.append_of_mem (mem_tsLooked.1 h1)
  have h0 : q ≠ 0 := by
    rintro rfl
    have := (lawful_number hl hsent).1
    simp at this
  obtain ⟨w', out', h3⟩ := rustLooked_after es hf hs hq.conn e h0
  obtain ⟨rfl, rfl⟩ := TsClient.law_sent_number hl hsent (show TsClient.Act.sent w' q.toNat out' ∈ c.client.2.past by rw [e]; simp [h3])
  obtain ⟨newer', a, rfl, ht⟩ := tsRust_treated hi hq.conn newer q m older e
  have hl' := hl
  rw [e, List.append_assoc] at hl'
  have ha := hl'.at
  have un : ¬ TsClient.Unmatched q older := by
    intro k
    obtain ⟨m', k⟩ := k w out h3
    exact hno q m' (by rw [e]; simp [k])
  rcases ht with ⟨w', rfl⟩ | ⟨ref, rfl⟩ | rfl
  · obtain ⟨⟨out', k⟩, _⟩ := ha
    obtain ⟨rfl, _⟩ := TsClient.law_sent_number hl hsent (show TsClient.Act.sent w' q.toNat out' ∈ c.client.2.past by
      rw [e]; simp only [List.mem_append]; exact .inr (by simpa using k))
    exact hno q m (by rw [e]; simp)
  · obtain ⟨q', m', h', k1, _, _, _, k5⟩ := ha
    cases k1
    exact un k5
  · obtain ⟨h', k1, _, k3⟩ := ha
    cases k1
    exact un k3

/-- What became of a call, in a quiet moment. -/
theorem rustQuiet_call {t : Terms P} (hf : Framed (run es (.new : Net (rustServer cfg env opts down) (tsClient ccfg cenv up))))
    (hs : Small (run es (.new : Net (rustServer cfg env opts down) (tsClient ccfg cenv up))))
    (ha : Faithful t (run es (.new : Net (rustServer cfg env opts down) (tsClient ccfg cenv up))))
    (hr : Readable (run es (.new : Net (rustServer cfg env opts down) (tsClient ccfg cenv up))))
    (hq : RustQuiet (run es (.new : Net (rustServer cfg env opts down) (tsClient ccfg cenv up))) u c)
    {k o : Nat} {kind : TsClient.Kind} {body : TsServer.Js} (hcall : .called k o ∈ c.client.2.past)
    (hcr : .created o kind body ∈ c.client.2.past) {ref : Flow.Ref} (href : kind.Asks ref) (hend : ∀ r, .ended k r ∉ c.client.2.past)
    (he : Server.Expected cfg ref) :
    ∃ q p newer older, .sent (.call k o) (UInt32.toNat q) (.msg ref body) ∈ c.client.2.past ∧
      (run es (.new : Net (rustServer cfg env opts down) (tsClient ccfg cenv up))).server.2.past = newer ++ .got u (.msg ref p) q :: older ∧
      t.same p body ∧ (∀ o, .send u q o true ∉ (run es (.new : Net (rustServer cfg env opts down) (tsClient ccfg cenv up))).server.2.past) ∧
      Server.Unanswered cfg env opts u q ref p older newer := by
  obtain ⟨es', hi⟩ := inv_run (growing_tsRust (cfg := cfg) (env := env) (opts := opts) (down := down) (ccfg := ccfg) (cenv := cenv) (up := up)) es
  have hl := tsRust_law hi hq.conn
  have hst : ∃ q out, .sent (.call k o) q out ∈ c.client.2.past ∧ ∀ q m, .delivered (.call k o) q m ∉ c.client.2.past := by
    obtain ⟨is, h1, _⟩ := (hi.links u c hq.conn).client
    obtain ⟨js, h2, _⟩ := tsClient_run (cfg := ccfg) (env := cenv) (pack := up) is
    have hd := hq.done
    rw [h1, h2] at hcall hend hd ⊢
    rcases TsClient.call_state (TsClient.inv_run ccfg cenv js) hcall with ⟨r, h⟩ | h | ⟨i, t, h, _⟩
    · exact absurd h (hend r)
    · exact h
    · rw [hd] at h; simp at h
  obtain ⟨q, out, h1, h2⟩ := hst
  obtain ⟨h', ⟨_, _, kind', b', ref', g1, g2, rfl⟩, g4⟩ := hl.cause h1
  obtain ⟨rfl, rfl⟩ := TsClient.law_created_unique hl hcr (g4 _ g1)
  obtain rfl : ref' = ref := by cases kind <;> exact g2.symm.trans href
  have hn := (lawful_number hl h1).2
  obtain ⟨⟨q', x⟩, w1, w2, ts, w3⟩ := Pairs.left (rustQuiet_up hi hf hr hq) (mem_tsSent.2 ⟨_, _, h1, rfl⟩)
  dsimp only at w2 w3
  subst w2
  obtain ⟨p, rfl, hsame⟩ := ha.up u c hq.conn _ _ _ h1 ts x w3
  obtain ⟨newer, older, e⟩ := List.append_of_mem (System.mem_heard.1 w1)
  have hno : ∀ o, .send u q.toUInt32 o true ∉ (run es (.new : Net (rustServer cfg env opts down) (tsClient ccfg cenv up))).server.2.past := by
    intro o hm
    exact rustQuiet_unanswered hf hs hr hq (by rw [hn]; exact h1) h2 o (System.mem_sends.2 hm)
  refine ⟨q.toUInt32, p, newer, older, by rw [hn]; exact h1, e, hsame, hno, ?_⟩
  have ht := (rustServer_treated (cfg := cfg) (env := env) (opts := opts) (down := down) es').2
  rw [← hi.server] at ht
  have hnd := hq.never
  rcases ht hq.running newer u ref' p q.toUInt32 older e he (fun h => hnd (by rw [e]; simp [h])) with h | ⟨o, h⟩ | h
  · exact absurd (show .drop u ∈ (run es (.new : Net (rustServer cfg env opts down) (tsClient ccfg cenv up))).server.2.past by rw [e]; simp [h]) hnd
  · exact absurd (by rw [e]; simp [h]) (hno o)
  · exact h

/-! ### Broadcasts -/

theorem rustQuiet_casts {t : Terms P} (hf : Framed (run es (.new : Net (rustServer cfg env opts down) (tsClient ccfg cenv up))))
    (hs : Small (run es (.new : Net (rustServer cfg env opts down) (tsClient ccfg cenv up))))
    (ha : Faithful t (run es (.new : Net (rustServer cfg env opts down) (tsClient ccfg cenv up))))
    (hr : Readable (run es (.new : Net (rustServer cfg env opts down) (tsClient ccfg cenv up))))
    (hq : RustQuiet (run es (.new : Net (rustServer cfg env opts down) (tsClient ccfg cenv up))) u c)
    (hb : ∀ ref, TsClient.Broadcasts ccfg.workflow ref → Foreign ref) :
    RustCastsOf t ccfg.workflow (System.sends u (run es (.new : Net (rustServer cfg env opts down) (tsClient ccfg cenv up))).server.2.past)
      (tsCasts c.client.2.past) := by
  obtain ⟨es', hi⟩ := inv_run (growing_tsRust (cfg := cfg) (env := env) (opts := opts) (down := down) (ccfg := ccfg) (cenv := cenv) (up := up)) es
  have hp := rustQuiet_down hi hf hs hr hq
  have hp' : System.Pairs (fun x (y : UInt32 × TsServer.Msg) => x.1 = y.1 ∧ SameDown t x.2 y.2)
      (System.sends u (run es (.new : Net (rustServer cfg env opts down) (tsClient ccfg cenv up))).server.2.past)
      (TsClient.looked c.client.2.past) := by
    refine System.Pairs.mono hp ?_
    rintro ⟨q, o⟩ ⟨q', m⟩ hx ⟨h1, ts, h2⟩
    exact ⟨h1, ha.down u q o (System.mem_sends.1 hx) ts m h2⟩
  have hdis : ((TsClient.looked c.client.2.past).filter (fun x => x.1 ≠ 0)).Pairwise (fun a b => a.1 ≠ b.1) := by
    have hj : System.J cfg env (run es (.new : Net (rustServer cfg env opts down) (tsClient ccfg cenv up))).server.2 := by
      rw [hi.server]; exact (rustKnown_run es').just
    have h1 := (answers_increasing hj (tsRust_increasing hi hf hq.conn)).1
    generalize System.sends u (run es (.new : Net (rustServer cfg env opts down) (tsClient ccfg cenv up))).server.2.past = L at h1 hp'
    generalize TsClient.looked c.client.2.past = M at hp'
    have h2 : L.map Prod.fst = M.map Prod.fst := by
      clear h1
      induction hp' with
      | nil => rfl
      | cons r _ ih => rw [List.map_cons, List.map_cons, ih, r.1]
    have key : ∀ {α : Type} (l : List (UInt32 × α)), (l.filter (fun x => x.1 ≠ 0)).Pairwise (fun a b => a.1 ≠ b.1) ↔
        ((l.map Prod.fst).filter (· ≠ 0)).Pairwise (· ≠ ·) := by
      intro α l
      rw [List.filter_map, List.pairwise_map]
      rfl
    rw [key, ← h2, ← key]
    refine h1.imp ?_
    rintro a b hab k
    rw [k] at hab
    exact absurd hab (by simp)
  have hpk := casts_picked _ (Nat.le_refl _) (tsRust_law hi hq.conn) (tsRust_treated hi hq.conn)
    (fun newer q m older e h0 => rustLooked_after es hf hs hq.conn e h0) hdis
  revert hp' hpk
  generalize System.sends u (run es (.new : Net (rustServer cfg env opts down) (tsClient ccfg cenv up))).server.2.past = L
  generalize TsClient.looked c.client.2.past = M
  generalize tsCasts c.client.2.past = K
  intro hp' hpk
  induction hp' generalizing K with
  | nil => cases hpk; exact .nil
  | @cons x y xs ys r _ ih =>
    obtain ⟨q, o⟩ := x
    obtain ⟨q', m⟩ := y
    obtain ⟨rfl, hsame⟩ := r
    cases hpk with
    | keep r k =>
      rename_i b bs
      obtain ⟨ref, v⟩ := b
      obtain ⟨h1, h2, h3, h4⟩ := r
      dsimp only at h1 h2 h3 h4
      subst h1
      have no : ∀ name, IsService m name → False := by
        intro name hn
        refine hb ref h4 _ h2 ?_
        rw [hn]; rfl
      cases o with
      | msg ref' p =>
        obtain ⟨e1, e2⟩ := hsame
        rw [h3, ← spells_ref e1 h2]
        refine .cast ?_ e2 (ih _ k)
        rw [spells_ref e1 h2]
        exact h4
      | confirmation => exact (no _ hsame.1).elim
      | selfKey => exact (no _ hsame.1).elim
      | hash => exact (no _ hsame.1).elim
      | beacon => exact (no _ hsame.1).elim
    | skip r k =>
      refine .other ?_ (ih _ k)
      rintro h0 ref v rfl hbc
      exact r h0 ref hbc hsame.1

end

end Verif.Network
