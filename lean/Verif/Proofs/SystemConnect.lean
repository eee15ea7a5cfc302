import Verif.Proofs.SystemLive
import Verif.Proofs.RustClientStep
set_option autoImplicit false
/-!
New connections, requests, beacons and events of the server, from one quiet moment to the next.
-/
namespace Verif.System

open Verif Verif.Spec

variable {P : Type} {w : Setup P}

/-! ### Only connections wait for their confirmation -/

section server

open Server

variable {cfg : Server.Cfg P} {env : Server.Env P} {opts : Server.Options}

theorem confirms_broadcast (o : Server.Out P) (us : List Uuid) (s : Server.State P) :
    (broadcast env o us s).confirms = s.confirms := by
  induction us generalizing s with
  | nil => rfl
  | cons u us ih => rw [broadcast, ih]; rfl

theorem confirms_broadcastAll (cs : List (Ref × Cast P)) (s : Server.State P) :
    (broadcastAll env cs s).confirms = s.confirms := by
  induction cs generalizing s with
  | nil => rfl
  | cons c cs ih =>
    obtain ⟨r, us, p⟩ := c
    rw [broadcastAll, ih, confirms_broadcast]

theorem confirms_warned (e : Flow.Event) (p : Option P) (s : Server.State P) :
    (warned (emitEvent cfg env e p) s).2.confirms = s.confirms := by
  have : (emitEvent cfg env e p s).2.confirms = s.confirms := by
    unfold emitEvent
    dsimp only
    split
    · rfl
    · rfl
    · split
      · rfl
      · exact (confirms_broadcastAll _ _).trans rfl
  unfold warned
  split <;> (rename_i h; rw [h] at this; exact this)

theorem confirms_step (i : Server.Input P) (s : Server.State P) {v : Uuid} (h : v ∈ (Server.step cfg env opts i s).2.confirms) :
    v ∈ s.confirms ∨ i = .connected v := by
  cases i with
  | ready => exact .inl h
  | shutdown => exact .inl h
  | stop => exact .inl h
  | serverEvent u => exact .inl h
  | received u b =>
    rw [show (Server.step cfg env opts (.received u b) s).2.confirms = s.confirms from (received_local env u b s).confirms] at h
    exact .inl h
  | connected u =>
    simp only [Server.step, addConnection] at h
    split at h
    · exact .inl h
    · have hw := confirms_warned (cfg := cfg) (env := env) (defaultEvent cfg "connected".toList) none s
      unfold Proc.andThen at h
      split at h
      · rename_i s1 hs
        rw [hs] at hw
        replace h : v ∈ s1.confirms ++ [u] := h
        rw [hw] at h
        rcases List.mem_append.1 h with h | h
        · exact .inl h
        · rw [List.mem_singleton.1 h]; exact .inr rfl
      · rename_i hs; rw [hs] at hw; rw [hw] at h; exact .inl h
      · rename_i hs; rw [hs] at hw; rw [hw] at h; exact .inl h
  | disconnected u =>
    simp only [Server.step, removeConnection] at h
    split at h
    · exact .inl h
    · rw [confirms_warned] at h
      exact .inl h
  | event ref p =>
    simp only [Server.step] at h
    generalize cfg.workflow.events.find? _ = o at h
    cases o with
    | none => exact .inl h
    | some e =>
      dsimp only at h
      rw [confirms_warned] at h
      exact .inl h
  | setKey u k o =>
    simp only [Server.step] at h
    split at h <;> exact .inl h
  | setAssigned u k o =>
    simp only [Server.step] at h
    split at h <;> exact .inl h
  | confirm =>
    simp only [Server.step] at h
    split at h
    · exact .inl h
    · rename_i u us e
      rw [e]
      refine .inl (List.mem_cons_of_mem _ ?_)
      unfold confirmation at h
      split at h
      · exact h
      · dsimp only at h
        split at h
        · exact h
        · split at h
          · rename_i hs; rw [← congrArg Prod.snd hs] at h; exact h
          · rename_i hs; rw [← congrArg Prod.snd hs] at h; exact h

end server

theorem confirms_serverStep {e : Server.Exit} {i : Server.Input P} {s : Server.State P} {v : Uuid}
    (h : v ∈ (serverStep w e i s).2.confirms) : v ∈ s.confirms ∨ i = .connected v := by
  rcases serverStep_cases (w := w) e i s with ⟨k, _⟩ | ⟨_, k, _⟩
  · rw [k] at h; exact .inl h
  · rw [k] at h; exact confirms_step _ _ h

/-- Who waits for its confirmation is connected. -/
def Waiting (n : Net P) : Prop := ∀ v ∈ n.server.confirms, (n.find v).isSome = true

theorem Waiting.serve {n : Net P} (h : Waiting n) (ts : UInt64) {i : Server.Input P} (hi : ∀ u, i = .connected u → (n.find u).isSome = true) :
    Waiting (n.serve w ts i) := by
  intro v hv
  rw [find_serve, Option.isSome_map]
  rcases confirms_serverStep (show v ∈ (serverStep w n.exit i n.server).2.confirms from hv) with k | k
  · exact h v k
  · exact hi v k

theorem Waiting.set {n : Net P} (h : Waiting n) {u : Uuid} {c d : Conn P} (hd : n.find u = some d) : Waiting (n.set u c) := by
  intro v hv
  by_cases e : v = u
  · subst e; rw [Net.find_set_self hd]; rfl
  · rw [Net.find_set_other e]; exact h v hv

theorem Waiting.step {n : Net P} (h : Waiting n) (e : UInt64 × Event P) : Waiting (step w n e) := by
  obtain ⟨ts, e⟩ := e
  cases e with
  | opened u =>
    unfold System.step
    dsimp only
    split
    · refine Waiting.serve (fun v hv => ?_) ts ?_
      · rw [find_snoc]
        split
        · split <;> rfl
        · exact h v hv
      · rintro v e
        injection e with e
        subst e
        rw [find_snoc, if_pos rfl]
        split <;> rfl
    · exact h
  | lost u => exact h.serve ts (by simp)
  | toServer u k =>
    unfold System.step
    dsimp only
    split
    · rename_i c hc
      exact (h.set hc).serve ts (by simp)
    · exact h
  | toClient u k =>
    unfold System.step
    dsimp only
    split
    · rename_i c hc
      split
      · exact h.set hc
      · exact h
    · exact h
  | server i =>
    unfold System.step
    dsimp only
    split
    · rename_i ho
      refine h.serve ts (fun u e => ?_)
      rw [e] at ho
      cases ho
    · exact h
  | client u i =>
    unfold System.step
    dsimp only
    split
    · rename_i c hc
      split
      · exact h.set hc
      · exact h
    · exact h

theorem waiting_run (es : List (UInt64 × Event P)) : Waiting (run w es .new) := by
  have : ∀ n : Net P, Waiting n → Waiting (run w es n) := by
    induction es with
    | nil => exact fun n h => h
    | cons e es ih => exact fun n h => ih _ (h.step e)
  exact this _ (by intro v hv; cases hv)

/-! ### Quiet moments -/

theorem Established.parts {n : Net P} {u : Uuid} (h : Established n u) (ha : Admitted w n u) :
    ∃ cl a, At n u cl [] [] n.server ∧ Resting cl ∧ Server.Stage u true true true a n.server ∧
      (Server.Strict w.opts.identification → a = true) := by
  obtain ⟨cl, h1, h2⟩ := h.conn
  obtain ⟨c, k1, k2, k3, k4, k5, k6⟩ := h.server
  by_cases hs : Server.Strict w.opts.identification
  · refine ⟨cl, true, ⟨h.running, h1, rfl⟩, h2, ⟨c, k1, fun _ => k3, k4, k2, fun _ => k6, k5, fun _ => ?_⟩, fun _ => rfl⟩
    obtain ⟨c', e, hc⟩ := ha hs
    rw [k1] at e
    cases e
    exact hc
  · exact ⟨cl, false, ⟨h.running, h1, rfl⟩, h2, ⟨c, k1, fun _ => k3, k4, k2, fun _ => k6, k5, (nomatch ·)⟩, fun k => absurd k hs⟩

theorem Established.pieces {n : Net P} {u : Uuid} (h : Established n u) :
    ∃ cl a, At n u cl [] [] n.server ∧ Resting cl ∧ Server.Stage u true true true a n.server ∧
      (Admitted w n u → Server.Strict w.opts.identification → a = true) := by
  by_cases ha : Admitted w n u
  · obtain ⟨cl, a, h1, h2, h3, h4⟩ := h.parts ha
    exact ⟨cl, a, h1, h2, h3, fun _ => h4⟩
  · obtain ⟨cl, h1, h2⟩ := h.conn
    obtain ⟨c, k1, k2, k3, k4, k5, k6⟩ := h.server
    exact ⟨cl, false, ⟨h.running, h1, rfl⟩, h2, ⟨c, k1, fun _ => k3, k4, k2, fun _ => k6, k5, (nomatch ·)⟩, fun k => absurd k ha⟩

theorem At.established_only {n : Net P} {u : Uuid} {cl : Client.State P} {sv : Server.State P} {a : Bool} (h : At n u cl [] [] sv)
    (hr : Resting cl) (st : Server.Stage u true true true a sv) : Established n u := by
  obtain ⟨c, k1, k2, k3, k4, k5, k6, k7⟩ := st.here
  have hs := h.server
  subst hs
  exact ⟨h.running, ⟨cl, h.conn, hr⟩, c, k1, k4, k2 rfl, k3, k6, k5 rfl⟩

theorem At.established {n : Net P} {u : Uuid} {cl : Client.State P} {sv : Server.State P} {a : Bool} (h : At n u cl [] [] sv)
    (hr : Resting cl) (st : Server.Stage u true true true a sv) (ha : Server.Strict w.opts.identification → a = true) :
    Established n u ∧ Admitted w n u := by
  obtain ⟨c, k1, k2, k3, k4, k5, k6, k7⟩ := st.here
  have hs := h.server
  subst hs
  exact ⟨⟨h.running, ⟨cl, h.conn, hr⟩, c, k1, k4, k2 rfl, k3, k6, k5 rfl⟩, fun hs => ⟨c, k1, k7 (ha hs)⟩⟩

/-! ### A new connection -/

theorem connects (sm : Smooth w) (he : ∀ s e p, w.env.emit s e p ≠ .panic) {name : Uuid → List Char} {hashes : List Char × List Char}
    {n : Net P} {u : Uuid} {v : List Char} (hrun : n.exit = .running) (hf : n.find u = none) (hu : usedFor u n.server.past = false)
    (hn : n.server.find u = none) (hcf : u ∉ n.server.confirms)
    (hk : HeardRight w hashes .selfKey) (hh : HeardRight w hashes .hash) (hhash : hashes = (w.server.protocolHash, w.server.workflowHash))
    (rc : ReadRight w name .confirmation) (rk : ReadRight w name (.selfKey u)) (rh : ReadRight w name (.hash false))
    (hv : w.client.parseUuid (name u) = some v)
    (hb : ∀ t e cs l, w.env.emit t e none = .ok cs → Server.Gives e.broadcasts cs l → ∀ x ∈ l, x.1 = u → ReadRight w name x.2) :
    ∃ es cl sv, Progress u [] es ∧ At (run w es n) u cl [] [] sv ∧ Resting cl ∧ Server.Stage u true true true false sv ∧
      .emitted .connected ∈ cl.past := by
  -- the connection is taken
  obtain ⟨s1, l1, e1, k1, k2, k3, k4, k5⟩ := connected_sent (cfg := w.server) (opts := w.opts) sm.send sm.answer hn he
  have A0 : At ({ n with conns := n.conns ++ [(u, ⟨.new, [], []⟩)] } : Net P) u .new [] [] n.server :=
    ⟨hrun, by rw [find_snoc, if_pos rfl, hf], rfl⟩
  have A1 := A0.serve (w := w) 0 (i := .connected u) (by simp) (by simp) k1 (.opened u :: l1 ++ [.event e1]) (by rw [k4]; simp)
  have hL : ∃ bl : List (Uuid × Server.Out P), (∀ x ∈ bl, ∃ ref p, x.2 = .msg ref p) ∧ (∀ x ∈ bl, x.1 = u → ReadRight w name x.2) ∧
      sends u (.opened u :: l1 ++ [.event e1]) = (bl.filter (fun x => x.1 = u)).map (fun x => (0, x.2)) := by
    rcases k5 with rfl | ⟨e, t, cs, l', h1, h2, rfl, h4⟩
    · exact ⟨[], by simp, by simp, rfl⟩
    · refine ⟨l', h4, hb _ _ _ _ h1 h2, ?_⟩
      rw [List.cons_append, List.cons_append]
      show sends u (allSent l' ++ _) = _
      rw [sends_append, sends_allSent]
      rfl
  obtain ⟨bl, b1, b2, b3⟩ := hL
  rw [b3, List.nil_append] at A1
  -- the confirmation
  obtain ⟨es2, sv2, P2, A2, st2⟩ := confirms_all sm n.server.confirms A1 k3 hcf k2
  obtain ⟨fs, g1, g2, g3⟩ := travels_all (R := SameAnswer name) (d := w.client.decoder) (pack := w.down)
    ((bl.filter (fun x => x.1 = u)).map (fun x => ((0 : UInt32), x.2)) ++ [(0, .confirmation)]) (by
      intro x hx
      rcases List.mem_append.1 hx with hx | hx
      · obtain ⟨y, hy, rfl⟩ := List.mem_map.1 hx
        obtain ⟨hy, hu⟩ := List.mem_filter.1 hy
        exact b2 y hy (by simpa using hu)
      · rw [List.mem_singleton.1 hx]; exact rc) 0
  rw [List.flatMap_append, List.flatMap_cons, List.flatMap_nil, List.append_nil] at g2
  rw [g2] at A2
  have A3 := A2.toClient (w := w) 0 g1 rfl
  generalize fs.filterMap (Spec.delivered w.client.decoder) = xs at g3 A3
  have hsplit : ∃ ys hd, xs = ys ++ [⟨hd, .confirmation⟩] ∧
      Pairs (fun x (i : Rust.Income (Client.In P)) => i.header.sequence = x.1 ∧ SameAnswer name x.2 i.msg)
      ((bl.filter (fun x => x.1 = u)).map (fun x => ((0 : UInt32), x.2))) ys := by
    clear A3 A2 A1 b3 g2
    revert g3
    generalize (bl.filter (fun x => x.1 = u)).map (fun x => ((0 : UInt32), x.2)) = L
    intro g3
    induction L generalizing xs with
    | nil =>
      rw [List.nil_append] at g3
      generalize hz : ((0 : UInt32), (Server.Out.confirmation : Server.Out P)) = z at g3
      obtain _ | ⟨⟨hq, h1⟩, h2⟩ := g3
      cases h2
      rename_i i
      obtain ⟨hd, m⟩ := i
      rw [← hz] at h1
      cases (show m = _ from h1)
      exact ⟨[], hd, rfl, .nil⟩
    | cons x L ih =>
      obtain _ | ⟨h1, h2⟩ := g3
      obtain ⟨ys, hd, rfl, h3⟩ := ih _ h2
      exact ⟨_ :: ys, hd, rfl, .cons h1 h3⟩
  obtain ⟨ys, hd, rfl, g4⟩ := hsplit
  obtain ⟨c1, c2⟩ := casts_pairs (cfg := w.client) u bl ys b1 g4
  generalize hc3 : ({ (.new : Client.State P) with
      msgs := some ⟨⟨[], ys ++ [⟨hd, .confirmation⟩]⟩, .between, none⟩
      past := .chunk (stream fs) :: (.new : Client.State P).past } : Client.State P) = c3 at A3
  have f1 : c3.api = some ⟨[], 10⟩ := by rw [← hc3]; rfl
  have f2 : c3.queue = [] := by rw [← hc3]; rfl
  have f3 : c3.msgs = some ⟨⟨[], ys ++ [⟨hd, .confirmation⟩]⟩, .between, none⟩ := by rw [← hc3]
  have f4 : c3.auths = [] := by rw [← hc3]; rfl
  have f5 : c3.authQueue = [] := by rw [← hc3]; rfl
  have f6 : c3.calls = [] := by rw [← hc3]; rfl
  clear hc3
  obtain ⟨is, more, d1, d2, d3, d4⟩ := drained (cfg := w.client) ys _ c1 c3 none 10 f1 f2 f3
  have A4 := A3.runs (w := w) 0 is (fun i hi => by rcases d1 i hi with rfl | rfl <;> rfl) d4 more rfl
  rw [d2] at A4
  obtain ⟨es5, cl', sv', newer, P5, A5, r5, st5, p5, q5, _⟩ := shakes sm hk hh hhash rk rh hv A4 st2 f1 f2 rfl f4 f5 f6
  have h0 : run w [(0, .opened u)] n = Net.serve w 0 (.connected u) { n with conns := n.conns ++ [(u, ⟨.new, [], []⟩)] } := by
    simp [run, System.step, hf, hu]
  rw [← h0] at A5
  simp only [← run_append] at A5
  refine ⟨_, cl', sv', ?_, A5, r5, st5, by rw [p5]; exact List.mem_append_left _ q5⟩
  refine .append (a := []) (b := []) (.append (a := []) (b := []) (.append (a := []) (b := []) (.append (a := []) (b := []) ?_ P2) ?_) ?_) P5
  · exact ⟨by simp [Regular.opened], rfl⟩
  · exact ⟨by simp [Regular.toClient], rfl⟩
  · exact Quiet.progress u 0 _ (fun i hi => by rcases d1 i hi with rfl | rfl <;> constructor)

/-! ### Calls -/

theorem decides_msg {env : Server.Env P} {r : Flow.Request} {s : Server.State P} {u : Uuid} {p : P} {o : Server.Out P}
    {l : List (Uuid × Server.Out P)} (h : Server.Decides env r s u p o l) : ∃ ref x, o = .msg ref x := by
  cases h <;> exact ⟨_, _, rfl⟩

/-- A call is answered. -/
theorem answered (sm : Smooth w) {name : Uuid → List Char} {hashes : List Char × List Char} {n : Net P} {u : Uuid}
    (h : Established n u) (ha : Admitted w n u) {job : Client.Job} {body : P} (hs : Servable w name hashes u job body) :
    ∃ es res l, Progress u [(job, body)] es ∧ Established (run w es n) u ∧ Admitted w (run w es n) u ∧
      Right w u n.server.past job body res l ∧ Returned n (run w es n) u job body res ∧
      Received n (run w es n) u ((messagesFor u l).filter (fun x => x.1 ∈ w.client.broadcasts)) ∧
      (∀ x ∈ l, ∃ ref p, x.2 = .msg ref p) ∧
      ∃ later, (run w es n).server.past = later ++ n.server.past ∧
        ∀ v, v ≠ u → sends v later = (l.filter (fun x => x.1 = v)).map (fun x => (0, x.2)) := by
  obtain ⟨cl, a, A, hr, st, hst⟩ := h.parts ha
  obtain ⟨⟨q, h1⟩, h2, ⟨id, h3⟩, h4, h5, h6⟩ := hr
  have key : ∀ Q : Server.State P → UInt32 → Server.Out P → List (Uuid × Server.Out P) → Prop,
      HeardRight w hashes (.msg id job.ref body) →
      (∀ p s1, s1.past = .got u (.msg job.ref body) p :: .chunk u :: n.server.past → Server.Stage u true true true a s1 →
      ∃ o bl mids, Q s1 p o bl ∧ o ≠ .confirmation ∧ ReadRight w name o ∧ (∀ x ∈ bl, ∃ ref p, x.2 = .msg ref p) ∧
        (∀ x ∈ bl, x.1 = u → ReadRight w name x.2) ∧ (∀ v, sends v mids = []) ∧
        Server.dispatch w.server w.env w.opts u job.ref body p s1 = (.ok (),
          { s1 with past := .deferred :: allSent bl ++ .send u p o true :: mids ++ s1.past })) →
      (∀ s1 p o bl m, Q s1 p o bl → s1.past = .got u (.msg job.ref body) p :: .chunk u :: n.server.past → SameAnswer name o m →
        Right w u n.server.past job body (Client.conclude job m) bl) →
      ∃ es res l, Progress u [(job, body)] es ∧ Established (run w es n) u ∧ Admitted w (run w es n) u ∧
      Right w u n.server.past job body res l ∧ Returned n (run w es n) u job body res ∧
      Received n (run w es n) u ((messagesFor u l).filter (fun x => x.1 ∈ w.client.broadcasts)) ∧
      (∀ x ∈ l, ∃ ref p, x.2 = .msg ref p) ∧
      ∃ later, (run w es n).server.past = later ++ n.server.past ∧
        ∀ v, v ≠ u → sends v later = (l.filter (fun x => x.1 = v)).map (fun x => (0, x.2)) := by
    intro Q hh hsrv hQ
    obtain ⟨es, cl', sv', s1, p, o, m, bl, newer, k1, k2, k3, k4, k5, k6, k7, k8, k9, k10, k11, k12, k13⟩ :=
      round sm (name := name) A h1 h2 h3 h4 h5 h6 st hst job body hh hsrv
    obtain ⟨e1, e2⟩ := k2.established (w := w) k3 k4 hst
    exact ⟨es, _, bl, k1, e1, e2, hQ _ _ _ _ _ k6 k5 k7, ⟨_, _, newer, cl.next, A.conn, k2.conn, k8, k9, k10⟩,
      ⟨_, _, newer, A.conn, k2.conn, k8, k11⟩, k12, by rw [k2.server]; exact k13⟩
  cases hs with
  | @request req ref _ c1 c2 c3 c4 c5 c6 =>
    have hjob : (Client.Job.request req).ref = ref := by simp [Client.Job.ref, c2]
    rw [hjob] at key
    have hfind : w.server.workflow.requests.find? (fun r => r.request = some ref) = some req := by
      cases hq : w.server.workflow.requests.find? (fun r => r.request = some ref) with
      | none =>
        have := List.find?_eq_none.1 hq req c1
        simp [c2] at this
      | some r => rw [c3 r (List.mem_of_find?_eq_some hq) (by simpa using List.find?_some hq)]
    refine key (fun s1 p o bl => Server.Decides w.env req (s1.push (.respond u ref p)) u body o bl) (c4 id) ?_ ?_
    · intro p s1 k1 k2
      obtain ⟨o, l, d1, d2, d3⟩ := process_sent (cfg := w.server) (env := w.env) sm.send sm.answer req u body p s1 (c5 _)
      rw [c2, Option.getD_some] at d1 d3
      obtain ⟨r1, r2⟩ := c6 _ _ _ d1
      obtain ⟨rref, x, rfl⟩ := decides_msg d1
      refine ⟨_, l, [.respond u ref p], d1, by simp, r1, d2, r2, fun _ => rfl, ?_⟩
      unfold Server.dispatch
      rw [hfind]
      dsimp only
      rw [d3]
      simp
    · intro s1 p o bl m d1 k1 k2
      obtain ⟨rref, x, rfl⟩ := decides_msg d1
      cases (show m = _ from k2)
      exact .request (q := p) (s := s1.push (.respond u ref p)) c2 (by rw [Server.past_push, k1]) d1 (Client.conclude_reports _ _)
  | @beacon b _ c1 c2 c3 c4 c5 =>
    have hnone : w.server.workflow.requests.find? (fun r => r.request = some b.reference) = none :=
      List.find?_eq_none.2 (fun r hr => by simpa using c2 r hr)
    have hb : ∃ b', w.server.workflow.beacons.find? (fun x => x.reference = b.reference) = some b' := by
      cases hq : w.server.workflow.beacons.find? (fun x => x.reference = b.reference) with
      | none =>
        have := List.find?_eq_none.1 hq b c1
        simp at this
      | some r => exact ⟨r, rfl⟩
    obtain ⟨b', hb⟩ := hb
    refine key (fun s1 p o bl => o = .beacon ∧ bl = []) (c3 id) ?_ ?_
    · intro p s1 k1 k2
      refine ⟨.beacon, [], [.beacon u b.reference p], ⟨rfl, rfl⟩, by simp, c5, by simp, by simp, fun _ => rfl, ?_⟩
      unfold Server.dispatch
      show (match w.server.workflow.requests.find? (fun r => r.request = some b.reference) with | some r => _ | none => _) = _
      rw [hnone]
      dsimp only
      show (match w.server.workflow.beacons.find? (fun x => x.reference = b.reference) with | some _ => _ | none => _) = _
      rw [hb]
      dsimp only [Client.Job.ref]
      unfold Server.emitBeacon
      dsimp only
      rw [c4]
      dsimp only
      rw [finish_sent sm.send sm.answer]
      rfl
    · rintro s1 p o bl m ⟨rfl, rfl⟩ k1 k2
      cases (show m = _ from k2)
      exact .beacon

/-! ### Broadcasts -/

/-- Bytes that are these messages, packed at any times. -/
inductive Underway (w : Setup P) : List (UInt32 × Server.Out P) → Bytes → Prop where
  | nil : Underway w [] []
  | cons {q : UInt32} {o : Server.Out P} {L : List (UInt32 × Server.Out P)} {b : Bytes} (ts : UInt64) : Underway w L b →
      Underway w ((q, o) :: L) (w.down ts q o ++ b)

theorem Underway.flat (ts : UInt64) : ∀ L : List (UInt32 × Server.Out P), Underway w L (L.flatMap (fun x => w.down ts x.1 x.2))
  | [] => .nil
  | (_, _) :: L => by rw [List.flatMap_cons]; exact .cons ts (flat ts L)

theorem Underway.append {L M : List (UInt32 × Server.Out P)} {a b : Bytes} (h : Underway w L a) (k : Underway w M b) :
    Underway w (L ++ M) (a ++ b) := by
  induction h with
  | nil => exact k
  | cons ts _ ih => rw [List.cons_append, List.append_assoc]; exact .cons ts ih

theorem Underway.frames {name : Uuid → List Char} {L : List (UInt32 × Server.Out P)} {b : Bytes} (h : Underway w L b)
    (hr : ∀ x ∈ L, ReadRight w name x.2) :
    ∃ fs, (∀ f ∈ fs, Good w.client.decoder f) ∧ b = stream fs ∧
      Pairs (fun x (i : Rust.Income (Client.In P)) => i.header.sequence = x.1 ∧ SameAnswer name x.2 i.msg) L
        (fs.filterMap (Spec.delivered w.client.decoder)) := by
  induction h with
  | nil => exact ⟨[], by simp, rfl, .nil⟩
  | @cons q o L b ts _ ih =>
    obtain ⟨fs, h1, h2, h3⟩ := ih (fun y hy => hr y (List.mem_cons_of_mem _ hy))
    obtain ⟨m, k, hs⟩ := hr _ List.mem_cons_self
    obtain ⟨f, k1, k2, k3, k4⟩ := k ts q
    refine ⟨f :: fs, fun g hg' => ?_, ?_, ?_⟩
    · rcases List.mem_cons.1 hg' with rfl | hg'
      · obtain ⟨j1, j2⟩ := delivered_ok k4
        exact ⟨k1, j1, m, j2⟩
      · exact h1 g hg'
    · rw [k3, h2]; rfl
    · rw [List.filterMap_cons, k4]
      exact .cons ⟨k2, hs⟩ h3

/-- Broadcasts that are under way reach user code of a client. -/
theorem catches_up {name : Uuid → List Char} {n : Net P} {u : Uuid} {cl : Client.State P} {sv : Server.State P} {down : Bytes}
    (h : At n u cl [] down sv) (hr : Resting cl) {bl : List (Uuid × Server.Out P)} (hbl : ∀ x ∈ bl, ∃ ref p, x.2 = .msg ref p)
    (hrd : ∀ x ∈ bl, x.1 = u → ReadRight w name x.2)
    (hd : Underway w ((bl.filter (fun x => x.1 = u)).map (fun x => ((0 : UInt32), x.2))) down) :
    ∃ es cl' newer, Progress u [] es ∧ At (run w es n) u cl' [] [] sv ∧ Resting cl' ∧ cl'.past = newer ++ cl.past ∧
      casts newer = (messagesFor u bl).filter (fun x => x.1 ∈ w.client.broadcasts) := by
  obtain ⟨⟨q, h1⟩, h2, ⟨id, h3⟩, h4, h5, h6⟩ := hr
  obtain ⟨fs, g1, rfl, g3⟩ := hd.frames (name := name) (by
    intro x hx
    obtain ⟨y, hy, rfl⟩ := List.mem_map.1 hx
    obtain ⟨hy, hu⟩ := List.mem_filter.1 hy
    exact hrd y hy (by simpa using hu))
  have A3 := h.toClient (w := w) 0 g1 h3
  generalize fs.filterMap (Spec.delivered w.client.decoder) = xs at g3 A3
  obtain ⟨c1, c2⟩ := casts_pairs (cfg := w.client) u bl xs hbl g3
  generalize hc4 : ({ cl with
      msgs := some ⟨⟨[], xs⟩, .between, id⟩
      past := .chunk (stream fs) :: cl.past } : Client.State P) = c4 at A3
  have f1 : c4.api = some ⟨[], q⟩ := by rw [← hc4]; exact h1
  have f2 : c4.queue = [] := by rw [← hc4]; exact h2
  have f3 : c4.msgs = some ⟨⟨[], xs⟩, .between, id⟩ := by rw [← hc4]
  have f4 : c4.auths = [] := by rw [← hc4]; exact h4
  have f5 : c4.authQueue = [] := by rw [← hc4]; exact h5
  have f6 : c4.calls = [] := by rw [← hc4]; exact h6
  have f7 : c4.past = .chunk (stream fs) :: cl.past := by rw [← hc4]
  clear hc4
  obtain ⟨is, more, d1, d2, d3, d4⟩ := drained (cfg := w.client) xs [] c1 c4 id q f1 f2 (by rw [List.append_nil]; exact f3)
  have A5 := A3.runs (w := w) 0 is (fun i hi => by rcases d1 i hi with rfl | rfl <;> rfl) d4 more rfl
  have r6 := done (cfg := w.client) (id := id) (s := { c4 with msgs := some ⟨⟨[], []⟩, .between, id⟩, past := more ++ c4.past }) rfl
  have A6 := A5.runs (w := w) 0 [.work] (by simp [ownClient]) r6 [] rfl
  simp only [← run_append, sents, d2, List.flatMap_nil, List.append_nil] at A6
  refine ⟨_, _, more ++ [.chunk (stream fs)], ?_, A6, ⟨⟨_, f1⟩, f2, ⟨_, rfl⟩, f4, f5, f6⟩, by simp [f7], ?_⟩
  · refine Progress.append (a := []) (b := []) (.append (a := []) (b := []) ?_ ?_) ?_
    · exact ⟨by simp [Regular.toClient], rfl⟩
    · exact Quiet.progress u 0 _ (fun i hi => by rcases d1 i hi with rfl | rfl <;> constructor)
    · exact Quiet.progress u 0 _ (by simp [Quiet.work])
  · rw [casts_append, d3, c2]
    rfl

/-- What one step of the server does to a client it is not about. -/
theorem serve_aside {n : Net P} {u : Uuid} {cl : Client.State P} {up down : Bytes} {a : Bool} (ts : UInt64) {i : Server.Input P}
    (hi : Server.Aside u i) (hc : n.find u = some ⟨cl, up, down⟩) (st : Server.Stage u true true true a n.server) :
    ∃ l b, (n.serve w ts i).server.past = l ++ n.server.past ∧ (n.serve w ts i).find u = some ⟨cl, up, down ++ b⟩ ∧
      Underway w (sends u l) b ∧ Server.Stage u true true true a (n.serve w ts i).server := by
  obtain ⟨l, hl⟩ := serverStep_grows (w := w) n.exit i n.server
  refine ⟨l, (sends u l).flatMap (fun x => w.down ts x.1 x.2), hl, ?_, .flat ts _, ?_⟩
  · rw [find_serve, hc, hl, added_append, sentDown_eq]
    rfl
  · show Server.Stage u true true true a (serverStep w n.exit i n.server).2
    rcases serverStep_cases (w := w) n.exit i n.server with ⟨k, _⟩ | ⟨_, k, _⟩
    · rw [k]; exact st
    · rw [k]
      exact (Server.step_aside hi st).weaken (fun h => by simp [h])

/-- What regular progress of one connection does to another one. -/
theorem regular_aside {u v : Uuid} (huv : u ≠ v) {cl : Client.State P} {up : Bytes} {a : Bool} :
    ∀ (es : List (UInt64 × Event P)), (∀ e ∈ es, Regular v e.2) → ∀ {n : Net P} {down : Bytes}, n.find u = some ⟨cl, up, down⟩ →
    Server.Stage u true true true a n.server →
    ∃ l b, (run w es n).server.past = l ++ n.server.past ∧ (run w es n).find u = some ⟨cl, up, down ++ b⟩ ∧
      Underway w (sends u l) b ∧ Server.Stage u true true true a (run w es n).server
  | [], _, n, down, hc, st => ⟨[], [], rfl, by simpa [run] using hc, .nil, st⟩
  | (ts, e) :: es, he, n, down, hc, st => by
    have one : ∃ l b, (System.step w n (ts, e)).server.past = l ++ n.server.past ∧
        (System.step w n (ts, e)).find u = some ⟨cl, up, down ++ b⟩ ∧
        Underway w (sends u l) b ∧ Server.Stage u true true true a (System.step w n (ts, e)).server := by
      have none' : ∃ l b, n.server.past = l ++ n.server.past ∧ n.find u = some ⟨cl, up, down ++ b⟩ ∧
          Underway w (sends u l) b ∧ Server.Stage u true true true a n.server :=
        ⟨[], [], rfl, by simpa using hc, .nil, st⟩
      have client : ∀ i, ∃ l b, (System.step w n (ts, .client v i)).server.past = l ++ n.server.past ∧
          (System.step w n (ts, .client v i)).find u = some ⟨cl, up, down ++ b⟩ ∧
          Underway w (sends u l) b ∧ Server.Stage u true true true a (System.step w n (ts, .client v i)).server := by
        intro i
        simp only [System.step]
        split
        · split
          · refine ⟨[], [], rfl, ?_, .nil, st⟩
            rw [Net.find_set_other huv, hc, List.append_nil]
          · exact none'
        · exact none'
      have hreg := he _ List.mem_cons_self
      cases hreg with
      | opened =>
        simp only [System.step]
        split
        · refine serve_aside ts (i := .connected v) (Ne.symm huv) ?_ st
          rw [find_snoc, if_neg huv]
          exact hc
        · exact none'
      | toServer k =>
        simp only [System.step]
        split
        · refine serve_aside ts (i := .received v _) (Ne.symm huv) ?_ st
          rw [Net.find_set_other huv, hc]
        · exact none'
      | toClient k =>
        simp only [System.step]
        split
        · split
          · refine ⟨[], [], rfl, ?_, .nil, st⟩
            rw [Net.find_set_other huv, hc, List.append_nil]
          · exact none'
        · exact none'
      | confirm => exact serve_aside ts (i := .confirm) trivial hc st
      | call job body => exact client _
      | proceed k => exact client _
      | api => exact client _
      | work => exact client _
      | authMessage => exact client _
      | auth k => exact client _
    obtain ⟨l, b, h1, h2, h3, h4⟩ := one
    obtain ⟨l', b', k1, k2, k3, k4⟩ := regular_aside huv es (fun e h => he e (List.mem_cons_of_mem _ h)) h2 h4
    refine ⟨l' ++ l, b ++ b', ?_, ?_, ?_, k4⟩
    · show (run w es (System.step w n (ts, e))).server.past = _
      rw [k1, h1, List.append_assoc]
    · show (run w es (System.step w n (ts, e))).find u = _
      rw [k2, List.append_assoc]
    · rw [sends_append]
      exact h3.append k3

/-- A client gets the broadcasts that another client's call caused. -/
theorem overheard {name : Uuid → List Char} {n : Net P} {u v : Uuid} (huv : u ≠ v) (h : Established n u)
    {es : List (UInt64 × Event P)} {calls : List (Client.Job × P)} (hes : Progress v calls es) (hrun : (run w es n).exit = .running)
    {later : List (Server.Act P)} (hl : (run w es n).server.past = later ++ n.server.past) {bl : List (Uuid × Server.Out P)}
    (hb : sends u later = (bl.filter (fun x => x.1 = u)).map (fun x => (0, x.2))) (hbl : ∀ x ∈ bl, ∃ ref p, x.2 = .msg ref p)
    (hrd : ∀ x ∈ bl, x.1 = u → ReadRight w name x.2) :
    ∃ es', Progress u [] es' ∧ Established (run w (es ++ es') n) u ∧ (Admitted w n u → Admitted w (run w (es ++ es') n) u) ∧
      Received n (run w (es ++ es') n) u ((messagesFor u bl).filter (fun x => x.1 ∈ w.client.broadcasts)) := by
  obtain ⟨cl, a, A, hr, st, hst⟩ := h.pieces (w := w)
  obtain ⟨l, b, k1, k2, k3, k4⟩ := regular_aside (w := w) huv es hes.regular A.conn st
  have : l = later := List.append_cancel_right (k1.symm.trans hl)
  subst this
  rw [hb] at k3
  have A1 : At (run w es n) u cl [] b (run w es n).server := ⟨hrun, by simpa using k2, rfl⟩
  obtain ⟨es', cl', newer, p1, p2, p3, p4, p5⟩ := catches_up A1 hr hbl hrd k3
  rw [← run_append] at p2
  exact ⟨es', p1, p2.established_only p3 k4, fun ha => (p2.established (w := w) p3 k4 (hst ha)).2, _, _, newer, A.conn, p2.conn, p4, p5⟩

/-! ### Events -/

theorem messagesFor_mem {u : Uuid} {x : Flow.Ref × P} : ∀ {l : List (Uuid × Server.Out P)}, x ∈ messagesFor u l → (u, .msg x.1 x.2) ∈ l
  | (v, .msg ref y) :: l, h => by
    simp only [messagesFor] at h
    split at h
    · rename_i e
      rcases List.mem_cons.1 h with rfl | h
      · rw [e]; exact List.mem_cons_self
      · exact List.mem_cons_of_mem _ (messagesFor_mem h)
    · exact List.mem_cons_of_mem _ (messagesFor_mem h)
  | (_, .confirmation) :: l, h => List.mem_cons_of_mem _ (messagesFor_mem (l := l) h)
  | (_, .selfKey _) :: l, h => List.mem_cons_of_mem _ (messagesFor_mem (l := l) h)
  | (_, .hash _) :: l, h => List.mem_cons_of_mem _ (messagesFor_mem (l := l) h)
  | (_, .beacon) :: l, h => List.mem_cons_of_mem _ (messagesFor_mem (l := l) h)

/-- What user code gave are declared broadcasts. -/
theorem gives_declared {bs : List Flow.Broadcast} {cs : Server.Casts P bs} {l : List (Uuid × Server.Out P)} (h : Server.Gives bs cs l) :
    ∀ x ∈ l, ∃ b ∈ bs, ∃ p, x.2 = .msg b.reference p := by
  induction h with
  | nil => simp
  | required _ ih =>
    intro x hx
    rcases List.mem_append.1 hx with hx | hx
    · obtain ⟨v, _, rfl⟩ := List.mem_map.1 hx
      exact ⟨_, List.mem_cons_self, _, rfl⟩
    · obtain ⟨b, hb, p, e⟩ := ih x hx
      exact ⟨b, List.mem_cons_of_mem _ hb, p, e⟩
  | chosen _ ih =>
    intro x hx
    rcases List.mem_append.1 hx with hx | hx
    · obtain ⟨v, _, rfl⟩ := List.mem_map.1 hx
      exact ⟨_, List.mem_cons_self, _, rfl⟩
    · obtain ⟨b, hb, p, e⟩ := ih x hx
      exact ⟨b, List.mem_cons_of_mem _ hb, p, e⟩
  | omitted _ ih =>
    intro x hx
    obtain ⟨b, hb, p, e⟩ := ih x hx
    exact ⟨b, List.mem_cons_of_mem _ hb, p, e⟩

theorem messagesFor_declared {bs : List Flow.Broadcast} {cs : Server.Casts P bs} {l : List (Uuid × Server.Out P)} (h : Server.Gives bs cs l)
    {u : Uuid} {x : Flow.Ref × P} (hx : x ∈ messagesFor u l) : x.1 ∈ bs.map Flow.Broadcast.reference := by
  obtain ⟨b, hb, p, e⟩ := gives_declared h _ (messagesFor_mem hx)
  injection e with e _
  exact List.mem_map.2 ⟨b, hb, e.symm⟩

theorem event_received (sm : Smooth w) {name : Uuid → List Char} {n : Net P} {u : Uuid} (h : Established n u)
    {e : Flow.Event} {ref : Flow.Ref} {p : P} {cs : Server.Casts P e.broadcasts}
    (hf : w.server.workflow.events.find? (fun e => e.reference = some ref && !Flow.isDefaultEvent ref) = some e)
    (hem : w.env.emit (n.server.push (.event ref)) e (some p) = .ok cs)
    (hr : ∀ l, Server.Gives e.broadcasts cs l → ∀ x ∈ l, x.1 = u → ReadRight w name x.2) :
    ∃ es l, Server.Gives e.broadcasts cs l ∧ Progress u [] es ∧ Established (run w ((0, .server (.event ref p)) :: es) n) u ∧
      (Admitted w n u → Admitted w (run w ((0, .server (.event ref p)) :: es) n) u) ∧
      Received n (run w ((0, .server (.event ref p)) :: es) n) u ((messagesFor u l).filter (fun x => x.1 ∈ w.client.broadcasts)) := by
  obtain ⟨cl, a, A, hr', st, hst⟩ := h.pieces (w := w)
  have hg := Server.castList_gives e.broadcasts cs
  have href : e.reference = some ref := by
    have := List.find?_some hf
    simp only [Bool.and_eq_true, decide_eq_true_eq] at this
    exact this.1
  have hstep : Server.step w.server w.env w.opts (.event ref p) n.server = (.ok (), { n.server with
      past := .deferred :: allSent (Server.flat (Server.castList _ cs)) ++ .event ref :: n.server.past }) := by
    simp only [Server.step]
    rw [hf]
    dsimp only
    unfold Server.warned Server.emitEvent
    simp only [href, Option.getD_some]
    rw [hem]
    dsimp only
    rw [if_neg (by simp [sm.answer]), broadcastAll_sent sm.send]
    simp [Server.State.push]
  have A1 := A.serve (w := w) 0 (i := .event ref p) (by simp) (by simp) hstep
    (.deferred :: allSent (Server.flat (Server.castList _ cs)) ++ [.event ref]) (by simp)
  have h0 : run w [(0, .server (.event ref p))] n = n.serve w 0 (.event ref p) := by
    simp [run, System.step, ownServer]
  rw [← h0] at A1
  have hs : sends u (.deferred :: allSent (Server.flat (Server.castList e.broadcasts cs)) ++ [.event ref]) =
      ((Server.flat (Server.castList e.broadcasts cs)).filter (fun x => x.1 = u)).map (fun x => (0, x.2)) := by
    rw [List.cons_append]
    show sends u (allSent _ ++ _) = _
    rw [sends_append, sends_allSent]
    rfl
  rw [hs, List.nil_append] at A1
  obtain ⟨es', cl', newer, p1, p2, p3, p4, p5⟩ := catches_up A1 hr' (flat_msgs _ _) (hr _ hg) (.flat 0 _)
  rw [← run_append] at p2
  exact ⟨es', _, hg, p1, p2.established_only p3 (st.of_find rfl), fun ha => (p2.established (w := w) p3 (st.of_find rfl) (hst ha)).2, _, _, newer, A.conn, p2.conn, p4, p5⟩

end Verif.System
