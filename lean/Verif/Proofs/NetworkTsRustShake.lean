import Verif.Proofs.NetworkTsRustQuiet
import Verif.Proofs.NetworkTsTsShake
import Verif.Proofs.ServerShaken
import Verif.Spec.NetworkTsRustShake
set_option autoImplicit false
/-!
Handshakes of a TypeScript client with a Rust server, in moments in which nothing is under way.
-/
namespace Verif.Network

open Verif Verif.Spec

variable {P : Type} {cfg : Server.Cfg P} {env : Server.Env P} {opts : Server.Options}
  {down : UInt64 → UInt32 → Server.Out P → Bytes} {ccfg : TsClient.Cfg} {cenv : TsClient.Env}
  {up : UInt64 → UInt32 → TsClient.Out → Bytes}

theorem rustServer_shaken (es : List (ServerEvent (Server.Input P))) :
    Server.Inv cfg opts none (serverRun (rustServer cfg env opts down) es).2 ∧
    Server.Shaken cfg env (serverRun (rustServer cfg env opts down) es).2.past := by
  suffices h : ∀ r : List (ServerEvent (Server.Input P)), Server.Inv cfg opts none (serverRun (rustServer cfg env opts down) r.reverse).2 ∧
      Server.Shaken cfg env (serverRun (rustServer cfg env opts down) r.reverse).2.past by
    have := h es.reverse
    rwa [List.reverse_reverse] at this
  intro r
  induction r with
  | nil =>
    refine ⟨Server.inv_new, ?_⟩
    intro l u m q older e
    exact absurd e (by simp [serverRun, rustServer, Server.State.new])
  | cons e r ih =>
    rw [List.reverse_cons, serverRun_snoc]
    generalize serverRun (rustServer cfg env opts down) r.reverse = s at ih
    rcases rustServer_step (pack := down) (cfg := cfg) (env := env) (opts := opts) e s with ⟨h, _⟩ | ⟨i, _, h⟩
    · rw [h]; exact ih
    · rw [h]
      rcases System.serverStep_cases (w := someSetup cfg env opts) s.1 i s.2 with ⟨k, k'⟩ | ⟨k0, k, k'⟩
      · rw [k]; exact ih
      · rw [k]
        exact ⟨Server.step_keeps env i s.2 ih.1, Server.step_shaken i ih.1 ih.2⟩

/-- A number occurs at one place. -/
theorem rustGot_once {u : Uuid} {past a b a' b' : List (Server.Act P)} {m m' : Server.In P} {q : UInt32}
    (hp : (System.heard u past).Pairwise (fun x y => x.1 < y.1)) (e : past = a ++ .got u m q :: b) (e' : past = a' ++ .got u m' q :: b') :
    a = a' ∧ m = m' ∧ b = b' := by
  have no : ∀ (a l b : List (Server.Act P)) (m m' : Server.In P), past = a ++ .got u m q :: (l ++ .got u m' q :: b) → False := by
    intro a l b m m' e
    rw [e, System.heard_append] at hp
    have h1 := (List.pairwise_append.1 hp).1
    rw [show System.heard u (.got u m q :: (l ++ .got u m' q :: b)) = System.heard u (l ++ .got u m' q :: b) ++ [(q, m)] by
      simp [System.heard]] at h1
    have := (List.pairwise_append.1 h1).2.2 (q, m') (System.mem_heard.2 (by simp)) (q, m) (by simp)
    exact absurd this (by simp)
  rcases List.append_eq_append_iff.1 (e.symm.trans e') with ⟨l, h1, h2⟩ | ⟨l, h1, h2⟩
  · cases l with
    | nil => cases h2; exact ⟨by simpa using h1.symm, rfl, rfl⟩
    | cons x l =>
      simp only [List.cons_append, List.cons.injEq] at h2
      obtain ⟨rfl, h2⟩ := h2
      exact (no a l b' m m' (by rw [e, h2])).elim
  · cases l with
    | nil => cases h2; exact ⟨by simpa using h1, rfl, rfl⟩
    | cons x l =>
      simp only [List.cons_append, List.cons.injEq] at h2
      obtain ⟨rfl, h2⟩ := h2
      exact (no a' l b m' m (by rw [e', h2])).elim

section
variable {es : List (UInt64 × Event (rustServer cfg env opts down) (tsClient ccfg cenv up))} {u : Uuid}
  {c : Conn (tsClient ccfg cenv up)} {n : Nat} {t : Terms P}

/-- When the server looks at the self key of the only handshake, it has not accepted hashes. -/
theorem rust_no_hash_yet (hf : Framed (run es (.new : Net (rustServer cfg env opts down) (tsClient ccfg cenv up))))
    (ha : Faithful t (run es (.new : Net (rustServer cfg env opts down) (tsClient ccfg cenv up))))
    (hc : (run es (.new : Net (rustServer cfg env opts down) (tsClient ccfg cenv up))).find u = some c)
    (hone : ∀ k, .assigning k true ∈ c.client.2.past → k = n)
    {q : UInt32} {out : TsClient.Out} (hsent : .sent (.assign n true) q.toNat out ∈ c.client.2.past) {x : Server.In P} {newer older : List (Server.Act P)}
    (e : (run es (.new : Net (rustServer cfg env opts down) (tsClient ccfg cenv up))).server.2.past = newer ++ .got u x q :: older) (a b : List Char) :
    ¬ Server.HashShown u a b older := by
  obtain ⟨es', hi⟩ := inv_run (growing_tsRust (cfg := cfg) (env := env) (opts := opts) (down := down) (ccfg := ccfg) (cenv := cenv) (up := up)) es
  have hl := tsRust_law hi hc
  rintro ⟨q', g1⟩
  have g1 := Server.since_sub g1
  have hlt : q' < q := by
    have hp := tsRust_increasing hi hf hc
    rw [e, System.heard_append] at hp
    have h1 := (List.pairwise_append.1 hp).1
    rw [show System.heard u (.got u x q :: older) = System.heard u older ++ [(q, x)] by simp [System.heard]] at h1
    exact (List.pairwise_append.1 h1).2.2 (q', .hash a b) (System.mem_heard.2 g1) (q, x) (by simp)
  have hg : (q', Server.In.hash a b) ∈ System.heard u (run es (.new : Net (rustServer cfg env opts down) (tsClient ccfg cenv up))).server.2.past :=
    System.mem_heard.2 (by rw [e]; simp [g1])
  obtain ⟨⟨q2, out2⟩, h1, h2, ts, h3⟩ := (tsRust_up hi hf hc).mem hg
  obtain ⟨w, k, h4, h5⟩ := mem_tsSent.1 h1
  dsimp only at h2 h3
  subst h2 h5
  have hsame := ha.up u c hc _ _ _ h4 ts _ h3
  cases out2 with
  | selfKey => obtain ⟨_, h⟩ := hsame; cases h
  | msg ref b => obtain ⟨_, h, _⟩ := hsame; cases h
  | hash =>
    obtain ⟨l1, l2, ey⟩ := List.append_of_mem h4
    have hly := hl
    rw [ey] at hly
    obtain ⟨_, _, hnum, _, hcause⟩ := hly.at
    cases w with
    | call k o => obtain ⟨_, _, _, _, _, _, _, k⟩ := hcause; cases k
    | assign k b => cases hcause.2
    | hash k' v =>
      obtain ⟨k1, ⟨qa, ma, k2, _⟩, _⟩ := hcause
      obtain rfl := hone k' (by rw [ey]; simp [k1])
      obtain ⟨z1, z2, ez⟩ := List.append_of_mem k2
      have hlz := (TsClient.Lawful.tail hly).2
      rw [ez] at hlz
      obtain ⟨⟨outa, k3⟩, _⟩ := hlz.at
      have k4 : .sent (.assign k' true) qa.toNat outa ∈ l2 := by rw [ez]; simp [k3]
      have := hnum _ _ _ k4
      have e1 := (TsClient.law_sent_unique hl hsent (show .sent (.assign k' true) qa.toNat outa ∈ c.client.2.past by rw [ey]; simp [k4])).1
      have e2 := (lawful_number hl h4).2
      have := UInt32.lt_iff_toNat_lt.1 hlt
      omega

/-- The server looked at the self key of the only handshake, and answered it directly. -/
theorem rust_key_answered (hf : Framed (run es (.new : Net (rustServer cfg env opts down) (tsClient ccfg cenv up))))
    (ha : Faithful t (run es (.new : Net (rustServer cfg env opts down) (tsClient ccfg cenv up))))
    (hr : Readable (run es (.new : Net (rustServer cfg env opts down) (tsClient ccfg cenv up))))
    (hq : RustQuiet (run es (.new : Net (rustServer cfg env opts down) (tsClient ccfg cenv up))) u c)
    (hone : ∀ k, .assigning k true ∈ c.client.2.past → k = n) (hk : RustShakes cfg env ccfg cenv t u)
    {q : UInt32} {out : TsClient.Out} (hsent : .sent (.assign n true) q.toNat out ∈ c.client.2.past) :
    ∃ newer x older, (run es (.new : Net (rustServer cfg env opts down) (tsClient ccfg cenv up))).server.2.past =
      newer ++ .send u q (.selfKey u) true :: .got u x q :: older := by
  obtain ⟨es', hi⟩ := inv_run (growing_tsRust (cfg := cfg) (env := env) (opts := opts) (down := down) (ccfg := ccfg) (cenv := cenv) (up := up)) es
  have hl := tsRust_law hi hq.conn
  obtain ⟨_, ⟨_, rfl⟩, _⟩ := hl.cause hsent
  obtain ⟨⟨q', x⟩, w1, w2, ts, w3⟩ := Pairs.left (rustQuiet_up hi hf hr hq) (mem_tsSent.2 ⟨_, _, hsent, rfl⟩)
  dsimp only at w2 w3
  rw [show q.toNat.toUInt32 = q by simp] at w2
  subst w2
  obtain ⟨p, rfl⟩ := ha.up u c hq.conn _ _ _ hsent ts x w3
  obtain ⟨newer, older, e⟩ := List.append_of_mem (System.mem_heard.1 w1)
  have hsh := (rustServer_shaken (cfg := cfg) (env := env) (opts := opts) (down := down) es').2
  rw [← hi.server] at hsh
  obtain ⟨l', s, rfl⟩ := (hsh newer u _ q older e).key p rfl (rust_no_hash_yet hf ha hq.conn hone hsent e _ _) hk.packs.1
  rw [(hk.takes s q).1] at e
  exact ⟨l', _, older, e.trans (List.append_cons ..).symm⟩

/-- The server looked at the hashes, accepted them, and answered that. -/
theorem rust_hash_answered (hf : Framed (run es (.new : Net (rustServer cfg env opts down) (tsClient ccfg cenv up))))
    (ha : Faithful t (run es (.new : Net (rustServer cfg env opts down) (tsClient ccfg cenv up))))
    (hr : Readable (run es (.new : Net (rustServer cfg env opts down) (tsClient ccfg cenv up))))
    (hq : RustQuiet (run es (.new : Net (rustServer cfg env opts down) (tsClient ccfg cenv up))) u c)
    (hk : RustShakes cfg env ccfg cenv t u)
    {q : UInt32} {v : TsServer.Js} {out : TsClient.Out} (hsent : .sent (.hash n v) q.toNat out ∈ c.client.2.past) :
    t.hashes = (cfg.protocolHash, cfg.workflowHash) ∧
    ∃ newer x older, (run es (.new : Net (rustServer cfg env opts down) (tsClient ccfg cenv up))).server.2.past =
      newer ++ .send u q (.hash false) true :: .got u x q :: older := by
  obtain ⟨es', hi⟩ := inv_run (growing_tsRust (cfg := cfg) (env := env) (opts := opts) (down := down) (ccfg := ccfg) (cenv := cenv) (up := up)) es
  have hl := tsRust_law hi hq.conn
  obtain ⟨_, ⟨_, _, rfl⟩, _⟩ := hl.cause hsent
  obtain ⟨⟨q', x⟩, w1, w2, ts, w3⟩ := Pairs.left (rustQuiet_up hi hf hr hq) (mem_tsSent.2 ⟨_, _, hsent, rfl⟩)
  dsimp only at w2 w3
  rw [show q.toNat.toUInt32 = q by simp] at w2
  subst w2
  obtain rfl : x = .hash t.hashes.1 t.hashes.2 := ha.up u c hq.conn _ _ _ hsent ts x w3
  obtain ⟨newer, older, e⟩ := List.append_of_mem (System.mem_heard.1 w1)
  have hsh := (rustServer_shaken (cfg := cfg) (env := env) (opts := opts) (down := down) es').2
  rw [← hi.server] at hsh
  obtain ⟨l', s, er, rfl, h1, h2⟩ := (hsh newer u _ q older e).hash _ _ rfl hk.packs.2
  rw [(hk.takes s q).2] at e h2
  cases er with
  | false => exact ⟨Prod.ext (h1 rfl).1 (h1 rfl).2, l', _, older, e.trans (List.append_cons ..).symm⟩
  | true =>
    refine absurd ?_ hq.never
    rw [e]
    rcases h2 rfl rfl with h | h <;> simp [h]

/-- The only handshake is done, in a quiet moment. -/
theorem rustQuiet_ready (hf : Framed (run es (.new : Net (rustServer cfg env opts down) (tsClient ccfg cenv up))))
    (hs : Small (run es (.new : Net (rustServer cfg env opts down) (tsClient ccfg cenv up))))
    (ha : Faithful t (run es (.new : Net (rustServer cfg env opts down) (tsClient ccfg cenv up))))
    (hr : Readable (run es (.new : Net (rustServer cfg env opts down) (tsClient ccfg cenv up))))
    (hq : RustQuiet (run es (.new : Net (rustServer cfg env opts down) (tsClient ccfg cenv up))) u c)
    (hk : RustShakes cfg env ccfg cenv t u) (ho : JoinedOnce c.client.2) : ∃ v, .emitted (.ready v) ∈ c.client.2.past := by
  have hname : (t.name u).all TsClient.jsSpace = false := by
    obtain ⟨x, k1, k2⟩ := hk.name
    rw [List.all_eq_false]
    exact ⟨x, k1, by rw [k2]; decide⟩
  obtain ⟨honce, hnum⟩ := ho
  obtain ⟨es', hi⟩ := inv_run (growing_tsRust (cfg := cfg) (env := env) (opts := opts) (down := down) (ccfg := ccfg) (cenv := cenv) (up := up)) es
  have hl := tsRust_law hi hq.conn
  have hst : ∃ n, (∀ k, .assigning k true ∈ c.client.2.past → k = n) ∧ ((∃ ok, .shakeEnded n ok ∈ c.client.2.past) ∨
      ∃ w q out, (w = .assign n true ∨ ∃ v, w = .hash n v) ∧ .sent w q out ∈ c.client.2.past ∧ ∀ q m, .delivered w q m ∉ c.client.2.past) ∧
      TsClient.Shaken c.client.2 := by
    obtain ⟨is, h1, _⟩ := (hi.links u c hq.conn).client
    obtain ⟨js, h2, _⟩ := tsClient_run (cfg := ccfg) (env := cenv) (pack := up) is
    have hd := hq.done
    rw [h1, h2] at honce hd ⊢
    have hsh := TsClient.shaken_run hk.sends hk.asks js
    obtain ⟨n, hn, hone⟩ := TsClient.once_begun hsh honce
    exact ⟨n, hone, TsClient.shake_state (TsClient.inv_run ccfg cenv js) hn hd, hsh⟩
  obtain ⟨n, hone, hst, hsh⟩ := hst
  rcases hst with ⟨ok, hok⟩ | ⟨w, k, out, hw, hsent, hno⟩
  · cases ok with
    | true =>
      obtain ⟨v, _, _, k, _⟩ := hsh.ready n hok
      exact ⟨v, k⟩
    | false =>
      exfalso
      rcases hsh.why n hok with (⟨q, m, k1, k2⟩ | ⟨v, q, m, k1, k2⟩) | k
      · obtain ⟨o, out, x, newer, h, s1, _, e1, an, ⟨ts, ar⟩⟩ := tsRust_answer hi hf hs hq.conn k1
        obtain ⟨newer', x', older', e2⟩ := rust_key_answered hf ha hr hq hone hk s1
        have dn := ha.down u q out (by rw [e1]; simp) ts m ar
        have hinc := tsRust_increasing hi hf hq.conn
        have hout : out = .selfKey u := by
          cases an with
          | selfKey => rfl
          | hash =>
            have := (rustGot_once hinc (e1.trans (List.append_cons ..)) (e2.trans (List.append_cons ..))).1
            cases (List.append_inj' this rfl).2
          | wrongHash =>
            have := (rustGot_once hinc (e1.trans (List.append_cons ..)) (e2.trans (List.append_cons ..))).1
            cases (List.append_inj' this rfl).2
          | @request _ ref =>
            have := (rustGot_once hinc (a := newer ++ [.send u q out true, .respond u ref q]) (e1.trans (List.append_assoc _ [_, _] _).symm) (e2.trans (List.append_cons ..))).1
            rw [show newer ++ [.send u q out true, .respond u ref q] = newer ++ [.send u q out true] ++ [.respond u ref q] by simp] at this
            cases (List.append_inj' this rfl).2
          | @beacon b =>
            have := (rustGot_once hinc (a := newer ++ [.send u q .beacon true, .beacon u b.reference q]) (e1.trans (List.append_assoc _ [_, _] _).symm) (e2.trans (List.append_cons ..))).1
            rw [show newer ++ [.send u q .beacon true, .beacon u b.reference q] = newer ++ [.send u q .beacon true] ++ [.beacon u b.reference q] by simp] at this
            cases (List.append_inj' this rfl).2
        subst hout
        obtain ⟨g1, ps, g2, g3⟩ := dn
        refine k2 ⟨t.name u, ⟨ps, ?_, g3⟩, hname⟩
        have := found_holds (TsServer.found_isA (service_spells g1 (by decide)) g2)
        rw [g2] at this
        rw [selfKey_name]
        exact this
      · obtain ⟨o, out, x, newer, h, s1, ⟨ts', ar'⟩, e1, an, ⟨ts, ar⟩⟩ := tsRust_answer hi hf hs hq.conn k1
        obtain ⟨hh, _⟩ := rust_hash_answered hf ha hr hq hk s1
        obtain ⟨_, ⟨_, _, rfl⟩, _⟩ := hl.cause s1
        obtain rfl : x = .hash t.hashes.1 t.hashes.2 := ha.up u c hq.conn _ _ _ s1 ts' x (by simpa using ar')
        have dn := ha.down u q out (by rw [e1]; simp) ts m ar
        have hout : out = .hash false := by
          rw [hh] at an
          cases an with
          | hash => rfl
          | wrongHash k => rcases k with k | k <;> exact absurd rfl k
        subst hout
        obtain ⟨g1, ps, g2, g3, g4⟩ := dn
        refine k2 ⟨m.body, ?_, ?_⟩
        · rw [hash_name]
          exact found_holds (TsServer.found_isA (service_spells g1 (by decide)) g2)
        · intro ps' e'
          rw [g2] at e'
          cases e'
          exact g4.1 rfl
      · omega
  · exfalso
    have hnn := (lawful_number hl hsent).2
    rw [← hnn] at hsent
    have hun := rustQuiet_unanswered hf hs hr hq hsent hno
    rcases hw with rfl | ⟨v, rfl⟩
    · obtain ⟨_, _, _, e⟩ := rust_key_answered hf ha hr hq hone hk hsent
      exact hun (.selfKey u) (System.mem_sends.2 (by rw [e]; simp))
    · obtain ⟨_, _, _, _, e⟩ := rust_hash_answered hf ha hr hq hk hsent
      exact hun (.hash false) (System.mem_sends.2 (by rw [e]; simp))

end
end Verif.Network
