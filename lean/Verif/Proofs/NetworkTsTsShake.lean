import Verif.Proofs.NetworkTsTsQuiet
import Verif.Proofs.TsClientShaken
import Verif.Spec.NetworkTsTsShake
set_option autoImplicit false
/-!
Handshakes of a TypeScript client with a TypeScript server, in moments in which nothing is under way.
-/
namespace Verif.TsClient

open Verif Verif.Flow Verif.TsServer

theorem law_assigning_unique {cfg : Cfg} {h : List Act} (hl : Lawful cfg h) {n : Nat} {b b' : Bool} (h1 : .assigning n b ∈ h)
    (h2 : .assigning n b' ∈ h) : b = b' := by
  induction h with
  | nil => simp at h1
  | cons a h ih =>
    rcases List.mem_cons.1 h1 with k1 | k1
    · subst k1
      rcases List.mem_cons.1 h2 with k2 | k2
      · cases k2; rfl
      · exact absurd k2 (hl.1.2.1 _)
    · rcases List.mem_cons.1 h2 with k2 | k2
      · subst k2
        exact absurd k1 (hl.1.2.1 _)
      · exact ih hl.2 k1 k2

/-- A client that was connected once has begun one handshake. -/
theorem once_begun {cfg : Cfg} {env : Env} {is : List Input} (hs : Shaken (run cfg env is .new).2)
    (h1 : times Act.isOpened (run cfg env is .new).2.past = 1) :
    ∃ n, .assigning n true ∈ (run cfg env is .new).2.past ∧ ∀ k, .assigning k true ∈ (run cfg env is .new).2.past → k = n := by
  have he := (even_run_from (cfg := cfg) (env := env) is (s := .new) ⟨rfl, rfl, rfl⟩).1
  have hl := lawful_run cfg env is
  rw [h1] at he
  have hc : .emitted .connected ∈ (run cfg env is .new).2.past := by
    have : 0 < List.countP Act.isConnected (run cfg env is .new).2.past := by unfold times at he; omega
    obtain ⟨a, k1, k2⟩ := List.countP_pos_iff.1 this
    cases a with
    | emitted e => cases e <;> first | exact k1 | exact absurd k2 (by simp [Act.isConnected])
    | _ => exact absurd k2 (by simp [Act.isConnected])
  obtain ⟨n, hn⟩ := hs.told hc
  refine ⟨n, hn, ?_⟩
  have hle : times Act.isStart (run cfg env is .new).2.past ≤ times Act.isOpened (run cfg env is .new).2.past :=
    Nat.le_trans (Nat.le_add_right _ _) (starts_le hl)
  generalize (run cfg env is .new).2.past = past at hn hle h1
  have hle : times Act.isStart past ≤ 1 := by omega
  intro k hk
  obtain ⟨l1, l2, e⟩ := List.append_of_mem hn
  rw [e] at hk hle
  unfold times at hle
  rw [List.countP_append, List.countP_cons] at hle
  have h0 : List.countP Act.isStart l1 = 0 ∧ List.countP Act.isStart l2 = 0 := by
    simp only [Act.isStart, if_true] at hle
    omega
  rcases List.mem_append.1 hk with g | g
  · exact absurd rfl (List.countP_eq_zero.1 h0.1 _ g)
  · rcases List.mem_cons.1 g with g | g
    · cases g; rfl
    · exact absurd rfl (List.countP_eq_zero.1 h0.2 _ g)

/-- A handshake has ended, or waits for an answer, if there are no jobs. -/
theorem shake_state {cfg : Cfg} {s : State} {n : Nat} (h : Inv cfg [] s) (hc : .assigning n true ∈ s.past) (ht : s.tasks = []) :
    (∃ ok, .shakeEnded n ok ∈ s.past) ∨
      ∃ w q out, (w = .assign n true ∨ ∃ v, w = .hash n v) ∧ .sent w q out ∈ s.past ∧ ∀ q m, .delivered w q m ∉ s.past := by
  rcases h.shakes n hc with ((⟨r, k⟩ | k) | k | k)
  · exfalso
    obtain ⟨l1, l2, e⟩ := List.append_of_mem k
    have hl := h.law
    rw [e] at hl
    obtain ⟨_, o, _, _, k1, _⟩ := hl.at
    exact law_exclusive h.law (o := o) (by rw [e]; exact List.mem_append_right _ (List.mem_cons_of_mem _ k1)) hc
  · exact .inl k
  · right
    rcases List.mem_append.1 k with k | k
    · obtain ⟨⟨q, w⟩, k1, k2⟩ := List.mem_map.1 k
      have hw := h.waiter w (List.mem_append_left _ (List.mem_map.2 ⟨_, k1, rfl⟩))
      obtain ⟨⟨out, g1⟩, g2⟩ := h.pend q _ k1
      refine ⟨w, q, out, ?_, g1, fun q' m g3 => g2 _ q' m g3 ?_⟩
      · cases w with
        | call n' o =>
          have k2 : n' = n := k2
          subst k2
          exact (law_exclusive h.law hw.1 hc).elim
        | assign n' b =>
          have k2 : n' = n := k2
          subst k2
          rw [law_assigning_unique h.law hw.1 hc]
          exact .inl rfl
        | hash n' v =>
          have k2 : n' = n := k2
          subst k2
          exact .inr ⟨v, rfl⟩
      · obtain ⟨l1, l2, e⟩ := List.append_of_mem g3
        have hl := h.law
        rw [e] at hl
        obtain ⟨⟨out', g4⟩, _⟩ := hl.at
        have g4 : Act.sent w q'.toNat out' ∈ s.past := by
          rw [e]; exact List.mem_append_right _ (List.mem_cons_of_mem _ g4)
        exact (law_sent_unique h.law g4 g1).1
    · rw [ht] at k; simp at k
  · simp at k

end Verif.TsClient

namespace Verif.Network

open Verif Verif.Spec

variable {cfg : TsServer.Cfg} {env : TsServer.Env} {opts : Server.Options}
  {takes : List TsServer.Act → Uuid → UInt32 → TsServer.Out → Bool}
  {down : UInt64 → UInt32 → TsServer.Out → Bytes} {ccfg : TsClient.Cfg} {cenv : TsClient.Env}
  {up : UInt64 → UInt32 → TsClient.Out → Bytes}

theorem service_spells {m : TsServer.Msg} {a : String} (h : IsService m a) (hb : '.' ∉ a.toList) :
    TsServer.IsA m ("InternalServiceGroup".toList ++ '.' :: a.toList) := by
  unfold TsServer.IsA
  rw [h]
  exact ⟨by decide, a.toList, ⟨hb, rfl⟩, rfl⟩

/-- A message of the service group has nothing from outside of it. -/
theorem service_outside {m : TsServer.Msg} {a : String} (h : IsService m a) {ref : Flow.Ref} (hf : Foreign ref) {v : TsServer.Js}
    (hh : TsClient.Holds m ref v) : False := by
  obtain ⟨ns, h1, h2, _⟩ := holds_path hh
  refine hf _ h1 ?_
  rw [heads_of_prefix h2 (spells_ne_nil h1) (by rw [h]; simp), h]
  rfl

section
variable {es : List (UInt64 × Event (tsServer cfg env opts takes down) (tsClient ccfg cenv up))} {u : Uuid}
  {c : Conn (tsClient ccfg cenv up)} {n : Nat} {t : TsTerms}

/-- When the server looks at the self key of the only handshake, it has not accepted hashes. -/
theorem no_hash_yet (hf : Framed (run es (.new : Net (tsServer cfg env opts takes down) (tsClient ccfg cenv up))))
    (hs : Small (run es (.new : Net (tsServer cfg env opts takes down) (tsClient ccfg cenv up))))
    (ha : TsFaithful t (run es (.new : Net (tsServer cfg env opts takes down) (tsClient ccfg cenv up))))
    (hc : (run es (.new : Net (tsServer cfg env opts takes down) (tsClient ccfg cenv up))).find u = some c)
    (hone : ∀ k, .assigning k true ∈ c.client.2.past → k = n)
    (hown : Foreign cfg.selfKey) (hmsg : ∀ w q ref b, .sent w q (.msg ref b) ∈ c.client.2.past → Foreign ref)
    {q : UInt32} {out : TsClient.Out} (hsent : .sent (.assign n true) q.toNat out ∈ c.client.2.past) {x : TsServer.Msg} {newer older : List TsServer.Act}
    (e : (run es (.new : Net (tsServer cfg env opts takes down) (tsClient ccfg cenv up))).server.2.past = newer ++ .got u x q :: older) :
    ¬ TsServer.HashShown cfg u older := by
  obtain ⟨es', hi⟩ := inv_run (growing_tsTs (cfg := cfg) (env := env) (opts := opts) (takes := takes) (down := down) (ccfg := ccfg) (cenv := cenv) (up := up)) es
  have hl := tsTs_law hi hc
  rintro ⟨m', q', ps, g1, g2, _⟩
  have g1 := TsServer.since_sub g1
  have hlt : q' < q := by
    have hp := tsTs_increasing hi hf hs hc
    rw [e, tsHeard_append] at hp
    have h1 := (List.pairwise_append.1 hp).1
    rw [show tsHeard u (.got u x q :: older) = tsHeard u older ++ [(q, x)] by simp [tsHeard]] at h1
    exact (List.pairwise_append.1 h1).2.2 (q', m') (mem_tsHeard.2 g1) (q, x) (by simp)
  have hg : (q', m') ∈ tsHeard u (run es (.new : Net (tsServer cfg env opts takes down) (tsClient ccfg cenv up))).server.2.past :=
    mem_tsHeard.2 (by rw [e]; simp [g1])
  obtain ⟨⟨q2, out2⟩, h1, h2, ts, h3⟩ := sub_right (tsTs_up hi hf hs hc) hg
  obtain ⟨w, k, h4, h5⟩ := mem_tsSent.1 h1
  dsimp only at h2 h3
  subst h2 h5
  have hsame := ha.up u c hc _ _ _ h4 ts m' h3
  have g2 := found_holds g2
  rw [hashRequest_name] at g2
  cases out2 with
  | selfKey => exact foreign_service hsame hown g2
  | msg ref b => exact foreign_service hsame.1 (hmsg _ _ _ _ h4) g2
  | hash =>
    obtain ⟨l1, l2, ey⟩ := List.append_of_mem h4
    have hly := hl
    rw [ey] at hly
    obtain ⟨_, _, hnum, _, hcause⟩ := hly.at
    cases w with
    | call k o => obtain ⟨_, _, _, _, _, _, _, k⟩ := hcause; cases k
    | assign k b => cases hcause.2
    | hash k' v =>
      obtain ⟨k1, ⟨qa, ma, k2, _⟩, _⟩ := hcause
      obtain rfl := hone k' (by rw [ey]; simp [k1])
      obtain ⟨z1, z2, ez⟩ := List.append_of_mem k2
      have hlz := (TsClient.Lawful.tail hly).2
      rw [ez] at hlz
      obtain ⟨⟨outa, k3⟩, _⟩ := hlz.at
      have k4 : .sent (.assign k' true) qa.toNat outa ∈ l2 := by rw [ez]; simp [k3]
      have := hnum _ _ _ k4
      have e1 := (TsClient.law_sent_unique hl hsent (show .sent (.assign k' true) qa.toNat outa ∈ c.client.2.past by rw [ey]; simp [k4])).1
      have e2 := (lawful_number hl h4).2
      have := UInt32.lt_iff_toNat_lt.1 hlt
      omega

theorem due_done (hi : ∃ es', InvWith (run es (.new : Net (tsServer cfg env opts takes down) (tsClient ccfg cenv up))) es') {x : TsServer.Msg} {q : UInt32}
    {newer older : List TsServer.Act}
    (e : (run es (.new : Net (tsServer cfg env opts takes down) (tsClient ccfg cenv up))).server.2.past = newer ++ .got u x q :: older)
    {P : TsServer.Act → Prop} (hP : TsServer.Due cfg u x q older P) : ∃ newer' a, newer = newer' ++ [a] ∧ P a := by
  obtain ⟨es', hi⟩ := hi
  have ht := tsServer_treated (cfg := cfg) (env := env) (opts := opts) (takes := takes) (down := down) es'
  rw [← hi.server] at ht
  exact ht newer u x q older e P hP

/-- The server answered: directly after it looked at the message. -/
def ShakeAnswered (past : List TsServer.Act) (u : Uuid) (q : UInt32) (P : TsServer.Out → Prop) : Prop :=
  ∃ newer x older o, past = newer ++ .send .handshake u q o :: .got u x q :: older ∧ P o

theorem key_answered (hf : Framed (run es (.new : Net (tsServer cfg env opts takes down) (tsClient ccfg cenv up))))
    (hs : Small (run es (.new : Net (tsServer cfg env opts takes down) (tsClient ccfg cenv up))))
    (ha : TsFaithful t (run es (.new : Net (tsServer cfg env opts takes down) (tsClient ccfg cenv up))))
    (hr : TsReadable (run es (.new : Net (tsServer cfg env opts takes down) (tsClient ccfg cenv up))))
    (hq : TsQuiet (run es (.new : Net (tsServer cfg env opts takes down) (tsClient ccfg cenv up))) u c)
    (hone : ∀ k, .assigning k true ∈ c.client.2.past → k = n)
    (hown : Foreign cfg.selfKey) (hmsg : ∀ w q ref b, .sent w q (.msg ref b) ∈ c.client.2.past → Foreign ref)
    (hobj : ∀ x q, .got u x q ∈ (run es (.new : Net (tsServer cfg env opts takes down) (tsClient ccfg cenv up))).server.2.past →
      TsServer.IsA x cfg.selfKey → ∃ ps, x.body = .obj ps) (hp : cfg.packs (.selfKey u) = true)
    {q : UInt32} {out : TsClient.Out} (hsent : .sent (.assign n true) q.toNat out ∈ c.client.2.past) :
    ShakeAnswered (run es (.new : Net (tsServer cfg env opts takes down) (tsClient ccfg cenv up))).server.2.past u q (fun o => o = .selfKey u) := by
  have hinv := inv_run (growing_tsTs (cfg := cfg) (env := env) (opts := opts) (takes := takes) (down := down) (ccfg := ccfg) (cenv := cenv) (up := up)) es
  obtain ⟨es', hi⟩ := id hinv
  have hl := tsTs_law hi hq.conn
  obtain ⟨_, ⟨_, rfl⟩, _⟩ := hl.cause hsent
  obtain ⟨⟨q', x⟩, w1, w2, ts, w3⟩ := Pairs.left (quiet_up hi hf hs hr hq) (mem_tsSent.2 ⟨_, _, hsent, rfl⟩)
  dsimp only at w2 w3
  rw [show q.toNat.toUInt32 = q by simp] at w2
  subst w2
  have hsame := ha.up u c hq.conn _ _ _ hsent ts x w3
  have hgot := mem_tsHeard.1 w1
  obtain ⟨ps, hps⟩ := hobj _ _ hgot hsame
  obtain ⟨newer, older, e⟩ := List.append_of_mem hgot
  obtain ⟨newer', a, rfl, rfl⟩ := due_done hinv e (.key (TsServer.found_isA hsame hps) (no_hash_yet hf hs ha hq.conn hone hown hmsg hsent e) hp)
  exact ⟨newer', x, older, _, by rw [e]; simp, rfl⟩

theorem hash_answered (hf : Framed (run es (.new : Net (tsServer cfg env opts takes down) (tsClient ccfg cenv up))))
    (hs : Small (run es (.new : Net (tsServer cfg env opts takes down) (tsClient ccfg cenv up))))
    (ha : TsFaithful t (run es (.new : Net (tsServer cfg env opts takes down) (tsClient ccfg cenv up))))
    (hr : TsReadable (run es (.new : Net (tsServer cfg env opts takes down) (tsClient ccfg cenv up))))
    (hq : TsQuiet (run es (.new : Net (tsServer cfg env opts takes down) (tsClient ccfg cenv up))) u c)
    (hown : Foreign cfg.selfKey) (hp : ∀ e, cfg.packs (.hash e) = true)
    {q : UInt32} {v : TsServer.Js} {out : TsClient.Out} (hsent : .sent (.hash n v) q.toNat out ∈ c.client.2.past) :
    ShakeAnswered (run es (.new : Net (tsServer cfg env opts takes down) (tsClient ccfg cenv up))).server.2.past u q
      (fun o => ∃ e, o = .hash e ∧ (t.hashes = (cfg.protocolHash, cfg.workflowHash) → e = false)) := by
  have hinv := inv_run (growing_tsTs (cfg := cfg) (env := env) (opts := opts) (takes := takes) (down := down) (ccfg := ccfg) (cenv := cenv) (up := up)) es
  obtain ⟨es', hi⟩ := id hinv
  have hl := tsTs_law hi hq.conn
  obtain ⟨_, ⟨_, _, rfl⟩, _⟩ := hl.cause hsent
  obtain ⟨⟨q', x⟩, w1, w2, ts, w3⟩ := Pairs.left (quiet_up hi hf hs hr hq) (mem_tsSent.2 ⟨_, _, hsent, rfl⟩)
  dsimp only at w2 w3
  rw [show q.toNat.toUInt32 = q by simp] at w2
  subst w2
  obtain ⟨s1, ps, s2, s3, s4⟩ := ha.up u c hq.conn _ _ _ hsent ts x w3
  obtain ⟨newer, older, e⟩ := List.append_of_mem (mem_tsHeard.1 w1)
  have hfound := TsServer.found_isA (service_spells s1 (by decide)) s2
  rw [← hashRequest_name] at hfound
  obtain ⟨newer', a, rfl, er, rfl⟩ := due_done hinv e (.hash (fun k hk => service_outside s1 hown (found_holds hk)) hfound hp)
  have e' : (run es (.new : Net (tsServer cfg env opts takes down) (tsClient ccfg cenv up))).server.2.past =
      newer' ++ .send .handshake u q (.hash er) :: .got u x q :: older := by rw [e]; simp
  refine ⟨newer', x, older, _, e', er, rfl, ?_⟩
  intro hh
  have hfine := tsTs_fine hi
  rw [e'] at hfine
  obtain ⟨m, older', k0, k⟩ := TsServer.allFine_at hfine
  cases k0
  rcases k with ⟨_, _, k⟩ | ⟨b, er', k1, k2, k3⟩
  · cases k
  · cases k2
    have k1 := found_holds k1
    rw [hashRequest_name] at k1
    obtain ⟨_, rfl⟩ := service_same s1 (by decide) k1
    rw [hh] at s3 s4
    exact k3.2 ⟨ps, s2, s3, s4⟩

/-- The answer the client got is the one of the server. -/
theorem shake_answer (hf : Framed (run es (.new : Net (tsServer cfg env opts takes down) (tsClient ccfg cenv up))))
    (hs : Small (run es (.new : Net (tsServer cfg env opts takes down) (tsClient ccfg cenv up))))
    (ha : TsFaithful t (run es (.new : Net (tsServer cfg env opts takes down) (tsClient ccfg cenv up))))
    (hc : (run es (.new : Net (tsServer cfg env opts takes down) (tsClient ccfg cenv up))).find u = some c)
    {w : TsClient.Waiter} {q : UInt32} {m : TsServer.Msg} {P : TsServer.Out → Prop} (hd : .delivered w q m ∈ c.client.2.past)
    (hans : ShakeAnswered (run es (.new : Net (tsServer cfg env opts takes down) (tsClient ccfg cenv up))).server.2.past u q P) :
    ∃ o, P o ∧ TsSameDown t o m := by
  obtain ⟨es', hi⟩ := inv_run (growing_tsTs (cfg := cfg) (env := env) (opts := opts) (takes := takes) (down := down) (ccfg := ccfg) (cenv := cenv) (up := up)) es
  obtain ⟨o1, f1, out1, x1, newer1, g1, s1, _, e1, an1, ⟨ts4, a4⟩⟩ := tsTs_answer hi hf hs hc hd
  obtain ⟨newer, x, older, o, e, hP⟩ := hans
  have dn := ha.down f1 u q out1 (by rw [e1]; simp) ts4 m a4
  obtain ⟨a, y, b, e2, k⟩ := an1.place e1
  obtain ⟨k1, _, _⟩ := got_once (tsTs_increasing hi hf hs hc) (e.trans (List.append_cons ..)) (e2.trans (List.append_cons ..))
  have k2 := (List.append_inj' k1 rfl).2
  cases k2
  rcases k with ⟨_, k, _⟩ | ⟨t, _, ⟨_, _, k⟩ | ⟨_, _, k⟩⟩
  · cases k
    exact ⟨_, hP, dn⟩
  · cases k
  · cases k

theorem posted_of {h : List TsServer.Act} {newer older : List TsServer.Act} {f : TsServer.Origin} {q : UInt32} {o : TsServer.Out}
    (e : h = newer ++ .send f u q o :: older) (ht : takes older u q o = true) : (q, o) ∈ tsPosted takes u h := by
  subst e
  induction newer with
  | nil => simp [tsPosted, ht]
  | cons a newer ih =>
    cases a <;> simp only [List.cons_append, tsPosted] <;> first | exact ih | exact List.mem_append_left _ ih

/-- The only handshake is done, in a quiet moment. -/
theorem quiet_ready (hf : Framed (run es (.new : Net (tsServer cfg env opts takes down) (tsClient ccfg cenv up))))
    (hs : Small (run es (.new : Net (tsServer cfg env opts takes down) (tsClient ccfg cenv up))))
    (ha : TsFaithful t (run es (.new : Net (tsServer cfg env opts takes down) (tsClient ccfg cenv up))))
    (hr : TsReadable (run es (.new : Net (tsServer cfg env opts takes down) (tsClient ccfg cenv up))))
    (hq : TsQuiet (run es (.new : Net (tsServer cfg env opts takes down) (tsClient ccfg cenv up))) u c)
    (hk : TsShakes cfg takes ccfg cenv t u) (ho : TsOnce c.client.2)
    (hobj : TsKeys cfg u (run es (.new : Net (tsServer cfg env opts takes down) (tsClient ccfg cenv up))).server.2.past)
    (hh : t.hashes = (cfg.protocolHash, cfg.workflowHash)) : ∃ v, .emitted (.ready v) ∈ c.client.2.past := by
  obtain ⟨hown, hname, hp, htk, hcp, hcx⟩ := hk
  obtain ⟨honce, hnum, hmsg⟩ := ho
  have hname : (t.name u).all TsClient.jsSpace = false := by
    obtain ⟨x, k1, k2⟩ := hname
    rw [List.all_eq_false]
    exact ⟨x, k1, by rw [k2]; decide⟩
  obtain ⟨es', hi⟩ := inv_run (growing_tsTs (cfg := cfg) (env := env) (opts := opts) (takes := takes) (down := down) (ccfg := ccfg) (cenv := cenv) (up := up)) es
  have hl := tsTs_law hi hq.conn
  have hst : ∃ n, (∀ k, .assigning k true ∈ c.client.2.past → k = n) ∧ ((∃ ok, .shakeEnded n ok ∈ c.client.2.past) ∨
      ∃ w q out, (w = .assign n true ∨ ∃ v, w = .hash n v) ∧ .sent w q out ∈ c.client.2.past ∧ ∀ q m, .delivered w q m ∉ c.client.2.past) ∧
      TsClient.Shaken c.client.2 := by
    obtain ⟨is, h1, _⟩ := (hi.links u c hq.conn).client
    obtain ⟨js, h2, _⟩ := tsClient_run (cfg := ccfg) (env := cenv) (pack := up) is
    have hd := hq.done
    rw [h1, h2] at honce hd ⊢
    have hsh := TsClient.shaken_run hcx hcp js
    obtain ⟨n, hn, hone⟩ := TsClient.once_begun hsh honce
    exact ⟨n, hone, TsClient.shake_state (TsClient.inv_run ccfg cenv js) hn hd, hsh⟩
  obtain ⟨n, hone, hst, hsh⟩ := hst
  rcases hst with ⟨ok, hok⟩ | ⟨w, k, out, hw, hsent, hno⟩
  · cases ok with
    | true =>
      obtain ⟨v, _, _, k, _⟩ := hsh.ready n hok
      exact ⟨v, k⟩
    | false =>
      exfalso
      have sent_of : ∀ w q m, .delivered w q m ∈ c.client.2.past → ∃ out, .sent w (UInt32.toNat q) out ∈ c.client.2.past := by
        intro w q m hd
        obtain ⟨l1, l2, e⟩ := List.append_of_mem hd
        have hl' := hl
        rw [e] at hl'
        obtain ⟨⟨out, k⟩, _⟩ := hl'.at
        exact ⟨out, by rw [e]; simp [k]⟩
      rcases hsh.why n hok with (⟨q, m, k1, k2⟩ | ⟨v, q, m, k1, k2⟩) | k
      · obtain ⟨out, k3⟩ := sent_of _ _ _ k1
        obtain ⟨o, rfl, g1, ps, g2, g3⟩ := shake_answer hf hs ha hq.conn k1 (key_answered hf hs ha hr hq hone hown hmsg hobj hp.1 k3)
        refine k2 ⟨t.name u, ⟨ps, ?_, g3⟩, hname⟩
        have := found_holds (TsServer.found_isA (service_spells g1 (by decide)) g2)
        rw [g2] at this
        rw [selfKey_name]
        exact this
      · obtain ⟨out, k3⟩ := sent_of _ _ _ k1
        obtain ⟨o, ⟨e, rfl, he⟩, g1, ps, g2, g3, g4⟩ := shake_answer hf hs ha hq.conn k1 (hash_answered hf hs ha hr hq hown hp.2 k3)
        refine k2 ⟨m.body, ?_, ?_⟩
        · rw [hash_name]
          exact found_holds (TsServer.found_isA (service_spells g1 (by decide)) g2)
        · intro ps' e'
          rw [g2] at e'
          cases e'
          exact g4.1 (he hh)
      · omega
  · exfalso
    have hnn := (lawful_number hl hsent).2
    rw [← hnn] at hsent
    have hun := quiet_unanswered hf hs hr hq hsent hno
    rcases hw with rfl | ⟨v, rfl⟩
    · obtain ⟨_, _, _, o, e, rfl⟩ := key_answered hf hs ha hr hq hone hown hmsg hobj hp.1 hsent
      exact hun _ (posted_of e (htk _ _).1)
    · obtain ⟨_, _, _, o, e, er, rfl, _⟩ := hash_answered hf hs ha hr hq hown hp.2 hsent
      exact hun _ (posted_of e ((htk _ _).2 er))

end
end Verif.Network
