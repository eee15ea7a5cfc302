import Verif.Props.NetworkTextsQuiet
import Verif.Props.NetworkTsRustShake
import Verif.Props.NetworkTsTsShake
set_option autoImplicit false
/-!
TypeScript clients generated from texts get ready (C185): whatever the order of events was.
-/
namespace Verif.Props

open Verif Verif.Spec Verif.System Verif.Network

/-! ### C185 -/

section
variable {cd : Network.Codec} {ccfg : TsClient.Cfg} {cenv : TsClient.Env} {opts : Server.Options}
  {cfg : Server.Cfg Rust.Msg} {env : Server.Env Rust.Msg}
  {tcfg : TsServer.Cfg} {tenv : TsServer.Env} {takes : List TsServer.Act → Network.Uuid → UInt32 → TsServer.Out → Bool}

/-- Messages the generated TypeScript code decodes are objects. -/
theorem decoded_object {bytes : Bytes} {m : TsServer.Msg} (h : Decodes cd.decoder bytes m) : ∃ ps, m.body = .obj ps := by
  obtain ⟨f, x, _, _, h1, rfl⟩ := h
  unfold Spec.delivered at h1
  split at h1
  · split at h1
    · rename_i t ht
      cases h1
      show ∃ ps, t.body = .obj ps
      simp only [Codec.decoder, Codec.getMsg] at ht
      split at ht
      · rename_i vs _
        cases hd : Ts.decodeEnum vs.erase f.body <;> rw [hd] at ht <;> cases ht
        exact ⟨_, rfl⟩
      · split at ht
        · rename_i fs _
          cases hd : Ts.decode fs.erase f.body <;> rw [hd] at ht <;> cases ht
          exact ⟨_, rfl⟩
        · cases ht
    · cases h1
  · cases h1

/-- The self keys a server with generated code looks at are objects. -/
theorem ts_keys (es : List (UInt64 × Network.Event (cd.tsServer tcfg tenv opts takes) (cd.tsClient ccfg cenv)))
    (hf : Network.Framed (Network.run es .new)) (hs : Network.Small (Network.run es .new)) {u : Network.Uuid}
    {cn : Network.Conn (cd.tsClient ccfg cenv)} (hc : (Network.run es .new).find u = some cn) :
    TsKeys (tsServerCfg cd tcfg) u (Network.run es .new).server.2.past := by
  intro x q hx _
  obtain ⟨es', hi⟩ := inv_run (growing_tsTs (cfg := tsServerCfg cd tcfg) (env := tenv) (opts := opts) (takes := takes)
    (down := fun ts q o => cd.pack (cd.answer o) q ts) (ccfg := { ccfg with decoder := cd.decoder }) (cenv := cenv)
    (up := fun ts q o => cd.pack (cd.call o) q ts)) es
  obtain ⟨_, _, _, _, h⟩ := sub_right (tsTs_up hi hf hs hc) (mem_tsHeard.2 hx)
  exact decoded_object h

/-- **C185** (partial) TypeScript client, Rust server, generated from an accepted protocol and an accepted workflow as in
C179. Whatever the order of events: when nothing is under way, the client was connected once, and the server never asked
the transport to drop it, then the client is ready, it is told the text of the id of its connection, and the hashes in
its code are those of the server. The full statement has no bound on ids (C179) and no conditions on names. -/
theorem C185_ts_rust_ready_partial {ptext : List Char} {pr : Prot.Store} (hp : Prot.Parses ptext (.accepted pr))
    (ho : ¬ Prot.LeftOpen pr) {text : List Char} {flow : Flow.Store} {pr2 : Prot.Store}
    (h : Flow.Parses pr text (.accepted flow pr2)) {c : Flow.Config} (hc : flow.config = some c)
    (hn : NoServices pr) (hs : Prot.Supported pr2) (hna : NamesApart pr2) {sg : UInt16} (hsm : pr2.sequence < 256)
    (hcd : Network.CodecOf pr2 sg cd) (hkey : BothOk cd.codec.protocol cd.codec.key)
    (hk : c.selfKey = some (cd.codec.name (msgId cd.codec.key))) (hpl : Plain cd.codec) (hw : cfg.workflow = flow)
    (hout : ∀ r ∈ flow.requests, ∀ a, AnswerOf r a → Network.Foreign a) (hcom : ∀ r ∈ flow.requests, Complete r)
    (es : List (UInt64 × Network.Event (cd.rustServer cfg env opts) (cd.tsClient ccfg cenv)))
    (ht : TsRustTyped cd (Network.run es .new)) (hsn : Network.Small (Network.run es .new)) {u : Network.Uuid}
    {cn : Network.Conn (cd.tsClient ccfg cenv)} (hq : RustQuiet (Network.run es .new) u cn)
    (hsh : RustShakes cfg env ccfg cenv (named cd) u) (h1 : JoinedOnce cn.client.2) :
    .emitted (.ready (.str (cd.codec.uuid u))) ∈ cn.client.2.past ∧ cd.codec.hashes = (cfg.protocolHash, cfg.workflowHash) := by
  have ok := (C179_texts_to_codecs_partial hp ho h hc hn hs hna sg).2.2 hsm cd hcd hkey hk hpl
  obtain ⟨hf, hfa, hre⟩ := C176_codecs_faithful cd ok _ ht
  subst hw
  exact C184_ready_when_quiet (named cd) es hf hsn hfa hre hq (fun r hr => ⟨hcom r hr, hout r hr⟩)
    ⟨hsh.name, hsh.packs, hsh.takes, hsh.asks, hsh.sends⟩ h1

/-- **C185** (partial) TypeScript on both sides. Whatever the order of events: when nothing is under way and the client was
connected once, the client is ready, with the text of the id of its connection, if and only if the hashes in its code are
those of the server. -/
theorem C185_ts_ts_ready_partial {ptext : List Char} {pr : Prot.Store} (hp : Prot.Parses ptext (.accepted pr))
    (ho : ¬ Prot.LeftOpen pr) {text : List Char} {flow : Flow.Store} {pr2 : Prot.Store}
    (h : Flow.Parses pr text (.accepted flow pr2)) {c : Flow.Config} (hc : flow.config = some c)
    (hn : NoServices pr) (hs : Prot.Supported pr2) (hna : NamesApart pr2) {sg : UInt16} (hsm : pr2.sequence < 256)
    (hcd : Network.CodecOf pr2 sg cd) (hkey : BothOk cd.codec.protocol cd.codec.key)
    (hk : c.selfKey = some (cd.codec.name (msgId cd.codec.key))) (hpl : Plain cd.codec) (hw : tcfg.workflow = flow)
    (hout : ∀ r ∈ flow.requests, ∀ a, AnswerOf r a → Network.Foreign a)
    (es : List (UInt64 × Network.Event (cd.tsServer tcfg tenv opts takes) (cd.tsClient ccfg cenv)))
    (ht : TsTsTyped cd (Network.run es .new)) (hsn : Network.Small (Network.run es .new)) {u : Network.Uuid}
    {cn : Network.Conn (cd.tsClient ccfg cenv)} (hq : TsQuiet (Network.run es .new) u cn)
    (hsh : TsShakes (tsServerCfg cd tcfg) takes ccfg cenv (tsNamed cd) u) (h1 : TsOnce cn.client.2) :
    .emitted (.ready (.str (cd.codec.uuid u))) ∈ cn.client.2.past ↔ cd.codec.hashes = (tcfg.protocolHash, tcfg.workflowHash) := by
  have ok := (C179_texts_to_codecs_partial hp ho h hc hn hs hna sg).2.2 hsm cd hcd hkey hk hpl
  obtain ⟨hf, hfa, hre⟩ := C177_codec_faithful cd ok _ ht
  subst hw
  exact C183_ready_when_quiet (tsNamed cd) es hf hsn hfa hre hq hout
    ⟨hsh.own, hsh.name, hsh.packs, hsh.takes, hsh.asks, hsh.sends⟩ h1 (ts_keys es hf hsn hq.conn)

end

/-! The witnesses are those of C182. -/

theorem market_outside : ∀ r ∈ marketFlow.requests, ∀ a, AnswerOf r a → Network.Foreign a := by
  intro r hr a ha
  rw [List.mem_singleton.1 hr] at ha
  exact (market_distinct a ha).1

theorem market_complete : ∀ r ∈ marketFlow.requests, Complete r := by
  intro r hr
  rw [List.mem_singleton.1 hr]
  unfold Complete
  decide

theorem market_named : ∃ x ∈ villageNamed.codec.uuid 1, TsClient.jsSpace x = false := ⟨'1', by decide, by decide +kernel⟩

/-- Nothing is under way after the run `marketRun`, and the client was connected once. -/
example : TsRustTyped villageNamed (Network.run marketRun .new) ∧ Network.Small (Network.run marketRun .new) ∧
    RustShakes marketServerCfg marketEnv marketClientCfg pierEnv (named villageNamed) 1 ∧
    ∃ c, RustQuiet (Network.run marketRun .new) 1 c ∧ JoinedOnce c.client.2 := by
  refine ⟨market_typed (by decide +kernel) (by decide +kernel), dock_small (by decide +kernel),
    ⟨market_named, ⟨rfl, fun _ => rfl⟩, fun _ _ => ⟨rfl, fun _ => rfl⟩, ⟨rfl, rfl⟩, fun _ _ => rfl⟩, ?_⟩
  obtain ⟨c, h1, h2⟩ := market_still (n := Network.run marketRun .new) (fun c => decide (TsClient.times TsClient.Act.isOpened c.client.2.past = 1 ∧
    c.client.2.sequence ≤ 4294967296)) (by decide +kernel) (by decide +kernel)
  rw [decide_eq_true_iff] at h2
  exact ⟨c, h1, h2.1, h2.2⟩

/-- Nothing is under way after the run `marketTsRun`, the client was connected once and sent `Q`. -/
example : TsTsTyped villageNamed (Network.run marketTsRun .new) ∧ Network.Small (Network.run marketTsRun .new) ∧
    TsShakes (tsServerCfg villageNamed marketTsServerCfg) (fun _ _ _ _ => true) marketClientCfg pierEnv (tsNamed villageNamed) 1 ∧
    ∃ c, TsQuiet (Network.run marketTsRun .new) 1 c ∧ TsOnce c.client.2 := by
  refine ⟨market_ts_typed (by decide +kernel) (by decide +kernel), dock_small (by decide +kernel),
    ⟨single_foreign 'K' (by decide), market_named, ⟨rfl, fun _ => rfl⟩, fun _ _ => ⟨rfl, fun _ => rfl⟩, ⟨rfl, rfl⟩, fun _ _ => rfl⟩, ?_⟩
  obtain ⟨c, h1, h2⟩ := market_ts_still (n := Network.run marketTsRun .new) (fun c => decide (TsClient.times TsClient.Act.isOpened c.client.2.past = 1 ∧
    c.client.2.sequence ≤ 4294967296) && c.client.2.past.all (fun | .sent _ _ (.msg ref _) => ref == ['Q'] | _ => true))
    (by decide +kernel) (by decide +kernel)
  rw [Bool.and_eq_true, decide_eq_true_iff, List.all_eq_true] at h2
  refine ⟨c, h1, h2.1.1, h2.1.2, fun w q ref b k => ?_⟩
  have := h2.2 _ k
  rw [beq_iff_eq] at this
  rw [this]
  exact single_foreign 'Q' (by decide)

end Verif.Props
