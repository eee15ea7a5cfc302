import Verif.Proofs.NetworkTsTsShake
import Verif.Props.NetworkTsTsQuiet
set_option autoImplicit false
/-!
Property theorems about handshakes between a generated TypeScript client and a generated TypeScript server: C183.
What happened before is arbitrary, see `Network.Event`.
-/
namespace Verif.Props

open Verif Verif.Spec Verif.Network

variable {cfg : TsServer.Cfg} {env : TsServer.Env} {opts : Server.Options}
  {takes : List TsServer.Act → Network.Uuid → UInt32 → TsServer.Out → Bool}
  {down : UInt64 → UInt32 → TsServer.Out → Bytes} {ccfg : TsClient.Cfg} {cenv : TsClient.Env}
  {up : UInt64 → UInt32 → TsClient.Out → Bytes}

/-- **C183** Whatever happened: when nothing is under way between a TypeScript client that was connected once
and the server, the client is ready if and only if protocol and workflow of the client are those of the server;
and it is told the id of its connection. -/
theorem C183_ready_when_quiet (t : TsTerms)
    (es : List (UInt64 × Event (tsServer cfg env opts takes down) (tsClient ccfg cenv up)))
    (hf : Network.Framed (run es .new)) (hs : Network.Small (run es .new)) (ha : TsFaithful t (run es .new)) (hr : TsReadable (run es .new))
    {u : Network.Uuid} {c : Conn (tsClient ccfg cenv up)} (hq : TsQuiet (run es .new) u c) (ho : TsOutside cfg.workflow)
    (hk : TsShakes cfg takes ccfg cenv t u) (h1 : TsOnce c.client.2) (h2 : TsKeys cfg u (run es .new).server.2.past) :
    .emitted (.ready (.str (t.name u))) ∈ c.client.2.past ↔ t.hashes = (cfg.protocolHash, cfg.workflowHash) := by
  constructor
  · exact fun h => (C165_handshake_with_server t es hf hs ha hq.conn ho h).2.1
  · intro hh
    obtain ⟨v, hv⟩ := quiet_ready hf hs ha hr hq hk h1 h2 hh
    rw [← (C165_handshake_with_server t es hf hs ha hq.conn ho hv).1]
    exact hv

/-! ### Witnesses -/

/-- Two clients connect. The bytes of client 1 come in pieces, its user code calls `assign` too, and the answer to
this call is looked at first. -/
def wharfMixed : List (UInt64 × Event WharfServer QuayClient) :=
  [(1, .opened 1), (1, .opened 2), (2, .client 2 .connected), (3, .client 1 .connected), (3, .client 1 (.user .assign)),
   (4, .toServer 2 100), (4, .toServer 1 7), (4, .toServer 1 200), (4, .toClient 1 5), (4, .toClient 1 200),
   (5, .client 1 (.work 1)), (5, .client 1 (.work 0)), (5, .client 1 (.work 0)), (6, .toServer 1 100), (6, .toClient 2 100),
   (6, .toClient 1 100), (7, .client 1 (.work 0))]

theorem wharf_shakes : TsShakes wharfCfg (fun _ _ _ _ => true) quayCfg pierEnv wharfTerms 1 :=
  ⟨single_foreign 'K' (by decide), ⟨Char.ofNat 1, List.mem_singleton.2 rfl, by decide +kernel⟩, ⟨rfl, fun _ => rfl⟩, fun _ _ => ⟨rfl, fun _ => rfl⟩,
    ⟨rfl, rfl⟩, fun _ _ => rfl⟩

def wharfKeys : TsServer.Act → Bool
  | .got _ ⟨_, .obj _⟩ _ => true
  | .got _ _ _ => false
  | _ => true

theorem wharf_keys {h : List TsServer.Act} (hk : h.all wharfKeys = true) : TsKeys wharfCfg 1 h := by
  intro x q hx _
  have := List.all_eq_true.1 hk _ hx
  obtain ⟨p, b⟩ := x
  cases b <;> first | exact ⟨_, rfl⟩ | exact absurd this (by simp [wharfKeys])

def wharfOwn : TsClient.Act → Bool
  | .sent _ _ (.msg [a] _) => a ≠ '.'
  | .sent _ _ (.msg _ _) => false
  | _ => true

theorem wharf_once {s : TsClient.State}
    (h : (decide (TsClient.times TsClient.Act.isOpened s.past = 1 ∧ s.sequence ≤ 4294967296) && s.past.all wharfOwn) = true) : TsOnce s := by
  rw [Bool.and_eq_true, decide_eq_true_iff] at h
  refine ⟨h.1.1, h.1.2, ?_⟩
  intro w q ref b hm
  have := List.all_eq_true.1 h.2 _ hm
  match ref, this with
  | [a], this => exact single_foreign a (by simpa [wharfOwn] using this)
  | [], this => exact absurd this (by simp [wharfOwn])
  | _ :: _ :: _, this => exact absurd this (by simp [wharfOwn])

/-- Nothing is under way for client 1 after the run `wharfMixed`. -/
example : Network.Framed (run wharfMixed .new) ∧ Network.Small (run wharfMixed .new) ∧ TsFaithful wharfTerms (run wharfMixed .new) ∧
    TsReadable (run wharfMixed .new) ∧ TsShakes wharfCfg (fun _ _ _ _ => true) quayCfg pierEnv wharfTerms 1 ∧
    TsKeys wharfCfg 1 (run wharfMixed .new).server.2.past ∧ TsOutside wharfCfg.workflow ∧
    wharfTerms.hashes = (wharfCfg.protocolHash, wharfCfg.workflowHash) ∧ ∃ c, TsQuiet (run wharfMixed .new) 1 c ∧ TsOnce c.client.2 := by
  refine ⟨wharf_framed _, wharf_small (by decide +kernel), wharf_faithful _ (by decide +kernel) (by decide +kernel), wharf_readable _,
    wharf_shakes, wharf_keys (by decide +kernel), wharf_outside, rfl, ?_⟩
  obtain ⟨c, h1, h2⟩ := wharf_still (es := wharfMixed) (fun c => decide (TsClient.times TsClient.Act.isOpened c.client.2.past = 1 ∧
    c.client.2.sequence ≤ 4294967296) && c.client.2.past.all wharfOwn) (by decide +kernel) (by decide +kernel)
  exact ⟨c, h1, wharf_once h2⟩

end Verif.Props
