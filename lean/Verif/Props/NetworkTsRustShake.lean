import Verif.Proofs.NetworkTsRustShake
import Verif.Props.NetworkQuiet
set_option autoImplicit false
/-!
Property theorems about handshakes between a generated TypeScript client and a generated Rust server: C184.
What happened before is arbitrary, see `Network.Event`.
-/
namespace Verif.Props

open Verif Verif.Spec Verif.Network

variable {P : Type} {cfg : Server.Cfg P} {env : Server.Env P} {opts : Server.Options}
  {down : UInt64 → UInt32 → Server.Out P → Bytes} {ccfg : TsClient.Cfg} {cenv : TsClient.Env}
  {up : UInt64 → UInt32 → TsClient.Out → Bytes}

/-- **C184** Whatever happened: when nothing is under way between a TypeScript client that was connected once
and a Rust server which never asked the transport to drop it, the client is ready, it is told the id of its
connection, and protocol and workflow of the client are those of the server. -/
theorem C184_ready_when_quiet (t : Terms P)
    (es : List (UInt64 × Event (rustServer cfg env opts down) (tsClient ccfg cenv up)))
    (hf : Network.Framed (run es .new)) (hs : Network.Small (run es .new)) (ha : Network.Faithful t (run es .new))
    (hr : Network.Readable (run es .new)) {u : Network.Uuid} {c : Conn (tsClient ccfg cenv up)} (hq : RustQuiet (run es .new) u c)
    (ho : Outside cfg.workflow) (hk : RustShakes cfg env ccfg cenv t u) (h1 : JoinedOnce c.client.2) :
    .emitted (.ready (.str (t.name u))) ∈ c.client.2.past ∧ t.hashes = (cfg.protocolHash, cfg.workflowHash) := by
  obtain ⟨v, hv⟩ := rustQuiet_ready hf hs ha hr hq hk h1
  obtain ⟨rfl, hh, _⟩ := C159_handshake_with_server t es hf hs ha hq.conn ho hv
  exact ⟨hv, hh⟩

/-! ### Witnesses -/

/-- The bytes of client 1 come in pieces, its user code calls `assign` too, and the answer to this call is looked
at first. -/
def quayMixed : List (UInt64 × Event QuayServer QuayClient) :=
  [(1, .opened 1), (1, .opened 2), (2, .server .confirm), (3, .client 1 .connected), (3, .client 1 (.user .assign)),
   (4, .toServer 1 7), (4, .toServer 1 200), (4, .toClient 1 5), (4, .toClient 1 300),
   (5, .client 1 (.work 1)), (5, .client 1 (.work 0)), (5, .client 1 (.work 0)), (6, .toServer 1 100),
   (6, .toClient 1 100), (7, .client 1 (.work 0))]

theorem quay_shakes : RustShakes town.server townEnv quayCfg pierEnv quayTerms 1 :=
  ⟨⟨Char.ofNat 1, List.mem_singleton.2 rfl, by decide +kernel⟩, ⟨rfl, fun _ => rfl⟩, fun _ _ => ⟨rfl, fun _ => rfl⟩, ⟨rfl, rfl⟩, fun _ _ => rfl⟩

/-- Nothing is under way for client 1 after the run `quayMixed`, the connection of client 2 is not yet confirmed. -/
example : Network.Framed (run quayMixed .new) ∧ Network.Small (run quayMixed .new) ∧ Network.Faithful quayTerms (run quayMixed .new) ∧
    Network.Readable (run quayMixed .new) ∧ RustShakes town.server townEnv quayCfg pierEnv quayTerms 1 ∧ Outside town.server.workflow ∧
    ∃ c, RustQuiet (run quayMixed .new) 1 c ∧ JoinedOnce c.client.2 := by
  refine ⟨quay_framed _, quay_small (by decide +kernel), quay_faithful _ (by decide +kernel) (by decide +kernel), quay_readable _,
    quay_shakes, town_outside, ?_⟩
  obtain ⟨c, h1, h2⟩ := quay_still (es := quayMixed) (fun c => decide (TsClient.times TsClient.Act.isOpened c.client.2.past = 1 ∧
    c.client.2.sequence ≤ 4294967296)) (by decide +kernel) (by decide +kernel)
  rw [decide_eq_true_iff] at h2
  exact ⟨c, h1, h2.1, h2.2⟩

/-- `never` is needed: if the client is connected before the server confirmed the connection, the server asks the
transport to drop it, and the client does not get ready. -/
def quayEarly : List (UInt64 × Event QuayServer QuayClient) :=
  [(1, .opened 1), (3, .client 1 .connected), (4, .toServer 1 100), (4, .server .confirm), (4, .toClient 1 100),
   (5, .client 1 (.work 0)), (5, .client 1 (.work 0)), (6, .toServer 1 100), (6, .toClient 1 100), (7, .client 1 (.work 0))]

/-- **C184** Without that the server never asked the transport to drop the client, the claim is wrong: nothing
is under way and the client, which has the right hashes, is not ready. -/
theorem C184_dropped_clients_not_ready :
    ∃ c, (run quayEarly .new).find 1 = some c ∧ c.up = [] ∧ c.down = [] ∧ (run quayEarly .new).server.1 = .running ∧
      ((run quayEarly .new).server.2.find 1).isSome ∧ c.client.1 = false ∧ c.client.2.reader.queue = [] ∧ c.client.2.tasks = [] ∧
      quayTerms.hashes = (town.server.protocolHash, town.server.workflowHash) ∧
      ∀ v, .emitted (.ready v) ∉ c.client.2.past := by
  obtain ⟨c, hc, h⟩ := quay_sees (es := quayEarly) (fun c => c.up.isEmpty && c.down.isEmpty && !c.client.1 && c.client.2.reader.queue.isEmpty &&
    c.client.2.tasks.isEmpty && c.client.2.past.all (fun | .emitted (.ready _) => false | _ => true)) (by decide +kernel)
  simp only [Bool.and_eq_true, Bool.not_eq_true', List.isEmpty_iff, List.all_eq_true] at h
  obtain ⟨⟨⟨⟨⟨h1, h2⟩, h3⟩, h4⟩, h5⟩, h6⟩ := h
  exact ⟨c, hc, h1, h2, by decide +kernel, by decide +kernel, h3, h4, h5, rfl, fun v k => absurd (h6 _ k) (by simp)⟩

end Verif.Props
