import Verif.Proofs.NetworkTsRustQuiet
import Verif.Props.NetworkTsTsQuiet
set_option autoImplicit false
/-!
Property theorems about moments in which nothing is under way between a generated TypeScript client and a
generated Rust server: C174. What happened before is arbitrary, see `Network.Event`.
-/
namespace Verif.Props

open Verif Verif.Spec Verif.Network

variable {P : Type} {cfg : Server.Cfg P} {env : Server.Env P} {opts : Server.Options}
  {down : UInt64 → UInt32 → Server.Out P → Bytes} {ccfg : TsClient.Cfg} {cenv : TsClient.Env}
  {up : UInt64 → UInt32 → TsClient.Out → Bytes}

/-! ### Witnesses -/

/-- User code that refuses beacons. -/
def quayDeaf : Server.Env Nat := { townEnv with beacon := fun _ _ _ _ => .err }

abbrev QuayDeaf : ServerProg := rustServer town.server quayDeaf .new town.down

/-- The client connects and sends the beacon `B`, which the server refuses, and makes a request. -/
def quayRefused : List (UInt64 × Event QuayDeaf QuayClient) :=
  [(1, .opened 1), (2, .server .confirm), (3, .client 1 .connected), (4, .toServer 1 100), (4, .toClient 1 100),
   (5, .client 1 (.work 0)), (5, .client 1 (.work 0)), (6, .toServer 1 100), (6, .toClient 1 100), (7, .client 1 (.work 0)),
   (9, .client 1 (.user (.create (.beacon ['B']) (quayVal 5)))), (9, .client 1 (.user (.send 1))), (9, .toServer 1 100),
   (9, .client 1 (.user (.create (.request townRequest) (quayVal 41)))), (9, .client 1 (.user (.send 3))),
   (9, .toServer 1 100), (9, .toClient 1 100), (9, .client 1 (.work 0))]

/-- What `RustQuiet` needs, for the client 1. -/
def quayStill {tenv : Server.Env Nat} {topts : Server.Options} (n : Net (rustServer town.server tenv topts town.down) QuayClient) : Bool :=
  decide (n.server.1 = .running) && (n.server.2.find 1).isSome && n.server.2.past.all (fun | .drop _ => false | _ => true) &&
    (n.find 1).any (fun c => c.up.isEmpty && c.down.isEmpty && !c.client.1 && c.client.2.reader.queue.isEmpty && c.client.2.tasks.isEmpty)

theorem quay_still {tenv : Server.Env Nat} {topts : Server.Options} (f : Conn QuayClient → Bool)
    {es : List (UInt64 × Event (rustServer town.server tenv topts town.down) QuayClient)} (h0 : quayStill (run es .new) = true)
    (h : ((run es .new).find 1).any f = true) : ∃ c, RustQuiet (run es .new) 1 c ∧ f c = true := by
  obtain ⟨c, hc, hf⟩ := quay_sees f h
  refine ⟨c, ?_, hf⟩
  unfold quayStill at h0
  rw [hc, Option.any_some] at h0
  simp only [Bool.and_eq_true, Bool.not_eq_true', List.isEmpty_iff, decide_eq_true_eq, List.all_eq_true] at h0
  obtain ⟨⟨⟨h1, h2⟩, h3⟩, ⟨⟨⟨h4, h5⟩, h6⟩, h7⟩, h8⟩ := h0
  obtain ⟨d, d1⟩ := Option.isSome_iff_exists.1 h2
  exact ⟨hc, h4, h5, h1, ⟨d, d1⟩, fun k => absurd (h3 _ k) (by simp), h6, h7, h8⟩

theorem quay_refused_ok : Framed (run quayRefused .new) ∧ Network.Small (run quayRefused .new) ∧
    Network.Faithful quayTerms (run quayRefused .new) ∧ Network.Readable (run quayRefused .new) :=
  ⟨quay_framed _, quay_small (by decide +kernel), quay_faithful _ (by decide +kernel) (by decide +kernel), quay_readable _⟩

/-! ### C174 -/

/-- **C174** Whatever happened: when nothing is under way between a TypeScript client and a Rust server which
never asked the transport to drop it, the server has looked at every message the client passed to its
transport, and the client at every message the transport of the server took for it, unchanged, in order, each
once. -/
theorem C174_all_looked_at (t : Terms P)
    (es : List (UInt64 × Event (rustServer cfg env opts down) (tsClient ccfg cenv up)))
    (hf : Network.Framed (run es .new)) (hs : Network.Small (run es .new)) (ha : Network.Faithful t (run es .new))
    (hr : Network.Readable (run es .new)) {u : Network.Uuid} {c : Conn (tsClient ccfg cenv up)} (hq : RustQuiet (run es .new) u c) :
    System.Pairs (fun x y => x.1 = y.1.toNat ∧ SameUp t cfg x.2 y.2) (tsSents c.client.2.past)
      (System.heard u (run es .new).server.2.past) ∧
    System.Pairs (fun x y => x.1 = y.1 ∧ SameDown t x.2 y.2) (System.sends u (run es .new).server.2.past)
      (TsClient.looked c.client.2.past) := by
  obtain ⟨es', hi⟩ := inv_run (growing_tsRust (cfg := cfg) (env := env) (opts := opts) (down := down) (ccfg := ccfg) (cenv := cenv) (up := up)) es
  have hl := tsRust_law hi hq.conn
  refine ⟨?_, ?_⟩
  · have h := rustQuiet_up hi hf hr hq
    rw [tsSent_sents] at h
    refine System.Pairs.mono (Pairs.of_map h) ?_
    rintro ⟨q, o⟩ ⟨q', m⟩ hx ⟨h1, ts, h2⟩
    obtain ⟨w, hw⟩ := mem_tsSents.1 hx
    refine ⟨?_, ha.up u c hq.conn w q o hw ts m h2⟩
    dsimp only at h1 ⊢
    rw [← h1, (lawful_number hl hw).2]
  · refine System.Pairs.mono (rustQuiet_down hi hf hs hr hq) ?_
    rintro ⟨q, o⟩ ⟨q', m⟩ hx ⟨h1, ts, h2⟩
    exact ⟨h1, ha.down u q o (System.mem_sends.1 hx) ts m h2⟩

/-- Nothing is under way after the run `quayAll`: four messages of the client, six of the server. -/
example : Framed (run quayAll .new) ∧ Network.Small (run quayAll .new) ∧ Network.Faithful quayTerms (run quayAll .new) ∧
    Network.Readable (run quayAll .new) ∧ ∃ c, RustQuiet (run quayAll .new) 1 c ∧
      decide ((tsSents c.client.2.past).map Prod.fst = [1, 2, 3, 4] ∧
        (TsClient.looked c.client.2.past).map Prod.fst = [0, 1, 2, 3, 0, 4]) = true :=
  ⟨quay_ok.1, quay_ok.2.1, quay_ok.2.2.1, quay_ok.2.2.2, quay_still _ (by decide +kernel) (by decide +kernel)⟩

/-- **C174** Whatever happened: when nothing is under way between a TypeScript client and a Rust server which
never asked the transport to drop it, a call of the client with a message the server expects has ended, or
the server looked at this very message, its transport took no answer, and `Unanswered` says why. -/
theorem C174_call_accounted_for (t : Terms P)
    (es : List (UInt64 × Event (rustServer cfg env opts down) (tsClient ccfg cenv up)))
    (hf : Network.Framed (run es .new)) (hs : Network.Small (run es .new)) (ha : Network.Faithful t (run es .new))
    (hr : Network.Readable (run es .new)) {u : Network.Uuid} {c : Conn (tsClient ccfg cenv up)} (hq : RustQuiet (run es .new) u c)
    {k o : Nat} {kind : TsClient.Kind} {body : TsServer.Js} {ref : Flow.Ref} (h1 : .created o kind body ∈ c.client.2.past)
    (h2 : .called k o ∈ c.client.2.past) (h3 : kind.Asks ref) (he : Server.Expected cfg ref) :
    (∃ r, .ended k r ∈ c.client.2.past) ∨
    ∃ q p newer older, .sent (.call k o) (UInt32.toNat q) (.msg ref body) ∈ c.client.2.past ∧
      (run es .new).server.2.past = newer ++ .got u (.msg ref p) q :: older ∧ t.same p body ∧
      (∀ out, .send u q out true ∉ (run es .new).server.2.past) ∧ Server.Unanswered cfg env opts u q ref p older newer := by
  by_cases hend : ∃ r, .ended k r ∈ c.client.2.past
  · exact .inl hend
  · exact .inr (rustQuiet_call hf hs ha hr hq h2 h1 h3 (fun r hr => hend ⟨r, hr⟩) he)

theorem quay_expected : Server.Expected town.server ['Q'] ∧ Server.Expected town.server ['B'] :=
  ⟨⟨.inl ⟨townRequest, List.mem_singleton.2 rfl, rfl⟩, by decide⟩, ⟨.inr ⟨⟨['B'], false⟩, List.mem_singleton.2 rfl, rfl⟩, by decide⟩⟩

/-- After the run `quayRefused` the request has ended, and the call with the beacon has not. -/
example : Framed (run quayRefused .new) ∧ Network.Small (run quayRefused .new) ∧ Network.Faithful quayTerms (run quayRefused .new) ∧
    Network.Readable (run quayRefused .new) ∧ (Server.Expected town.server ['Q'] ∧ Server.Expected town.server ['B']) ∧
    ∃ c, RustQuiet (run quayRefused .new) 1 c ∧
      (c.client.2.past.any (fun | .called 2 1 => true | _ => false) && c.client.2.past.all (fun | .ended 2 _ => false | _ => true) &&
       c.client.2.past.any (fun | .ended 4 (.resolved ref v) => ref = ['R'] && quayNum v = some 42 | _ => false)) = true :=
  ⟨quay_refused_ok.1, quay_refused_ok.2.1, quay_refused_ok.2.2.1, quay_refused_ok.2.2.2, quay_expected,
    quay_still _ (by decide +kernel) (by decide +kernel)⟩

/-- **C174** Whatever happened: if the server drops clients whose messages it cannot answer, and does not just
report unassigned ones (`Options::new` is such), then when nothing is under way between a TypeScript client and
this server, which never asked the transport to drop it, every call of the client with a request the server
has has ended: no promise of a request stays open. -/
theorem C174_requests_end (t : Terms P)
    (es : List (UInt64 × Event (rustServer cfg env opts down) (tsClient ccfg cenv up)))
    (hf : Network.Framed (run es .new)) (hs : Network.Small (run es .new)) (ha : Network.Faithful t (run es .new))
    (hr : Network.Readable (run es .new)) {u : Network.Uuid} {c : Conn (tsClient ccfg cenv up)} (hq : RustQuiet (run es .new) u c)
    (hd : opts.onError = .disconnect ∨ opts.onError = .emitErrorAndDisconnect) (hid : opts.identification ≠ .emitError)
    {k o : Nat} {kind : TsClient.Kind} {body : TsServer.Js} {ref : Flow.Ref} (h1 : .created o kind body ∈ c.client.2.past)
    (h2 : .called k o ∈ c.client.2.past) (h3 : kind.Asks ref) {r : Flow.Request} (h4 : r ∈ cfg.workflow.requests)
    (h5 : r.request = some ref) (h6 : ref ≠ cfg.selfKey) (h7 : ∀ b ∈ cfg.workflow.beacons, b.reference ≠ ref) :
    ∃ r, .ended k r ∈ c.client.2.past := by
  rcases C174_call_accounted_for t es hf hs ha hr hq h1 h2 h3 ⟨.inl ⟨r, h4, h5⟩, h6⟩ with h | ⟨q, p, newer, older, _, _, _, _, h⟩
  · exact h
  · cases h with
    | unassigned h => exact absurd h hid
    | unpacked _ _ _ _ h => exact absurd hd h
    | unsent _ _ _ _ h => exact absurd hd h
    | beacon a b => exact absurd b (h7 _ a)
    | unconfirmed a b => exact absurd b (h7 _ a)

/-- The request in `quayRefused`. -/
example : ((.new : Server.Options).onError = .disconnect ∨ (.new : Server.Options).onError = .emitErrorAndDisconnect) ∧
    (.new : Server.Options).identification ≠ .emitError ∧ townRequest ∈ town.server.workflow.requests ∧
    townRequest.request = some ['Q'] ∧ ['Q'] ≠ town.server.selfKey ∧ (∀ b ∈ town.server.workflow.beacons, b.reference ≠ ['Q']) ∧
    ∃ c, RustQuiet (run quayRefused .new) 1 c ∧
      (c.client.2.past.any (fun | .called 4 3 => true | _ => false) &&
       c.client.2.past.any (fun | .created 3 (.request _) v => quayNum v = some 41 | _ => false)) = true :=
  ⟨.inr rfl, by decide, List.mem_singleton.2 rfl, rfl, by decide, by decide, quay_still _ (by decide +kernel) (by decide +kernel)⟩

/-- **C174** Whatever happened: when nothing is under way between a TypeScript client and a Rust server which
never asked the transport to drop it, the broadcasts user code of the client got are exactly those the
transport of the server took for this client and the workflow of the client has, unchanged, in order, each
once. -/
theorem C174_all_broadcasts (t : Terms P)
    (es : List (UInt64 × Event (rustServer cfg env opts down) (tsClient ccfg cenv up)))
    (hf : Network.Framed (run es .new)) (hs : Network.Small (run es .new)) (ha : Network.Faithful t (run es .new))
    (hr : Network.Readable (run es .new)) {u : Network.Uuid} {c : Conn (tsClient ccfg cenv up)} (hq : RustQuiet (run es .new) u c)
    (hb : ∀ ref, TsClient.Broadcasts ccfg.workflow ref → Foreign ref) :
    RustCastsOf t ccfg.workflow (System.sends u (run es .new).server.2.past) (tsCasts c.client.2.past) :=
  rustQuiet_casts hf hs ha hr hq hb

/-- The broadcast `U` with 9. -/
example : (∀ ref, TsClient.Broadcasts townFlow ref → Foreign ref) ∧ ∃ c, RustQuiet (run quayAll .new) 1 c ∧
    decide ((tsCasts c.client.2.past).map (fun x => (x.1, quayNum x.2)) = [(['U'], some 9)]) = true :=
  ⟨wharf_foreign, quay_still _ (by decide +kernel) (by decide +kernel)⟩

end Verif.Props
