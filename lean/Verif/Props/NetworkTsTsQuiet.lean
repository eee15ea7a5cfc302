import Verif.Proofs.NetworkTsTsQuiet
import Verif.Props.NetworkTsTs
set_option autoImplicit false
/-!
Property theorems about moments in which nothing is under way between a generated TypeScript client and a
generated TypeScript server: C169. What happened before is arbitrary, see `Network.Event`; so is what the
transport of the server takes.
-/
namespace Verif.Props

open Verif Verif.Spec Verif.Network

variable {cfg : TsServer.Cfg} {env : TsServer.Env} {opts : Server.Options}
  {takes : List TsServer.Act → Network.Uuid → UInt32 → TsServer.Out → Bool}
  {down : UInt64 → UInt32 → TsServer.Out → Bytes} {ccfg : TsClient.Cfg} {cenv : TsClient.Env}
  {up : UInt64 → UInt32 → TsClient.Out → Bytes}

/-! ### Witnesses -/

/-- The client makes two requests; user code of the server has answered the second one only. -/
def wharfHalf : List (UInt64 × Event WharfServer QuayClient) :=
  wharfShake ++ [(8, .client 1 (.user (.create (.request townRequest) (quayVal 41)))), (8, .client 1 (.user (.send 1))),
   (8, .client 1 (.user (.create (.request townRequest) (quayVal 51)))), (8, .client 1 (.user (.send 3))), (8, .toServer 1 100),
   (9, .server (.settled 2 (.answer ['R'] (quayVal 52) []))), (9, .server (.settled 2 (.sent true))), (9, .toClient 1 100),
   (9, .client 1 (.work 0))]

/-- What `TsQuiet` needs, for the client 1. -/
def wharfStill (n : Net WharfServer QuayClient) : Bool :=
  !n.server.1 && (n.server.2.find 1).any (fun d => !d.discredited && d.reader.queue.isEmpty) &&
    (n.find 1).any (fun c => c.up.isEmpty && c.down.isEmpty && !c.client.1 && c.client.2.reader.queue.isEmpty && c.client.2.tasks.isEmpty)

theorem wharf_quiet {n : Net WharfServer QuayClient} (h : wharfStill n = true) {c : Conn QuayClient} (hc : n.find 1 = some c) :
    TsQuiet n 1 c := by
  unfold wharfStill at h
  rw [hc, Option.any_some] at h
  simp only [Bool.and_eq_true, Bool.not_eq_true', List.isEmpty_iff] at h
  obtain ⟨⟨h1, h2⟩, ⟨⟨⟨h3, h4⟩, h5⟩, h6⟩, h7⟩ := h
  obtain ⟨d, d1, d2⟩ := (Option.any_eq_true _ _).1 h2
  simp only [Bool.and_eq_true, Bool.not_eq_true', List.isEmpty_iff] at d2
  exact ⟨hc, h3, h4, h1, ⟨d, d1, d2.1, d2.2⟩, h5, h6, h7⟩

theorem wharf_still (f : Conn QuayClient → Bool) {es : List (UInt64 × Event WharfServer QuayClient)} (h0 : wharfStill (run es .new) = true)
    (h : ((run es .new).find 1).any f = true) : ∃ c, TsQuiet (run es .new) 1 c ∧ f c = true := by
  obtain ⟨c, h1, h2⟩ := wharf_sees f h
  exact ⟨c, wharf_quiet h0 h1, h2⟩

/-! ### C169 -/

/-- **C169** Whatever happened: when nothing is under way between a TypeScript client and the server, the
server has looked at every message the client passed to its transport, and the client at every message the
transport of the server took for it, unchanged, in order, each once. -/
theorem C169_all_looked_at (t : TsTerms)
    (es : List (UInt64 × Event (tsServer cfg env opts takes down) (tsClient ccfg cenv up)))
    (hf : Network.Framed (run es .new)) (hs : Network.Small (run es .new)) (ha : TsFaithful t (run es .new)) (hr : TsReadable (run es .new))
    {u : Network.Uuid} {c : Conn (tsClient ccfg cenv up)} (hq : TsQuiet (run es .new) u c) :
    System.Pairs (fun x y => x.1 = y.1.toNat ∧ TsSameUp t cfg x.2 y.2) (tsSents c.client.2.past) (tsHeard u (run es .new).server.2.past) ∧
    System.Pairs (fun x y => x.1 = y.1 ∧ TsSameDown t x.2 y.2) (tsPosted takes u (run es .new).server.2.past)
      (TsClient.looked c.client.2.past) := by
  obtain ⟨es', hi⟩ := inv_run (growing_tsTs (cfg := cfg) (env := env) (opts := opts) (takes := takes) (down := down) (ccfg := ccfg) (cenv := cenv) (up := up)) es
  have hl := tsTs_law hi hq.conn
  refine ⟨?_, ?_⟩
  · have h := quiet_up hi hf hs hr hq
    rw [tsSent_sents] at h
    refine System.Pairs.mono (Pairs.of_map h) ?_
    rintro ⟨q, o⟩ ⟨q', m⟩ hx ⟨h1, ts, h2⟩
    obtain ⟨w, hw⟩ := mem_tsSents.1 hx
    refine ⟨?_, ha.up u c hq.conn w q o hw ts m h2⟩
    dsimp only at h1 ⊢
    rw [← h1, (lawful_number hl hw).2]
  · refine System.Pairs.mono (quiet_down hi hf hs hr hq) ?_
    rintro ⟨q, o⟩ ⟨q', m⟩ hx ⟨h1, ts, h2⟩
    obtain ⟨f, hm⟩ := mem_tsPosted hx
    exact ⟨h1, ha.down f u q o hm ts m h2⟩

/-- Nothing is under way after the run `wharfAll`: five messages of the client, six of the server. -/
example : Network.Framed (run wharfAll .new) ∧ Network.Small (run wharfAll .new) ∧ TsFaithful wharfTerms (run wharfAll .new) ∧
    TsReadable (run wharfAll .new) ∧ ∃ c, TsQuiet (run wharfAll .new) 1 c ∧
      decide ((tsSents c.client.2.past).map Prod.fst = [1, 2, 3, 4, 5] ∧
        (TsClient.looked c.client.2.past).map Prod.fst = [1, 2, 4, 3, 0, 5]) = true :=
  ⟨wharf_ok.1, wharf_ok.2.1, wharf_ok.2.2.1, wharf_ok.2.2.2, wharf_still _ (by decide +kernel) (by decide +kernel)⟩

/-- **C169** Whatever happened: when nothing is under way between a TypeScript client and the server, a call
of the client with a message the server expects has ended, or the server looked at this very message and
then dropped the client or called the handler for it directly, and the transport of the server took no
answer. So a promise stays open only if user code of the server has not answered yet, or the answer could
not be sent. -/
theorem C169_call_accounted_for (t : TsTerms)
    (es : List (UInt64 × Event (tsServer cfg env opts takes down) (tsClient ccfg cenv up)))
    (hf : Network.Framed (run es .new)) (hs : Network.Small (run es .new)) (ha : TsFaithful t (run es .new)) (hr : TsReadable (run es .new))
    {u : Network.Uuid} {c : Conn (tsClient ccfg cenv up)} (hq : TsQuiet (run es .new) u c) {k o : Nat} {kind : TsClient.Kind}
    {ps : List (TsServer.Name × TsServer.Js)} {ref : Flow.Ref} (h1 : .created o kind (.obj ps) ∈ c.client.2.past)
    (h2 : .called k o ∈ c.client.2.past) (h3 : kind.Asks ref) (he : TsExpected cfg ref) :
    (∃ r, .ended k r ∈ c.client.2.past) ∨
    ∃ q x newer a older, .sent (.call k o) (UInt32.toNat q) (.msg ref (.obj ps)) ∈ c.client.2.past ∧
      (run es .new).server.2.past = newer ++ a :: .got u x q :: older ∧ TsServer.IsA x ref ∧ x.body = .obj ps ∧
      (a = .drop u ∨ TsHandler cfg u q x a) ∧ ∀ out, (q, out) ∉ tsPosted takes u (run es .new).server.2.past := by
  by_cases hend : ∃ r, .ended k r ∈ c.client.2.past
  · exact .inl hend
  · obtain ⟨q, x, newer, older, g1, g2, g3, g4, g5, g6⟩ := quiet_call hf hs ha hr hq h2 h1 h3 (fun r hr => hend ⟨r, hr⟩)
    obtain ⟨P, p1, p2⟩ := due_expected (u := u) (q := q) (older := older) he g3 g4
    obtain ⟨newer', a, rfl, p3⟩ := g6 P p1
    exact .inr ⟨q, x, newer', a, older, g1, by rw [g2]; simp, g3, g4, p2 a p3, g5⟩

theorem wharf_expected : TsExpected wharfCfg ['Q'] := by
  refine ⟨.inl ⟨townRequest, List.mem_singleton.2 rfl, rfl⟩, ⟨single_apart 'Q' 'K' (by decide) (by decide), by decide⟩, single_foreign 'Q' (by decide)⟩

/-- After the run `wharfHalf` the second request has ended, and the first one has not: its handler runs. -/
example : Network.Framed (run wharfHalf .new) ∧ Network.Small (run wharfHalf .new) ∧ TsFaithful wharfTerms (run wharfHalf .new) ∧
    TsReadable (run wharfHalf .new) ∧ TsExpected wharfCfg ['Q'] ∧ ∃ c, TsQuiet (run wharfHalf .new) 1 c ∧
      (c.client.2.past.any (fun | .called 2 1 => true | _ => false) && c.client.2.past.all (fun | .ended 2 _ => false | _ => true) &&
       c.client.2.past.any (fun | .ended 4 (.resolved ref v) => ref = ['R'] && quayNum v = some 52 | _ => false)) = true :=
  ⟨wharf_framed _, wharf_small (by decide +kernel), wharf_faithful _ (by decide +kernel) (by decide +kernel), wharf_readable _,
    wharf_expected, wharf_still _ (by decide +kernel) (by decide +kernel)⟩

/-- **C169** Whatever happened: when nothing is under way between a TypeScript client and the server, the
broadcasts user code of the client got are exactly those the transport of the server took for this client and
the workflow of the client has, unchanged, in order, each once. -/
theorem C169_all_broadcasts (t : TsTerms)
    (es : List (UInt64 × Event (tsServer cfg env opts takes down) (tsClient ccfg cenv up)))
    (hf : Network.Framed (run es .new)) (hs : Network.Small (run es .new)) (ha : TsFaithful t (run es .new)) (hr : TsReadable (run es .new))
    {u : Network.Uuid} {c : Conn (tsClient ccfg cenv up)} (hq : TsQuiet (run es .new) u c)
    (hb : ∀ ref, TsClient.Broadcasts ccfg.workflow ref → Foreign ref) :
    CastsOf ccfg.workflow (tsPosted takes u (run es .new).server.2.past) (tsCasts c.client.2.past) :=
  quiet_casts hf hs ha hr hq hb

theorem wharf_foreign : ∀ ref, TsClient.Broadcasts townFlow ref → Foreign ref := by
  rintro ref (⟨r, h1, a, h2, b, h3, _⟩ | ⟨e, h1, b, h2, rfl⟩)
  · rw [List.mem_singleton.1 h1] at h2
    rw [List.mem_singleton.1 h2] at h3
    cases h3
  · rw [List.mem_singleton.1 h1] at h2
    rw [List.mem_singleton.1 h2]
    exact single_foreign 'U' (by decide)

/-- The broadcast `U` with 9. -/
example : (∀ ref, TsClient.Broadcasts townFlow ref → Foreign ref) ∧ ∃ c, TsQuiet (run wharfAll .new) 1 c ∧
    decide ((tsCasts c.client.2.past).map (fun x => (x.1, quayNum x.2)) = [(['U'], some 9)]) = true :=
  ⟨wharf_foreign, wharf_still _ (by decide +kernel) (by decide +kernel)⟩

end Verif.Props
