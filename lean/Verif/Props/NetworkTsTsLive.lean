import Verif.Proofs.NetworkTsTsCalls
import Verif.Props.NetworkTsTs
import Verif.Props.NetworkLive
set_option autoImplicit false
/-!
Property theorems about what generated TypeScript clients and a generated TypeScript server can reach together:
C166–C168.
-/
namespace Verif.Props

open Verif Verif.Spec Verif.Network

variable {cfg : TsServer.Cfg} {env : TsServer.Env} {opts : Server.Options}
  {takes : List TsServer.Act → Network.Uuid → UInt32 → TsServer.Out → Bool}
  {down : UInt64 → UInt32 → TsServer.Out → Bytes} {ccfg : TsClient.Cfg} {cenv : TsClient.Env}
  {up : UInt64 → UInt32 → TsClient.Out → Bytes}

theorem ts_heard_filter {w : Flow.Store} {u : Network.Uuid} : ∀ {l : List (Network.Uuid × Flow.Ref × TsServer.Js)}
    {h : List (Flow.Ref × TsServer.Js)}, TsHeardOf w u ((l.filter (fun x => x.1 = u)).map (fun x => (u, x.2))) h → TsHeardOf w u l h
  | [], _, k => k
  | (v, o) :: l, h, k => by
    by_cases hv : v = u
    · subst hv
      simp only [List.filter_cons, decide_true, if_true, List.map_cons] at k
      cases k with
      | known k1 k2 => exact .known k1 (ts_heard_filter k2)
      | unknown k1 k2 => exact .unknown k1 (ts_heard_filter k2)
      | other k1 _ => exact absurd rfl k1
    · simp only [List.filter_cons, hv, decide_false] at k
      exact .other hv (ts_heard_filter k)

theorem callEvents_elsewhere {u v : Network.Uuid} (huv : v ≠ u) {kind : TsClient.Kind} {body : TsServer.Js} {obj count task : Nat}
    {x : TsServer.Settled} {count' : Nat} :
    ∀ e ∈ (callEvents v kind body obj count task x count' : List (UInt64 × Event (tsServer cfg env opts takes down) (tsClient ccfg cenv up))),
      Network.Elsewhere u e.2 := by
  intro e he
  simp only [callEvents, List.mem_cons, List.not_mem_nil, or_false] at he
  rcases he with rfl | rfl | rfl | rfl | rfl | rfl | rfl <;> first | exact huv | trivial

/-! ### The witness: the messages of `wharf` with a request of two actions -/

def jettyRequest : Flow.Request :=
  ⟨some ['Q'], some ['E'], [⟨some ['Y'], some ['R'], [⟨['U'], false⟩], [], false⟩, ⟨some ['N'], some ['S'], [], [], false⟩], [], [], .nothing, true⟩

def jettyFlow : Flow.Store := ⟨[townEvent], [jettyRequest], [⟨['B'], false⟩], none⟩

def jettyCfg : TsServer.Cfg := ⟨wharfUp, jettyFlow, ['K'], ['p'], ['w'], fun _ => true, [], []⟩

def jettyClientCfg : TsClient.Cfg := ⟨quayDown, jettyFlow, fun _ => true⟩

abbrev JettyServer : ServerProg := tsServer jettyCfg wharfEnv .new (fun _ _ _ _ => true) wharfDown

abbrev JettyClient : ClientProg := tsClient jettyClientCfg pierEnv quayUp

theorem jetty_smooth : TsSmooth jettyCfg wharfEnv (fun _ _ _ _ => true) jettyClientCfg pierEnv :=
  ⟨⟨fun _ => rfl, fun _ _ => rfl, fun _ _ => rfl, fun _ _ => rfl⟩, fun _ _ _ _ => rfl, fun _ => rfl, fun _ _ => rfl, fun _ _ _ => by simp [wharfEnv]⟩

theorem jetty_hears {o : TsClient.Out} (h : ∀ ref b, o = .msg ref b → ∃ x, b = quayVal x ∧ x < 256 ∧ (ref = ['Q'] ∨ ref = ['B'])) :
    TsHeardRight wharfTerms jettyCfg quayUp o := by
  cases o with
  | selfKey => exact ⟨⟨[['K']], .obj []⟩, [], fun ts q => ⟨_, town_frame_ok 1 ts q 0, rfl, rfl, rfl⟩, ⟨by decide, rfl⟩, rfl⟩
  | hash =>
    exact ⟨serviceMsg "HashRequest" [("protocol".toList, .str ['p']), ("workflow".toList, .str ['w'])], _,
      fun ts q => ⟨_, town_frame_ok 2 ts q 0, rfl, rfl, rfl⟩, ⟨rfl, _, rfl, rfl, rfl⟩, rfl⟩
  | msg ref b =>
    obtain ⟨x, rfl, hx, hr⟩ := h ref b rfl
    have hb := townByte_small hx
    rcases hr with rfl | rfl
    · refine ⟨⟨[['Q']], quayVal x⟩, _, fun ts q => ⟨_, town_frame_ok 3 ts q x, rfl, ?_, ?_⟩, ⟨⟨by decide, rfl⟩, rfl⟩, rfl⟩
      · simp [quayUp, quayNum_of_val hx]
      · show some (Rust.Income.mk _ (TsServer.Msg.mk [['Q']] (quayVal (townByte [UInt8.ofNat x])))) = _
        rw [hb]
    · refine ⟨⟨[['B']], quayVal x⟩, _, fun ts q => ⟨_, town_frame_ok 5 ts q x, rfl, ?_, ?_⟩, ⟨⟨by decide, rfl⟩, rfl⟩, rfl⟩
      · simp [quayUp, quayNum_of_val hx]
      · show some (Rust.Income.mk _ (TsServer.Msg.mk [['B']] (quayVal (townByte [UInt8.ofNat x])))) = _
        rw [hb]

theorem jetty_reads {o : TsServer.Out} (hu : ∀ u, o = .selfKey u → u < 256)
    (h : ∀ ref b, o = .msg ref b → ∃ x, b = quayVal x ∧ x < 256 ∧ (ref = ['R'] ∨ ref = ['U'] ∨ ref = ['E'])) :
    TsReadRight wharfTerms jettyClientCfg wharfDown o := by
  cases o with
  | selfKey u =>
    refine ⟨serviceMsg "SelfKeyResponse" [("uuid".toList, .str [Char.ofNat u])],
      fun ts q => ⟨_, town_frame_ok 2 ts q u, rfl, rfl, ?_⟩, rfl, _, rfl, rfl⟩
    show some (Rust.Income.mk _ (serviceMsg "SelfKeyResponse" [("uuid".toList, .str [Char.ofNat (townByte [UInt8.ofNat u])])])) = _
    rw [townByte_small (hu u rfl)]
  | hash e =>
    cases e with
    | false =>
      exact ⟨serviceMsg "HashResponse" [], fun ts q => ⟨_, town_frame_ok 3 ts q 0, rfl, rfl, rfl⟩, rfl, _, rfl,
        ⟨fun k => (by cases k), fun ⟨_, k⟩ => (by cases k)⟩, ⟨fun _ => rfl, fun _ => rfl⟩⟩
    | true =>
      exact ⟨serviceMsg "HashResponse" [("error".toList, .str ['x'])], fun ts q => ⟨_, town_frame_ok 4 ts q 0, rfl, rfl, rfl⟩, rfl, _, rfl,
        ⟨fun _ => ⟨_, rfl⟩, fun _ => rfl⟩, ⟨fun k => (by cases k), fun k => (by cases k)⟩⟩
  | beacon => exact ⟨serviceMsg "BeaconConfirmation" [], fun ts q => ⟨_, town_frame_ok 5 ts q 0, rfl, rfl, rfl⟩, rfl, _, rfl, rfl⟩
  | msg ref b =>
    obtain ⟨x, rfl, hx, hr⟩ := h ref b rfl
    have hb := townByte_small hx
    rcases hr with rfl | rfl | rfl
    · refine ⟨⟨[['R']], quayVal x⟩, fun ts q => ⟨_, town_frame_ok 6 ts q x, rfl, ?_, ?_⟩, ⟨by decide, rfl⟩, rfl⟩
      · simp [wharfDown, quayNum_of_val hx]
      · show some (Rust.Income.mk _ (TsServer.Msg.mk [['R']] (quayVal (townByte [UInt8.ofNat x])))) = _
        rw [hb]
    · refine ⟨⟨[['U']], quayVal x⟩, fun ts q => ⟨_, town_frame_ok 7 ts q x, rfl, ?_, ?_⟩, ⟨by decide, rfl⟩, rfl⟩
      · simp [wharfDown, quayNum_of_val hx]
      · show some (Rust.Income.mk _ (TsServer.Msg.mk [['U']] (quayVal (townByte [UInt8.ofNat x])))) = _
        rw [hb]
    · refine ⟨⟨[['E']], quayVal x⟩, fun ts q => ⟨_, town_frame_ok 8 ts q x, rfl, ?_, ?_⟩, ⟨by decide, rfl⟩, rfl⟩
      · simp [wharfDown, quayNum_of_val hx]
      · show some (Rust.Income.mk _ (TsServer.Msg.mk [['E']] (quayVal (townByte [UInt8.ofNat x])))) = _
        rw [hb]

/-! ### C166 -/

/-- **C166** Whatever happened before, as long as the server runs, a new TypeScript client of a TypeScript server can get
ready: with nothing but regular progress of its connection client and server make their handshake, and user code of
the client is told so with the id the server uses. -/
theorem C166_ts_ts_client_gets_ready (sm : TsSmooth cfg env takes ccfg cenv) (t : TsTerms)
    (es : List (UInt64 × Event (tsServer cfg env opts takes down) (tsClient ccfg cenv up)))
    (hrun : (run es .new).server.1 = false) {u : Network.Uuid} (hf : TsFresh (run es .new) u)
    (hhash : t.hashes = (cfg.protocolHash, cfg.workflowHash)) (hfk : Network.Foreign cfg.selfKey)
    (hk : TsHeardRight t cfg up .selfKey) (hh : TsHeardRight t cfg up .hash)
    (rk : TsReadRight t ccfg down (.selfKey u)) (rh : TsReadRight t ccfg down (.hash false))
    (hid : ∃ x ∈ t.name u, TsClient.jsSpace x = false) :
    ∃ es' : List (UInt64 × Event (tsServer cfg env opts takes down) (tsClient ccfg cenv up)),
      (∀ e ∈ es', TsRegular u e.2) ∧ TsEstablished (run (es ++ es') .new) u ∧
      ∃ c, (run (es ++ es') .new).find u = some c ∧ .emitted (.ready (.str (t.name u))) ∈ c.client.2.past ∧
        c.client.2.uuid = some (t.name u) ∧ c.client.2.sequence = 3 := by
  obtain ⟨es0, hi⟩ := inv_run (growing_tsTs (cfg := cfg) (env := env) (opts := opts) (takes := takes) (down := down) (ccfg := ccfg) (cenv := cenv) (up := up)) es
  have hn := ts_fresh_server hi hf.conns
  have hv : (t.name u).all TsClient.jsSpace = false := by
    obtain ⟨x, h1, h2⟩ := hid
    rw [Bool.eq_false_iff]
    intro k
    rw [List.all_eq_true] at k
    rw [k x h1] at h2
    cases h2
  obtain ⟨es', cl, sv, h1, h2, h3, h4, h5, h6, h7⟩ := ts_connects sm hrun hf hn hfk hk hh hhash rk rh hv
  rw [← Network.run_append] at h2
  obtain ⟨gu, gd, hc⟩ := h2.conn
  exact ⟨es', h1, h2.established h3 h4, _, hc, h5, h6, h7⟩

theorem jetty_connects {es : List (UInt64 × Event JettyServer JettyClient)} {u : Network.Uuid} (hu : u < 256)
    (hv : TsClient.jsSpace (Char.ofNat u) = false) (hrun : (run es (.new : Net JettyServer JettyClient)).server.1 = false)
    (hf : TsFresh (run es (.new : Net JettyServer JettyClient)) u) :
    ∃ es' : List (UInt64 × Event JettyServer JettyClient), (∀ e ∈ es', TsRegular u e.2) ∧
    TsEstablished (run (es ++ es') (.new : Net JettyServer JettyClient)) u ∧
    ∃ c, (run (es ++ es') (.new : Net JettyServer JettyClient)).find u = some c ∧
      .emitted (.ready (.str (wharfTerms.name u))) ∈ c.client.2.past ∧
      c.client.2.uuid = some (wharfTerms.name u) ∧ c.client.2.sequence = 3 :=
  C166_ts_ts_client_gets_ready (cfg := jettyCfg) (env := wharfEnv) (opts := .new) (takes := fun _ _ _ _ => true) (down := wharfDown)
    (ccfg := jettyClientCfg) (cenv := pierEnv) (up := quayUp) (u := u) jetty_smooth wharfTerms es hrun hf rfl (single_foreign 'K' (by decide))
    (jetty_hears (by simp)) (jetty_hears (by simp)) (jetty_reads (by intro v e; cases e; exact hu) (by simp)) (jetty_reads (by simp) (by simp))
    ⟨Char.ofNat u, List.mem_cons_self, hv⟩

/-- Client 1 connects, and something it did not ask for happens. -/
def jettyBusy : List (UInt64 × Event JettyServer JettyClient) :=
  [(1, .opened 1), (3, .client 1 .connected), (4, .toServer 1 100), (4, .server (.event ['T'])), (4, .toClient 1 100)]

theorem jetty_fresh {n : Net JettyServer JettyClient} {u : Network.Uuid} (h1 : (n.find u).isNone = true)
    (h2 : n.server.2.past.all (fun | .send _ v _ _ => v != u | _ => true) = true) : TsFresh n u := by
  refine ⟨Option.isNone_iff_eq_none.1 h1, fun f q o h => ?_⟩
  have := List.all_eq_true.1 h2 _ h
  simp at this

/-- While client 1 connects, client 65 can connect: all that C166 asks for is there. -/
theorem jetty_second : ∃ es' : List (UInt64 × Event JettyServer JettyClient), (∀ e ∈ es', TsRegular 65 e.2) ∧
    TsEstablished (run (jettyBusy ++ es') (.new : Net JettyServer JettyClient)) 65 ∧
    ∃ c, (run (jettyBusy ++ es') (.new : Net JettyServer JettyClient)).find 65 = some c ∧
      .emitted (.ready (.str (wharfTerms.name 65))) ∈ c.client.2.past ∧
      c.client.2.uuid = some (wharfTerms.name 65) ∧ c.client.2.sequence = 3 :=
  jetty_connects (by decide) (by decide) (by decide +kernel) (jetty_fresh (by decide +kernel) (by decide +kernel))

/-! ### C167 -/

/-- **C167** A call of a connected TypeScript client of a TypeScript server returns: user code makes a request object and
sends it; the handler of the server is called with this very message; whatever its user code decides on, within what
the workflow allows, the client is told: the promise of a request is resolved with it, and that of a beacon is confirmed.
Client and server are then ready for the next call, and user code of the client got the broadcasts that were given with the
answer for itself, in order. -/
theorem C167_ts_ts_call_returns (sm : TsSmooth cfg env takes ccfg cenv) (t : TsTerms)
    (es0 : List (UInt64 × Event (tsServer cfg env opts takes down) (tsClient ccfg cenv up))) {u : Network.Uuid}
    (h : TsEstablished (run es0 .new) u)
    (hq : ∀ c, (run es0 .new).find u = some c → c.client.2.sequence < 4294967296)
    {kind : TsClient.Kind} {body : TsServer.Js} (hs : TsServable t cfg up kind body)
    {x : TsServer.Settled} {o : TsServer.Out} {res : TsClient.Result} {casts : List TsServer.Cast} (hd : TsDecides kind x o res casts)
    (hro : TsReadRight t ccfg down o) (hrb : ∀ y ∈ eachCast casts, y.1 = u → TsReadRight t ccfg down (.msg y.2.1 y.2.2)) :
    ∃ obj count count' heard later,
      let n' : Net (tsServer cfg env opts takes down) (tsClient ccfg cenv up) :=
        run (es0 ++ callEvents u kind body obj count (run es0 .new).server.2.next x count') .new
      TsEstablished n' u ∧ TsReturned (run es0 .new) n' u kind body res heard ∧ TsHeardOf ccfg.workflow u (eachCast casts) heard ∧
      n'.server.2.past = later ++ (run es0 .new).server.2.past ∧ TsAsked u kind body (run es0 .new).server.2.next later := by
  obtain ⟨es', hi⟩ := inv_run (growing_tsTs (cfg := cfg) (env := env) (opts := opts) (takes := takes) (down := down) (ccfg := ccfg) (cenv := cenv) (up := up)) es0
  obtain ⟨obj, count, count', heard, later, h1, h2, h3, _, h4, h5, _⟩ := ts_answered sm hi h hq hs hd hro hrb
  rw [← Network.run_append] at h1 h2 h4
  exact ⟨obj, count, count', heard, later, h1, h2, h3, h4, h5⟩

/-- **C167** The same for any number of calls, one after another, as long as the client has numbers for them. -/
theorem C167_ts_ts_calls_return (sm : TsSmooth cfg env takes ccfg cenv) (t : TsTerms) {u : Network.Uuid} :
    ∀ (calls : List (TsClient.Kind × TsServer.Js × TsServer.Settled))
    (es0 : List (UInt64 × Event (tsServer cfg env opts takes down) (tsClient ccfg cenv up))),
    TsEstablished (run es0 .new) u →
    (∀ c, (run es0 .new).find u = some c → c.client.2.sequence + calls.length ≤ 4294967296) →
    (∀ x ∈ calls, TsServable t cfg up x.1 x.2.1 ∧ ∃ o res casts, TsDecides x.1 x.2.2 o res casts ∧ TsReadRight t ccfg down o ∧
      ∀ y ∈ eachCast casts, y.1 = u → TsReadRight t ccfg down (.msg y.2.1 y.2.2)) →
    ∃ es : List (UInt64 × Event (tsServer cfg env opts takes down) (tsClient ccfg cenv up)),
      TsEstablished (run (es0 ++ es) .new) u ∧ TsAllReturned u calls (run es0 .new) (run (es0 ++ es) .new)
  | [], es0, h, _, _ => ⟨[], by rwa [List.append_nil], by rw [List.append_nil]; exact .nil⟩
  | (kind, body, x) :: calls, es0, h, hq, hs => by
    obtain ⟨es', hi⟩ := inv_run (growing_tsTs (cfg := cfg) (env := env) (opts := opts) (takes := takes) (down := down) (ccfg := ccfg) (cenv := cenv) (up := up)) es0
    obtain ⟨s1, o, res, casts, s2, s3, s4⟩ := hs _ List.mem_cons_self
    obtain ⟨obj, count, count', heard, later, h1, h2, h3, h4, _⟩ := ts_answered sm hi h
      (fun c hc => by have := hq c hc; simp only [List.length_cons] at this; omega) s1 s2 s3 s4
    rw [← Network.run_append] at h1 h2 h4
    obtain ⟨es2, k1, k2⟩ := C167_ts_ts_calls_return sm t calls _ h1 (fun c' hc' => by
      obtain ⟨c, hc, _⟩ := h.conn
      have := hq c hc
      rw [h4 c c' hc hc']
      simp only [List.length_cons] at this
      omega) (fun x hx => hs x (List.mem_cons_of_mem _ hx))
    refine ⟨callEvents u kind body obj count (run es0 .new).server.2.next x count' ++ es2, ?_, ?_⟩
    · rw [← List.append_assoc]; exact k1
    · rw [← List.append_assoc]; exact .cons h2 s2 h3 k2

theorem jetty_answers {a : Flow.Ref} (h : AnswerOf jettyRequest a) : a = ['R'] ∨ a = ['S'] ∨ a = ['E'] := by
  rcases h with ⟨x, h1, h2⟩ | h
  · simp only [jettyRequest, List.mem_cons, List.not_mem_nil, or_false] at h1
    rcases h1 with rfl | rfl
    · cases h2; exact .inl rfl
    · cases h2; exact .inr (.inl rfl)
  · cases h; exact .inr (.inr rfl)

theorem jetty_own {a : Char} (ha : a ≠ '.') : TsOwnType jettyCfg.workflow [a] := by
  refine ⟨single_foreign a ha, fun r hr ref h => ?_, fun b hb => ?_⟩
  · rw [List.mem_singleton.1 hr] at h
    cases h
    exact single_apart _ _ ha (by decide)
  · rw [List.mem_singleton.1 hb]
    exact single_apart _ _ ha (by decide)

theorem jetty_request {x : Nat} (hx : x < 256) : TsServable wharfTerms jettyCfg quayUp (.request jettyRequest) (quayVal x) := by
  refine .request (ref := ['Q']) (by simp [jettyCfg, jettyFlow]) rfl (by simp [jettyCfg, jettyFlow]) (jetty_own (by decide)) ?_ (jetty_hears ?_)
  · intro a b ha hb
    rcases jetty_answers ha with rfl | rfl | rfl <;> rcases jetty_answers hb with rfl | rfl | rfl <;> exact single_apart _ _ (by decide) (by decide)
  · intro ref b e
    injection e with e1 e2
    subst e1 e2
    exact ⟨x, rfl, hx, .inl rfl⟩

theorem jetty_beacon {x : Nat} (hx : x < 256) : TsServable wharfTerms jettyCfg quayUp (.beacon ['B']) (quayVal x) := by
  refine .beacon (b := ⟨['B'], false⟩) (by simp [jettyCfg, jettyFlow]) (by simp [jettyCfg, jettyFlow, jettyRequest]) (jetty_own (by decide)) (jetty_hears ?_)
  intro ref b e
  injection e with e1 e2
  subst e1 e2
  exact ⟨x, rfl, hx, .inr rfl⟩

/-- User code answers with `R` and gives the broadcast `U` for these clients. -/
theorem jetty_decides {us : List Network.Uuid} {x y : Nat} : TsDecides (.request jettyRequest)
    (.answer ['R'] (quayVal x) (giving [(['U'], us, quayVal y)])) (.msg ['R'] (quayVal x)) (.resolved ['R'] (quayVal x)) [(['U'], us, quayVal y)] := by
  refine .action (by decide) (.inl ⟨_, List.mem_cons_self, rfl⟩) (by decide) (by simp) ?_ ?_
  · intro z hz
    rw [List.mem_singleton.1 hz]
    exact ⟨_, List.mem_cons_self, rfl, _, List.mem_cons_self, rfl⟩
  · rintro b ⟨a, h1, h2, h3⟩
    simp only [jettyRequest, List.mem_cons, List.not_mem_nil, or_false] at h1
    rcases h1 with rfl | rfl
    · cases List.mem_singleton.1 h3
      exact ⟨_, List.mem_cons_self, rfl⟩
    · cases h3

theorem jetty_casts {us : List Network.Uuid} {y : Nat} (hy : y < 256) :
    ∀ z ∈ eachCast [(['U'], us, quayVal y)], TsReadRight wharfTerms jettyClientCfg wharfDown (.msg z.2.1 z.2.2) := by
  intro z hz
  simp only [eachCast, List.flatMap_cons, List.flatMap_nil, List.append_nil, List.mem_map] at hz
  obtain ⟨v, _, rfl⟩ := hz
  exact jetty_reads (by simp) (by intro ref b e; injection e with e1 e2; subst e1 e2; exact ⟨y, rfl, hy, .inr (.inl rfl)⟩)

/-- A request with a broadcast for client 65 itself, a beacon, and a request without one. -/
def jettyCalls : List (TsClient.Kind × TsServer.Js × TsServer.Settled) :=
  [(.request jettyRequest, quayVal 41, .answer ['R'] (quayVal 42) (giving [(['U'], [1, 65], quayVal 7)])), (.beacon ['B'], quayVal 5, .done),
    (.request jettyRequest, quayVal 43, .answer ['R'] (quayVal 44) (giving [(['U'], [], quayVal 7)]))]

theorem jetty_calls : ∃ es0 es : List (UInt64 × Event JettyServer JettyClient),
    TsEstablished (run (es0 ++ es) (.new : Net JettyServer JettyClient)) 65 ∧
    TsAllReturned 65 jettyCalls (run es0 (.new : Net JettyServer JettyClient)) (run (es0 ++ es) (.new : Net JettyServer JettyClient)) := by
  obtain ⟨es', _, h, c, hc, _, _, hq⟩ := jetty_second
  generalize jettyBusy ++ es' = es0 at h hc
  have hr : ∀ x < 256, TsReadRight wharfTerms jettyClientCfg wharfDown (.msg ['R'] (quayVal x)) := fun x hx =>
    jetty_reads (by simp) (by intro ref b e; injection e with e1 e2; subst e1 e2; exact ⟨x, rfl, hx, .inl rfl⟩)
  obtain ⟨es, k1, k2⟩ := C167_ts_ts_calls_return jetty_smooth wharfTerms jettyCalls _ h
    (by
      intro c' hc'
      rw [hc] at hc'
      injection hc' with hc'
      subst hc'
      rw [hq]
      decide)
    (by
      intro x hx
      simp only [jettyCalls, List.mem_cons, List.not_mem_nil, or_false] at hx
      rcases hx with rfl | rfl | rfl
      · exact ⟨jetty_request (by decide), _, _, _, jetty_decides, hr 42 (by decide), fun z hz _ => jetty_casts (by decide) z hz⟩
      · exact ⟨jetty_beacon (by decide), _, _, _, .beacon, jetty_reads (by simp) (by simp), by simp [eachCast]⟩
      · exact ⟨jetty_request (by decide), _, _, _, jetty_decides, hr 44 (by decide), fun z hz _ => jetty_casts (by decide) z hz⟩)
  exact ⟨es0, es, k1, k2⟩

/-! ### C168 -/

/-- **C168** A connected TypeScript client that is quiet gets its broadcasts: whatever happens elsewhere, if all the TypeScript
server sends to the client meanwhile are broadcasts and it does not discredit the client, then user code of the client gets those of its
workflow, in order and with the values the server sent, as soon as the bytes arrive; and it is ready for calls again. -/
theorem C168_ts_ts_client_hears (sm : TsSmooth cfg env takes ccfg cenv) (t : TsTerms)
    {n : Net (tsServer cfg env opts takes down) (tsClient ccfg cenv up)} {u : Network.Uuid} (h : TsEstablished n u)
    {es : List (UInt64 × Event (tsServer cfg env opts takes down) (tsClient ccfg cenv up))}
    (hes : ∀ e ∈ es, Network.Elsewhere u e.2) (hrun : (run es n).server.1 = false) {later : List TsServer.Act}
    (hl : (run es n).server.2.past = later ++ n.server.2.past) (hdis : .discredited u ∉ later)
    {xs : List (Flow.Ref × TsServer.Js)} (hb : tsPosted takes u later = xs.map (fun x => (0, .msg x.1 x.2)))
    (hrd : ∀ x ∈ xs, TsReadRight t ccfg down (.msg x.1 x.2)) :
    ∃ k c c' newer,
      let n' : Net (tsServer cfg env opts takes down) (tsClient ccfg cenv up) := run (es ++ [(0, .toClient u k)]) n
      TsEstablished n' u ∧ n.find u = some c ∧ n'.find u = some c' ∧ c'.client.2.past = newer ++ c.client.2.past ∧
      TsHeardOf ccfg.workflow u (xs.map (fun x => (u, x))) (tsCasts newer) := by
  obtain ⟨k, c, c', newer, h1, h2, h3, h4, _, h5⟩ := ts_overheard sm h hes hrun hl hdis hb hrd
  exact ⟨k, c, c', newer, h1, h2, h3, h4, h5⟩

/-- **C168** In particular a request of one client reaches the others: it returns what user code of the server decided on, and user
code of any other client that is connected gets exactly the broadcasts that user code of the server gave with it for this client. -/
theorem C168_ts_ts_others_hear (sm : TsSmooth cfg env takes ccfg cenv) (t : TsTerms)
    (es0 : List (UInt64 × Event (tsServer cfg env opts takes down) (tsClient ccfg cenv up))) {u v : Network.Uuid} (huv : v ≠ u)
    (h : TsEstablished (run es0 .new) v) (hq : ∀ c, (run es0 .new).find v = some c → c.client.2.sequence < 4294967296)
    (hu : TsEstablished (run es0 .new) u) {kind : TsClient.Kind} {body : TsServer.Js} (hs : TsServable t cfg up kind body)
    {x : TsServer.Settled} {o : TsServer.Out} {res : TsClient.Result} {casts : List TsServer.Cast} (hd : TsDecides kind x o res casts)
    (hro : TsReadRight t ccfg down o) (hrb : ∀ y ∈ eachCast casts, y.1 = u ∨ y.1 = v → TsReadRight t ccfg down (.msg y.2.1 y.2.2)) :
    ∃ (obj count count' : Nat) (mine : List (Flow.Ref × TsServer.Js)) (k : Nat) (c c' : Conn (tsClient ccfg cenv up)) (newer : List TsClient.Act),
      let es : List (UInt64 × Event (tsServer cfg env opts takes down) (tsClient ccfg cenv up)) :=
        callEvents v kind body obj count (run es0 .new).server.2.next x count'
      TsReturned (run es0 .new) (run (es0 ++ es) .new) v kind body res mine ∧
      (run es0 .new).find u = some c ∧ (run (es0 ++ es ++ [(0, .toClient u k)]) .new).find u = some c' ∧
      c'.client.2.past = newer ++ c.client.2.past ∧ TsHeardOf ccfg.workflow u (eachCast casts) (tsCasts newer) ∧
      TsEstablished (run (es0 ++ es ++ [(0, .toClient u k)]) .new) u := by
  obtain ⟨es', hi⟩ := inv_run (growing_tsTs (cfg := cfg) (env := env) (opts := opts) (takes := takes) (down := down) (ccfg := ccfg) (cenv := cenv) (up := up)) es0
  obtain ⟨obj, count, count', heard, later, h1, h2, h3, _, h4, _, h5, h6⟩ := ts_answered sm hi h hq hs hd hro
    (fun y hy e => hrb y hy (.inr e))
  obtain ⟨k, c, c', newer, k1, k2, k3, k4, _, k5⟩ := ts_overheard sm (t := t) hu (callEvents_elsewhere huv) h1.running h4 (h5 u)
    (xs := ((eachCast casts).filter (fun y => y.1 = u)).map Prod.snd) (by rw [h6 u (Ne.symm huv), List.map_map]; rfl) (by
      intro y hy
      obtain ⟨z, hz, rfl⟩ := List.mem_map.1 hy
      obtain ⟨z1, z2⟩ := List.mem_filter.1 hz
      exact hrb z z1 (.inl (by simpa using z2)))
  rw [← Network.run_append] at h2
  rw [← Network.run_append, ← List.append_assoc] at k1 k3
  refine ⟨obj, count, count', heard, k, c, c', newer, h2, k2, k3, k4, ts_heard_filter ?_, k1⟩
  rw [List.map_map] at k5
  exact k5

/-- **C168** In particular an event of the workflow reaches the clients: user code of a client that is connected gets exactly the
broadcasts that user code of the server gave for it, in the order in which it gave them. -/
theorem C168_ts_ts_event_heard (sm : TsSmooth cfg env takes ccfg cenv) (t : TsTerms)
    (es0 : List (UInt64 × Event (tsServer cfg env opts takes down) (tsClient ccfg cenv up))) {u : Network.Uuid}
    (h : TsEstablished (run es0 .new) u) {e : Flow.Event}
    (he : e ∈ cfg.workflow.events) {ref : Flow.Ref} (href : e.reference = some ref)
    (hdef : ref ≠ "connected".toList ∧ ref ≠ "disconnected".toList)
    (huniq : ∀ e' ∈ cfg.workflow.events, e'.reference = some ref → e' = e) {casts : List TsServer.Cast} (hg : TsGives e casts)
    (hrb : ∀ y ∈ eachCast casts, y.1 = u → TsReadRight t ccfg down (.msg y.2.1 y.2.2)) :
    ∃ (k : Nat) (c c' : Conn (tsClient ccfg cenv up)) (newer : List TsClient.Act) (later : List TsServer.Act),
      let es : List (UInt64 × Event (tsServer cfg env opts takes down) (tsClient ccfg cenv up)) :=
        [(0, .server (.event ref)), (0, .server (.settled (run es0 .new).server.2.next (.output (giving casts))))]
      (run (es0 ++ es) .new).server.2.past = later ++ (run es0 .new).server.2.past ∧ .event (run es0 .new).server.2.next ref ∈ later ∧
      (run es0 .new).find u = some c ∧ (run (es0 ++ es ++ [(0, .toClient u k)]) .new).find u = some c' ∧
      c'.client.2.past = newer ++ c.client.2.past ∧ TsHeardOf ccfg.workflow u (eachCast casts) (tsCasts newer) ∧
      TsEstablished (run (es0 ++ es ++ [(0, .toClient u k)]) .new) u := by
  obtain ⟨es', hi⟩ := inv_run (growing_tsTs (cfg := cfg) (env := env) (opts := opts) (takes := takes) (down := down) (ccfg := ccfg) (cenv := cenv) (up := up)) es0
  obtain ⟨later, h1, h2, h3, h4, h5⟩ := ts_event sm hi h he href hdef huniq hg
  have hes : ∀ x ∈ ([(0, .server (.event ref)), (0, .server (.settled (run es0 .new).server.2.next (.output (giving casts))))] :
      List (UInt64 × Event (tsServer cfg env opts takes down) (tsClient ccfg cenv up))), Network.Elsewhere u x.2 := by
    intro x hx
    simp only [List.mem_cons, List.not_mem_nil, or_false] at hx
    rcases hx with rfl | rfl <;> trivial
  obtain ⟨k, c, c', newer, k1, k2, k3, k4, _, k5⟩ := ts_overheard sm (t := t) h hes h1 h2 (h4 u)
    (xs := ((eachCast casts).filter (fun y => y.1 = u)).map Prod.snd) (by rw [h5 u, List.map_map]; rfl) (by
      intro y hy
      obtain ⟨z, hz, rfl⟩ := List.mem_map.1 hy
      obtain ⟨z1, z2⟩ := List.mem_filter.1 hz
      exact hrb z z1 (by simpa using z2))
  rw [← Network.run_append] at h2
  rw [← Network.run_append, ← List.append_assoc] at k1 k3
  refine ⟨k, c, c', newer, later, h2, h3, k2, k3, k4, ts_heard_filter ?_, k1⟩
  rw [List.map_map] at k5
  exact k5

/-- Clients 65 and 66 connect. -/
def jettyBoth : List (UInt64 × Event JettyServer JettyClient) :=
  [(1, .opened 65), (1, .opened 66), (3, .client 65 .connected), (3, .client 66 .connected),
   (4, .toServer 66 100), (4, .toServer 65 100), (4, .toClient 65 100), (4, .toClient 66 100),
   (5, .client 65 (.work 0)), (5, .client 66 (.work 0)), (5, .client 65 (.work 0)), (5, .client 66 (.work 0)),
   (6, .toServer 65 100), (6, .toServer 66 100), (6, .toClient 65 100), (6, .toClient 66 100), (7, .client 65 (.work 0)), (7, .client 66 (.work 0))]

theorem jetty_established {n : Net JettyServer JettyClient} {u : Network.Uuid} (h1 : n.server.1 = false)
    (h2 : (n.find u).any (fun c => !c.client.1 && c.client.2.reader.buffer.isEmpty && c.client.2.reader.queue.isEmpty &&
      c.client.2.pending.isEmpty && c.client.2.tasks.isEmpty && c.up.isEmpty && c.down.isEmpty) = true)
    (h3 : (n.server.2.find u).any (fun c => c.reader.buffer.isEmpty && c.reader.queue.isEmpty && !c.discredited && c.hash && c.key.isSome) = true) :
    TsEstablished n u := by
  refine ⟨h1, ?_, ?_⟩
  · cases e : n.find u with
    | none => rw [e] at h2; cases h2
    | some c =>
      rw [e] at h2
      simp only [Option.any_some, Bool.and_eq_true, List.isEmpty_iff, Bool.not_eq_true'] at h2
      obtain ⟨⟨⟨⟨⟨⟨k1, k2⟩, k3⟩, k4⟩, k5⟩, k6⟩, k7⟩ := h2
      exact ⟨c, rfl, k1, ⟨by rw [← k2, ← k3], k4, k5⟩, k6, k7⟩
  · cases e : n.server.2.find u with
    | none => rw [e] at h3; cases h3
    | some c =>
      rw [e] at h3
      simp only [Option.any_some, Bool.and_eq_true, List.isEmpty_iff, Bool.not_eq_true'] at h3
      obtain ⟨⟨⟨⟨k1, k2⟩, k3⟩, k4⟩, k5⟩ := h3
      exact ⟨c, rfl, by rw [← k1, ← k2], k3, k4, k5⟩

theorem jetty_both : TsEstablished (run jettyBoth (.new : Net JettyServer JettyClient)) 65 ∧
    TsEstablished (run jettyBoth (.new : Net JettyServer JettyClient)) 66 :=
  ⟨jetty_established (by decide +kernel) (by decide +kernel) (by decide +kernel),
    jetty_established (by decide +kernel) (by decide +kernel) (by decide +kernel)⟩

theorem jetty_hears_cast {y : Nat} {h : List (Flow.Ref × TsServer.Js)}
    (k : TsHeardOf jettyClientCfg.workflow 66 (eachCast [(['U'], [65, 66], quayVal y)]) h) : h = [(['U'], quayVal y)] := by
  have hb : TsClient.Broadcasts jettyClientCfg.workflow ['U'] :=
    .inr ⟨townEvent, List.mem_singleton.2 rfl, _, List.mem_singleton.2 rfl, rfl⟩
  cases k with
  | other _ k =>
    cases k with
    | known _ k => cases k; rfl
    | unknown hn _ => exact absurd hb hn
    | other hn _ => exact absurd rfl hn

/-- Client 65 makes a request, and client 66 gets the broadcast. -/
theorem jetty_request_heard {es0 : List (UInt64 × Event JettyServer JettyClient)}
    (h : TsEstablished (run es0 (.new : Net JettyServer JettyClient)) 65 ∧ TsEstablished (run es0 (.new : Net JettyServer JettyClient)) 66)
    (hq : ((run es0 (.new : Net JettyServer JettyClient)).find 65).all (fun c => decide (c.client.2.sequence < 4294967296)) = true) :
    ∃ (es : List (UInt64 × Event JettyServer JettyClient)) (mine : List (Flow.Ref × TsServer.Js)) (c' : Conn JettyClient)
      (newer : List TsClient.Act) (k : Nat),
      TsReturned (run es0 .new) (run (es0 ++ es) .new) 65 (.request jettyRequest) (quayVal 41) (.resolved ['R'] (quayVal 42)) mine ∧
      (run (es0 ++ es ++ [(0, .toClient 66 k)]) (.new : Net JettyServer JettyClient)).find 66 = some c' ∧
      (∃ past, c'.client.2.past = newer ++ past) ∧ tsCasts newer = [(['U'], quayVal 7)] := by
  obtain ⟨obj, count, count', mine, k, c, c', newer, h1, h2, h3, h4, h5, _⟩ := C168_ts_ts_others_hear (u := 66) (v := 65) jetty_smooth wharfTerms es0
    (by decide) h.1 (by
      intro c hc
      rw [hc] at hq
      simpa using hq) h.2 (jetty_request (x := 41) (by decide)) (jetty_decides (us := [65, 66]) (x := 42) (y := 7))
    (jetty_reads (by simp) (by intro ref b e; injection e with e1 e2; subst e1 e2; exact ⟨42, rfl, by decide, .inl rfl⟩))
    (fun z hz _ => jetty_casts (by decide) z hz)
  exact ⟨_, mine, c', newer, k, h1, h3, ⟨_, h4⟩, jetty_hears_cast h5⟩

example : ∃ (es0 es : List (UInt64 × Event JettyServer JettyClient)) (mine : List (Flow.Ref × TsServer.Js)) (c' : Conn JettyClient)
      (newer : List TsClient.Act) (k : Nat),
      TsReturned (run es0 .new) (run (es0 ++ es) .new) 65 (.request jettyRequest) (quayVal 41) (.resolved ['R'] (quayVal 42)) mine ∧
      (run (es0 ++ es ++ [(0, .toClient 66 k)]) (.new : Net JettyServer JettyClient)).find 66 = some c' ∧
      (∃ past, c'.client.2.past = newer ++ past) ∧ tsCasts newer = [(['U'], quayVal 7)] :=
  ⟨jettyBoth, jetty_request_heard jetty_both (by decide +kernel)⟩

theorem jetty_gives {us : List Network.Uuid} {y : Nat} : TsGives townEvent [(['U'], us, quayVal y)] := by
  refine ⟨by decide, by simp, ?_, ?_⟩
  · intro x hx
    rw [List.mem_singleton.1 hx]
    exact ⟨_, List.mem_cons_self, rfl⟩
  · intro b hb _
    rw [List.mem_singleton.1 hb]
    exact ⟨_, List.mem_cons_self, rfl⟩

/-- The event `T` happens, and client 66 gets the broadcast. -/
theorem jetty_event_heard {es0 : List (UInt64 × Event JettyServer JettyClient)} (h : TsEstablished (run es0 (.new : Net JettyServer JettyClient)) 66) :
    ∃ (es : List (UInt64 × Event JettyServer JettyClient)) (c' : Conn JettyClient) (newer : List TsClient.Act) (k : Nat),
      (run (es0 ++ es ++ [(0, .toClient 66 k)]) (.new : Net JettyServer JettyClient)).find 66 = some c' ∧
      (∃ past, c'.client.2.past = newer ++ past) ∧ tsCasts newer = [(['U'], quayVal 9)] := by
  obtain ⟨k, c, c', newer, later, _, _, _, h3, h4, h5, _⟩ := C168_ts_ts_event_heard jetty_smooth wharfTerms es0 h (e := townEvent)
    (by simp [jettyCfg, jettyFlow]) (ref := ['T']) rfl (by decide) (by simp [jettyCfg, jettyFlow]) (jetty_gives (us := [65, 66]) (y := 9))
    (fun z hz _ => jetty_casts (by decide) z hz)
  exact ⟨_, c', newer, k, h3, ⟨_, h4⟩, jetty_hears_cast h5⟩

example : ∃ (es0 es : List (UInt64 × Event JettyServer JettyClient)) (c' : Conn JettyClient) (newer : List TsClient.Act) (k : Nat),
      (run (es0 ++ es ++ [(0, .toClient 66 k)]) (.new : Net JettyServer JettyClient)).find 66 = some c' ∧
      (∃ past, c'.client.2.past = newer ++ past) ∧ tsCasts newer = [(['U'], quayVal 9)] :=
  ⟨jettyBoth, jetty_event_heard jetty_both.2⟩

end Verif.Props
