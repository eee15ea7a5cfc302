import Verif.Props.NetworkTextsLive
import Verif.Props.NetworkQuiet
import Verif.Props.NetworkTsTsQuiet
import Verif.Props.SystemQuiet
set_option autoImplicit false
/-!
Programs generated from texts lose no call and no broadcast (C182): whatever the order of events was.
-/
namespace Verif.Props

open Verif Verif.Spec Verif.System Verif.Network

/-! ### C182 -/

section
variable {cd : Network.Codec} {ccfg : TsClient.Cfg} {cenv : TsClient.Env} {opts : Server.Options}
  {cfg : Server.Cfg Rust.Msg} {env : Server.Env Rust.Msg}
  {tcfg : TsServer.Cfg} {tenv : TsServer.Env} {takes : List TsServer.Act → Network.Uuid → UInt32 → TsServer.Out → Bool}

/-- **C182** (partial) TypeScript client, Rust server, generated from an accepted protocol and an accepted workflow as in
C179, with options such as `Options::new`. Whatever the order of events: when nothing is under way and the server never
asked the transport to drop the client, all calls of the client with a request have ended; and those that were resolved
have the value that user code of the server decided on for the value that was passed. The full statement has no bound on
ids (C179) and no conditions on names. -/
theorem C182_ts_rust_requests_end_partial {ptext : List Char} {pr : Prot.Store} (hp : Prot.Parses ptext (.accepted pr))
    (ho : ¬ Prot.LeftOpen pr) {text : List Char} {flow : Flow.Store} {pr2 : Prot.Store}
    (h : Flow.Parses pr text (.accepted flow pr2)) {c : Flow.Config} (hc : flow.config = some c)
    (hn : NoServices pr) (hs : Prot.Supported pr2) (hna : NamesApart pr2) {sg : UInt16} (hsm : pr2.sequence < 256)
    (hcd : Network.CodecOf pr2 sg cd) (hkey : BothOk cd.codec.protocol cd.codec.key)
    (hk : c.selfKey = some (cd.codec.name (msgId cd.codec.key))) (hpl : Plain cd.codec) (hw : cfg.workflow = flow)
    (hd : opts.onError = .disconnect ∨ opts.onError = .emitErrorAndDisconnect) (hid : opts.identification ≠ .emitError)
    (es : List (UInt64 × Network.Event (cd.rustServer cfg env opts) (cd.tsClient ccfg cenv)))
    (ht : TsRustTyped cd (Network.run es .new)) (hsn : Network.Small (Network.run es .new)) {u : Network.Uuid}
    {cn : Network.Conn (cd.tsClient ccfg cenv)} (hq : RustQuiet (Network.run es .new) u cn) {k o : Nat} {r : Flow.Request}
    (hr : r ∈ flow.requests) {b : TsServer.Js} (h1 : .created o (.request r) b ∈ cn.client.2.past)
    (h2 : .called k o ∈ cn.client.2.past) (h3 : r.request ≠ c.selfKey)
    (h4 : ∀ x ∈ flow.beacons, r.request ≠ some x.reference) (hdi : Distinct flow r) :
    ∃ res, .ended k res ∈ cn.client.2.past ∧ ∀ ref v, res = .resolved ref v →
      ∃ p x s l, AnswerOf r ref ∧ Looks cd p b ∧ cd.codec.name (msgId p) = r.request.getD [] ∧
        Looks cd x v ∧ cd.codec.name (msgId x) = ref ∧ Server.Decides env r s u p (.msg ref x) l := by
  have ok := (C179_texts_to_codecs_partial hp ho h hc hn hs hna sg).2.2 hsm cd hcd hkey hk hpl
  obtain ⟨hf, hfa, hre⟩ := C176_codecs_faithful cd ok _ ht
  obtain ⟨rq, hrq⟩ := Option.isSome_iff_exists.1 ((Flow.accepted_once h).1.requests.2 r hr)
  obtain ⟨res, he⟩ := C174_requests_end (named cd) es hf hsn hfa hre hq hd hid h1 h2 (kind := .request r) (ref := rq) (by
      show r.request.getD [] = rq
      rw [hrq]; rfl) (r := r) (by dsimp only; rw [hw]; exact hr) hrq (fun e => h3 (by rw [hk, hrq, e])) (by
      dsimp only; rw [hw]; intro x hx e; exact h4 x hx (by rw [hrq, e]))
  refine ⟨res, he, ?_⟩
  rintro ref v rfl
  exact C179_request_end_to_end_partial hp ho h hc hn hs hna hsm hcd hkey hk hpl hw es ht hsn hq.conn hr h1 h2 he hdi

/-- **C182** (partial) The same for broadcasts: those that user code of the client got are exactly those that the transport
of the server took for it, in order, each once. -/
theorem C182_ts_rust_broadcasts_partial {ptext : List Char} {pr : Prot.Store} (hp : Prot.Parses ptext (.accepted pr))
    (ho : ¬ Prot.LeftOpen pr) {text : List Char} {flow : Flow.Store} {pr2 : Prot.Store}
    (h : Flow.Parses pr text (.accepted flow pr2)) {c : Flow.Config} (hc : flow.config = some c)
    (hn : NoServices pr) (hs : Prot.Supported pr2) (hna : NamesApart pr2) {sg : UInt16} (hsm : pr2.sequence < 256)
    (hcd : Network.CodecOf pr2 sg cd) (hkey : BothOk cd.codec.protocol cd.codec.key)
    (hk : c.selfKey = some (cd.codec.name (msgId cd.codec.key))) (hpl : Plain cd.codec) (hw : ccfg.workflow = flow)
    (hb : ∀ ref, TsClient.Broadcasts flow ref → Network.Foreign ref)
    (es : List (UInt64 × Network.Event (cd.rustServer cfg env opts) (cd.tsClient ccfg cenv)))
    (ht : TsRustTyped cd (Network.run es .new)) (hsn : Network.Small (Network.run es .new)) {u : Network.Uuid}
    {cn : Network.Conn (cd.tsClient ccfg cenv)} (hq : RustQuiet (Network.run es .new) u cn) :
    RustCastsOf (named cd) flow (System.sends u (Network.run es .new).server.2.past) (tsCasts cn.client.2.past) := by
  have ok := (C179_texts_to_codecs_partial hp ho h hc hn hs hna sg).2.2 hsm cd hcd hkey hk hpl
  obtain ⟨hf, hfa, hre⟩ := C176_codecs_faithful cd ok _ ht
  subst hw
  exact C174_all_broadcasts (named cd) es hf hsn hfa hre hq hb

/-- **C182** (partial) TypeScript on both sides. Whatever the order of events: when nothing is under way and the server never
asked the transport to drop the client, a call with a request has ended, or the server looked at this very
message, dropped the client or called the handler for it, and its transport took no answer yet. -/
theorem C182_ts_ts_accounted_for_partial {ptext : List Char} {pr : Prot.Store} (hp : Prot.Parses ptext (.accepted pr))
    (ho : ¬ Prot.LeftOpen pr) {text : List Char} {flow : Flow.Store} {pr2 : Prot.Store}
    (h : Flow.Parses pr text (.accepted flow pr2)) {c : Flow.Config} (hc : flow.config = some c)
    (hn : NoServices pr) (hs : Prot.Supported pr2) (hna : NamesApart pr2) {sg : UInt16} (hsm : pr2.sequence < 256)
    (hcd : Network.CodecOf pr2 sg cd) (hkey : BothOk cd.codec.protocol cd.codec.key)
    (hk : c.selfKey = some (cd.codec.name (msgId cd.codec.key))) (hpl : Plain cd.codec)
    (es : List (UInt64 × Network.Event (cd.tsServer tcfg tenv opts takes) (cd.tsClient ccfg cenv)))
    (ht : TsTsTyped cd (Network.run es .new)) (hsn : Network.Small (Network.run es .new)) {u : Network.Uuid}
    {cn : Network.Conn (cd.tsClient ccfg cenv)} (hq : TsQuiet (Network.run es .new) u cn) {k o : Nat} {kind : TsClient.Kind}
    {ps : List (TsServer.Name × TsServer.Js)} {ref : Flow.Ref} (h1 : .created o kind (.obj ps) ∈ cn.client.2.past)
    (h2 : .called k o ∈ cn.client.2.past) (h3 : kind.Asks ref) (he : TsExpected (tsServerCfg cd tcfg) ref) :
    (∃ r, .ended k r ∈ cn.client.2.past) ∨
    ∃ q x newer a older, .sent (.call k o) (UInt32.toNat q) (.msg ref (.obj ps)) ∈ cn.client.2.past ∧
      (Network.run es .new).server.2.past = newer ++ a :: .got u x q :: older ∧ TsServer.IsA x ref ∧ x.body = .obj ps ∧
      (a = .drop u ∨ TsHandler (tsServerCfg cd tcfg) u q x a) ∧ ∀ out, (q, out) ∉ tsPosted takes u (Network.run es .new).server.2.past := by
  have ok := (C179_texts_to_codecs_partial hp ho h hc hn hs hna sg).2.2 hsm cd hcd hkey hk hpl
  obtain ⟨hf, hfa, hre⟩ := C177_codec_faithful cd ok _ ht
  exact C169_call_accounted_for (tsNamed cd) es hf hsn hfa hre hq h1 h2 h3 he

/-- **C182** (partial) The same for broadcasts with TypeScript on both sides. -/
theorem C182_ts_ts_broadcasts_partial {ptext : List Char} {pr : Prot.Store} (hp : Prot.Parses ptext (.accepted pr))
    (ho : ¬ Prot.LeftOpen pr) {text : List Char} {flow : Flow.Store} {pr2 : Prot.Store}
    (h : Flow.Parses pr text (.accepted flow pr2)) {c : Flow.Config} (hc : flow.config = some c)
    (hn : NoServices pr) (hs : Prot.Supported pr2) (hna : NamesApart pr2) {sg : UInt16} (hsm : pr2.sequence < 256)
    (hcd : Network.CodecOf pr2 sg cd) (hkey : BothOk cd.codec.protocol cd.codec.key)
    (hk : c.selfKey = some (cd.codec.name (msgId cd.codec.key))) (hpl : Plain cd.codec) (hw : ccfg.workflow = flow)
    (hb : ∀ ref, TsClient.Broadcasts flow ref → Network.Foreign ref)
    (es : List (UInt64 × Network.Event (cd.tsServer tcfg tenv opts takes) (cd.tsClient ccfg cenv)))
    (ht : TsTsTyped cd (Network.run es .new)) (hsn : Network.Small (Network.run es .new)) {u : Network.Uuid}
    {cn : Network.Conn (cd.tsClient ccfg cenv)} (hq : TsQuiet (Network.run es .new) u cn) :
    Network.CastsOf flow (tsPosted takes u (Network.run es .new).server.2.past) (tsCasts cn.client.2.past) := by
  have ok := (C179_texts_to_codecs_partial hp ho h hc hn hs hna sg).2.2 hsm cd hcd hkey hk hpl
  obtain ⟨hf, hfa, hre⟩ := C177_codec_faithful cd ok _ ht
  subst hw
  exact C169_all_broadcasts (tsNamed cd) es hf hsn hfa hre hq hb

end

/-- **C182** (partial) Rust on both sides, for any number of ids. Whatever the order of events: when nothing is under way and
the server never asked the transport to drop the client, no call of the client with a request is open, and the
broadcasts that user code of the client got are exactly those that the transport of the server took for it. -/
theorem C182_rust_rust_partial {ptext : List Char} {pr : Prot.Store} (hp : Prot.Parses ptext (.accepted pr))
    (ho : ¬ Prot.LeftOpen pr) {text : List Char} {flow : Flow.Store} {pr2 : Prot.Store}
    (h : Flow.Parses pr text (.accepted flow pr2)) {cfg : Flow.Config} (hcfg : flow.config = some cfg)
    (hn : NoServices pr) (hs : Prot.Supported pr2) {sg : UInt16} {cd : System.Codec} (hcd : System.CodecOf pr2 sg cd)
    (hkey : SendOk cd.protocol cd.key) (hk : cfg.selfKey = some (cd.name (msgId cd.key))) (hsh : Short cd)
    (w : Setup Rust.Msg) (hw : w.server.workflow = flow)
    (hd : w.opts.onError = .disconnect ∨ w.opts.onError = .emitErrorAndDisconnect) (hid : w.opts.identification ≠ .emitError)
    (es : List (UInt64 × System.Event Rust.Msg)) (ht : Typed cd (System.run (cd.setup w) es .new)) {u : System.Uuid}
    {c : System.Conn Rust.Msg} (hq : Settled (System.run (cd.setup w) es .new) u c) (hfew : Client.Few c.client.past) :
    (∀ req ∈ flow.requests, req.request ≠ cfg.selfKey → (∀ b ∈ flow.beacons, req.request ≠ some b.reference) →
      ∀ k x, c.client.calls.lookup k = some x → some x.job.ref ≠ req.request) ∧
    System.CastsOf (cd.setup w).client.broadcasts (System.sends u (System.run (cd.setup w) es .new).server.past) (casts c.client.past) := by
  have ok := (C150_texts_to_codec_partial hp ho h hcfg hn hs sg).2 cd hcd hkey hk hsh
  obtain ⟨hf, hfa, hre⟩ := C149_codec_faithful cd ok w _ ht
  refine ⟨fun req hreq h1 h2 k x hx e => ?_, C175_all_broadcasts (cd.setup w) _ _ es hf hfa hre hq hfew⟩
  exact C175_requests_end (cd.setup w) _ _ es hf hfa hre hq hfew hd hid (r := req) (ref := x.job.ref)
    (by rw [show (cd.setup w).server.workflow = flow from hw]; exact hreq) e.symm
    (fun e' => h1 (by rw [hk, ← e]; exact congrArg some e')) (by
      rw [show (cd.setup w).server.workflow = flow from hw]
      intro b hb e'
      exact h2 b hb (by rw [← e, e'])) k x hx rfl

/-! The witness: the protocol of C150 with another workflow, which has a request, an event with a broadcast, and a beacon. -/

def marketText : List Char :=
  "&config { Producer: rust; Consumer: typescript; SelfKey: K; AssignedKey: K; }\nQ!E{(R);}\n@S{>E;}\n@beacons{>Z;}".toList

def marketQ : Flow.Request := ⟨some ['Q'], some ['E'], [⟨none, some ['R'], [], [], false⟩], [], [], .nothing, true⟩

def marketEvent : Flow.Event := ⟨some ['S'], [⟨['E'], false⟩], [], .nothing, true⟩

def marketConfig : Flow.Config := ⟨[.rust], [.typescript], some ['K'], some ['K'], true, [.word], .nothing⟩

def marketFlow : Flow.Store := ⟨[marketEvent], [marketQ], [⟨['Z'], false⟩], some marketConfig⟩

set_option maxRecDepth 20000 in
theorem market_flow : Flow.Parses villageProt marketText (.accepted marketFlow villageAll) := ⟨200, by rfl⟩

theorem village_ok : NamedOk villageNamed :=
  (C179_texts_to_codecs_partial village_prot village_closed village_flow rfl village_none village_supported village_apart 7).2.2
    (by decide) villageNamed village_named village_both (by decide) village_plain

/-- User code of the Rust server: requests are answered with 42, the event sends 9 to client 1. -/
def marketEnv : Server.Env Rust.Msg where
  send _ _ _ _ := true
  drop _ _ := true
  conclude _ _ _ _ := none
  reply _ _ _ _ := some (.response (cityMsg 5 6 42))
  beacon _ _ _ _ := .ok ()
  emit _ e _ := if h : e = marketEvent then .ok (h ▸ (([1], cityMsg 9 10 9), ())) else .err
  error _ _ := .ok ()
  ready _ := .ok ()

def marketServerCfg : Server.Cfg Rust.Msg := { village.server with workflow := marketFlow }

def marketTsServerCfg : TsServer.Cfg := { parishCfg with workflow := marketFlow }

def marketClientCfg : TsClient.Cfg := { parishClientCfg with workflow := marketFlow }

abbrev MarketServer : ServerProg := villageNamed.rustServer marketServerCfg marketEnv .new

abbrev MarketTsServer : ServerProg := villageNamed.tsServer marketTsServerCfg wharfEnv .new (fun _ _ _ _ => true)

abbrev MarketClient : ClientProg := villageNamed.tsClient marketClientCfg pierEnv

/-- Client 1 connects and makes a request; it gets a broadcast, and sends a beacon. -/
def marketRun : List (UInt64 × Network.Event MarketServer MarketClient) :=
  [(1, .opened 1), (2, .server .confirm), (3, .client 1 .connected), (4, .toServer 1 500), (4, .toClient 1 500),
   (5, .client 1 (.work 0)), (5, .client 1 (.work 0)), (6, .toServer 1 500), (6, .toClient 1 500), (7, .client 1 (.work 0)),
   (8, .client 1 (.user (.create (.request marketQ) (villageJs 41)))), (8, .client 1 (.user (.send 1))),
   (8, .toServer 1 10), (8, .toServer 1 500), (8, .toClient 1 500), (8, .client 1 (.work 0)),
   (9, .server (.event ['S'] (cityMsg 7 8 1))), (9, .toClient 1 500),
   (9, .client 1 (.user (.create (.beacon ['Z']) (villageJs 5)))), (9, .client 1 (.user (.send 3))),
   (9, .toServer 1 500), (9, .toClient 1 500), (9, .client 1 (.work 0))]

/-- The same with the TypeScript server, which has not answered the request yet. -/
def marketTsRun : List (UInt64 × Network.Event MarketTsServer MarketClient) :=
  [(1, .opened 1), (3, .client 1 .connected), (4, .toServer 1 500), (4, .toClient 1 500),
   (5, .client 1 (.work 0)), (5, .client 1 (.work 0)), (6, .toServer 1 500), (6, .toClient 1 500), (7, .client 1 (.work 0)),
   (8, .client 1 (.user (.create (.request marketQ) (villageJs 41)))), (8, .client 1 (.user (.send 1))), (8, .toServer 1 500),
   (9, .server (.event ['S'])), (9, .server (.settled 2 (.output [⟨[1], TsServer.plain ['E'], villageJs 9⟩]))), (9, .toClient 1 500)]

def marketUp : TsClient.Act → Bool
  | .sent _ _ (.msg ref b) => ref == ['Q'] && jsSame b (villageJs 41) || ref == ['Z'] && jsSame b (villageJs 5)
  | _ => true

def marketDown : Server.Act Rust.Msg → Bool
  | .send _ _ (.msg ref m) _ => ref == ['R'] && cityNumber m == some (5, 6, .u8, 42) ||
      ref == ['E'] && cityNumber m == some (9, 10, .u8, 9)
  | _ => true

def marketTsDown : TsServer.Act → Bool
  | .send _ _ _ (.msg ref b) => ref == ['E'] && jsSame b (villageJs 9)
  | _ => true

theorem market_passes {b : TsServer.Js} {ref : Flow.Ref}
    (h : (ref == ['Q'] && jsSame b (villageJs 41) || ref == ['Z'] && jsSame b (villageJs 5)) = true) :
    (∃ m, Passes villageNamed ref b m) ∧ TsPasses villageNamed ref b := by
  simp only [Bool.or_eq_true, Bool.and_eq_true, beq_iff_eq] at h
  rcases h with ⟨rfl, h⟩ | ⟨rfl, h⟩
  · cases jsSame_eq _ _ h
    exact ⟨⟨cityMsg 3 4 41, stands_looks village_ok (village_stands (by simp [villageNamed]) 41),
      village_portable (by simp [villageCodec]) (by decide) 41, rfl, by simp [msgId, cityMsg, villageNamed, villageCodec]⟩,
      village_passes_Q 41⟩
  · cases jsSame_eq _ _ h
    exact ⟨⟨cityMsg 11 12 5, stands_looks village_ok (village_stands (by simp [villageNamed]) 5),
      village_portable (by simp [villageCodec]) (by decide) 5, rfl, by simp [msgId, cityMsg, villageNamed, villageCodec]⟩,
      cityMsg 11 12 5, village_stands (by simp [villageNamed]) 5, (village_portable (by simp [villageCodec]) (by decide) 5).ts, rfl⟩

theorem market_typed {n : Net MarketServer MarketClient} (h1 : n.server.2.past.all marketDown = true)
    (h2 : n.conns.all (fun p => p.2.client.2.past.all marketUp) = true) : TsRustTyped villageNamed n := by
  refine ⟨fun u c hc who q ref body h => ?_, fun u q ref m h => ?_⟩
  · exact (market_passes (List.all_eq_true.1 (List.all_eq_true.1 h2 (u, c) (conn_mem hc)) _ h)).1
  · have := List.all_eq_true.1 h1 _ h
    simp only [marketDown, Bool.or_eq_true, Bool.and_eq_true, beq_iff_eq] at this
    rcases this with ⟨rfl, k⟩ | ⟨rfl, k⟩
    · obtain ⟨y, rfl, _⟩ := cityNumber_eq k
      exact ⟨village_portable (by simp [villageCodec]) (by decide) y, rfl⟩
    · obtain ⟨y, rfl, _⟩ := cityNumber_eq k
      exact ⟨village_portable (by simp [villageCodec]) (by decide) y, rfl⟩

theorem market_ts_typed {n : Net MarketTsServer MarketClient} (h1 : n.server.2.past.all marketTsDown = true)
    (h2 : n.conns.all (fun p => p.2.client.2.past.all marketUp) = true) : TsTsTyped villageNamed n := by
  refine ⟨fun u c hc who q ref body h => ?_, fun f u q ref b h => ?_⟩
  · exact (market_passes (List.all_eq_true.1 (List.all_eq_true.1 h2 (u, c) (conn_mem hc)) _ h)).2
  · have := List.all_eq_true.1 h1 _ h
    simp only [marketTsDown, Bool.and_eq_true, beq_iff_eq] at this
    obtain ⟨rfl, k⟩ := this
    cases jsSame_eq _ _ k
    exact ⟨cityMsg 9 10 9, village_stands (by simp [villageNamed]) 9, (village_portable (by simp [villageCodec]) (by decide) 9).ts, rfl⟩

/-- What `RustQuiet` needs. -/
theorem market_still {tenv : Server.Env Rust.Msg} {n : Net (villageNamed.rustServer marketServerCfg tenv .new) MarketClient} (f : Network.Conn MarketClient → Bool)
    (h0 : (decide (n.server.1 = .running) && (n.server.2.find 1).isSome && n.server.2.past.all (fun | .drop _ => false | _ => true) &&
      (n.find 1).any (fun c => c.up.isEmpty && c.down.isEmpty && !c.client.1 && c.client.2.reader.queue.isEmpty && c.client.2.tasks.isEmpty)) = true)
    (h : (n.find 1).any f = true) : ∃ c, RustQuiet n 1 c ∧ f c = true := by
  obtain ⟨c, hc, hf⟩ := dock_sees f h
  refine ⟨c, ?_, hf⟩
  rw [hc, Option.any_some] at h0
  simp only [Bool.and_eq_true, Bool.not_eq_true', List.isEmpty_iff, decide_eq_true_eq, List.all_eq_true] at h0
  obtain ⟨⟨⟨h1, h2⟩, h3⟩, ⟨⟨⟨h4, h5⟩, h6⟩, h7⟩, h8⟩ := h0
  obtain ⟨d, d1⟩ := Option.isSome_iff_exists.1 h2
  exact ⟨hc, h4, h5, h1, ⟨d, d1⟩, fun k => absurd (h3 _ k) (by simp), h6, h7, h8⟩

/-- What `TsQuiet` needs. -/
theorem market_ts_still {n : Net MarketTsServer MarketClient} (f : Network.Conn MarketClient → Bool)
    (h0 : (!n.server.1 && (n.server.2.find 1).any (fun d => !d.discredited && d.reader.queue.isEmpty) &&
      (n.find 1).any (fun c => c.up.isEmpty && c.down.isEmpty && !c.client.1 && c.client.2.reader.queue.isEmpty && c.client.2.tasks.isEmpty)) = true)
    (h : (n.find 1).any f = true) : ∃ c, TsQuiet n 1 c ∧ f c = true := by
  obtain ⟨c, hc, hf⟩ := dock_sees f h
  refine ⟨c, ?_, hf⟩
  rw [hc, Option.any_some] at h0
  simp only [Bool.and_eq_true, Bool.not_eq_true', List.isEmpty_iff] at h0
  obtain ⟨⟨h1, h2⟩, ⟨⟨⟨h3, h4⟩, h5⟩, h6⟩, h7⟩ := h0
  obtain ⟨d, d1, d2⟩ := (Option.any_eq_true _ _).1 h2
  simp only [Bool.and_eq_true, Bool.not_eq_true', List.isEmpty_iff] at d2
  exact ⟨hc, h3, h4, h1, ⟨d, d1, d2.1, d2.2⟩, h5, h6, h7⟩

theorem market_distinct : Distinct marketFlow marketQ := by
  have ans : ∀ a, AnswerOf marketQ a → a = ['R'] ∨ a = ['E'] := by
    rintro a (⟨x, h1, h2⟩ | h)
    · simp only [marketQ, List.mem_cons, List.not_mem_nil, or_false] at h1
      subst h1
      cases h2
      exact .inl rfl
    · cases h; exact .inr rfl
  intro a ha
  refine ⟨?_, fun served hs => ?_⟩
  · rcases ans a ha with rfl | rfl <;> exact single_foreign _ (by decide)
  · rw [List.mem_singleton.1 hs]
    refine ⟨by unfold Complete; decide, fun a' ha' => ?_⟩
    rcases ans a ha with rfl | rfl <;> rcases ans a' ha' with rfl | rfl <;> exact single_apart _ _ (by decide) (by decide)

theorem market_foreign : ∀ ref, TsClient.Broadcasts marketFlow ref → Network.Foreign ref := by
  rintro ref (⟨r, h1, a, h2, b, h3, _⟩ | ⟨e, h1, b, h2, rfl⟩)
  · rw [List.mem_singleton.1 h1] at h2
    rw [List.mem_singleton.1 h2] at h3
    cases h3
  · rw [List.mem_singleton.1 h1] at h2
    rw [List.mem_singleton.1 h2]
    exact single_foreign 'E' (by decide)

/-- After the run nothing is under way; the request was resolved with `R`, one broadcast came. -/
example : Flow.Parses villageProt marketText (.accepted marketFlow villageAll) ∧ TsRustTyped villageNamed (Network.run marketRun .new) ∧
    Network.Small (Network.run marketRun .new) ∧ marketQ ∈ marketFlow.requests ∧ marketQ.request ≠ marketConfig.selfKey ∧
    (∀ x ∈ marketFlow.beacons, marketQ.request ≠ some x.reference) ∧ Distinct marketFlow marketQ ∧
    (∀ ref, TsClient.Broadcasts marketFlow ref → Network.Foreign ref) ∧
    ∃ c, RustQuiet (Network.run marketRun .new) 1 c ∧
      (c.client.2.past.any (fun | .created 1 (.request r) b => r == marketQ && jsSame b (villageJs 41) | _ => false) &&
       c.client.2.past.any (fun | .called 2 1 => true | _ => false) &&
       c.client.2.past.any (fun | .ended 2 (.resolved ref v) => ref == ['R'] && jsSame v (villageJs 42) | _ => false) &&
       decide ((tsCasts c.client.2.past).map Prod.fst = [['E']])) = true :=
  ⟨market_flow, market_typed (by decide +kernel) (by decide +kernel), dock_small (by decide +kernel), by decide, by decide, by decide,
    market_distinct, market_foreign, market_still _ (by decide +kernel) (by decide +kernel)⟩

/-- After the run nothing is under way; the request is open, since user code of the server has not answered; one broadcast
came. -/
example : TsTsTyped villageNamed (Network.run marketTsRun .new) ∧ Network.Small (Network.run marketTsRun .new) ∧
    TsExpected (tsServerCfg villageNamed marketTsServerCfg) ['Q'] ∧
    ∃ c, TsQuiet (Network.run marketTsRun .new) 1 c ∧
      (c.client.2.past.any (fun | .created 1 (.request r) b => r == marketQ && jsSame b (villageJs 41) | _ => false) &&
       c.client.2.past.any (fun | .called 2 1 => true | _ => false) &&
       c.client.2.past.all (fun | .ended 2 _ => false | _ => true) &&
       decide ((tsCasts c.client.2.past).map Prod.fst = [['E']])) = true :=
  ⟨market_ts_typed (by decide +kernel) (by decide +kernel), dock_small (by decide +kernel),
    ⟨.inl ⟨marketQ, List.mem_singleton.2 rfl, rfl⟩, ⟨single_apart 'Q' 'K' (by decide) (by decide), by decide⟩, single_foreign 'Q' (by decide)⟩,
    market_ts_still _ (by decide +kernel) (by decide +kernel)⟩

/-- User code of the server refuses beacons. -/
def marketDeaf : Server.Env Rust.Msg := { marketEnv with beacon := fun _ _ _ _ => .err }

abbrev MarketDeafServer : ServerProg := villageNamed.rustServer marketServerCfg marketDeaf .new

/-- Client 1 connects, is confirmed, does the handshake, and sends the beacon `Z`. -/
def marketDeafRun : List (UInt64 × Network.Event MarketDeafServer MarketClient) :=
  [(1, .opened 1), (2, .server .confirm), (3, .client 1 .connected), (4, .toServer 1 500), (4, .toClient 1 500),
   (5, .client 1 (.work 0)), (5, .client 1 (.work 0)), (6, .toServer 1 500), (6, .toClient 1 500), (7, .client 1 (.work 0)),
   (9, .client 1 (.user (.create (.beacon ['Z']) (villageJs 5)))), (9, .client 1 (.user (.send 1))),
   (9, .toServer 1 500), (9, .toClient 1 500)]

/-- **C182** violated for beacons: from accepted texts, with the options of `Options::new`; nothing is under way, the server
looked at the beacon of the client and did not drop the client, and the call is open without any answer: the server tells nobody
but itself that user code refused the beacon. -/
theorem C182_beacons_end_violated : Prot.Parses villageProtText (.accepted villageProt) ∧
    Flow.Parses villageProt marketText (.accepted marketFlow villageAll) ∧ Network.CodecOf villageAll 7 villageNamed ∧
    marketServerCfg.workflow = marketFlow ∧ (⟨['Z'], false⟩ : Flow.Broadcast) ∈ marketFlow.beacons ∧
    (∃ q, .got 1 (.msg ['Z'] (cityMsg 11 12 5)) q ∈ (Network.run marketDeafRun .new).server.2.past ∧
      ∀ o b, .send 1 q o b ∉ (Network.run marketDeafRun .new).server.2.past) ∧
    ∃ c, RustQuiet (Network.run marketDeafRun .new) 1 c ∧ .created 1 (.beacon ['Z']) (villageJs 5) ∈ c.client.2.past ∧
      .called 2 1 ∈ c.client.2.past ∧ ∀ r, .ended 2 r ∉ c.client.2.past := by
  have h1 : (Network.run marketDeafRun .new).server.2.past.any (fun a => match a with
      | .got 1 (.msg ref m) q => ref == ['Z'] && cityNumber m == some (11, 12, .u8, 5) && q == 3
      | _ => false) = true := by decide +kernel
  have h2 : (Network.run marketDeafRun .new).server.2.past.all (fun a => match a with
      | .send 1 q _ _ => q != 3
      | _ => true) = true := by decide +kernel
  refine ⟨village_prot, market_flow, village_named, rfl, by decide, ⟨3, ?_, fun o b h => ?_⟩, ?_⟩
  · obtain ⟨a, ha, h⟩ := List.any_eq_true.1 h1
    split at h
    · simp only [Bool.and_eq_true, beq_iff_eq] at h
      obtain ⟨⟨rfl, k⟩, rfl⟩ := h
      obtain ⟨y, rfl, hy⟩ := cityNumber_eq k
      cases (show y = 5 from Fin.ext hy)
      exact ha
    · cases h
  · exact absurd (List.all_eq_true.1 h2 _ h) (by simp)
  · obtain ⟨c, hq, h⟩ := market_still (tenv := marketDeaf) (n := Network.run marketDeafRun .new) (fun c =>
      c.client.2.past.any (fun | .created 1 (.beacon ref) b => ref == ['Z'] && jsSame b (villageJs 5) | _ => false) &&
      c.client.2.past.any (fun | .called 2 1 => true | _ => false) &&
      c.client.2.past.all (fun | .ended 2 _ => false | _ => true)) (by decide +kernel) (by decide +kernel)
    simp only [Bool.and_eq_true] at h
    obtain ⟨⟨g1, g2⟩, g3⟩ := h
    refine ⟨c, hq, ?_, ?_, fun r hr => absurd (List.all_eq_true.1 g3 _ hr) (by simp)⟩
    · obtain ⟨a, ha, k⟩ := List.any_eq_true.1 g1
      split at k
      · simp only [Bool.and_eq_true, beq_iff_eq] at k
        obtain ⟨rfl, k⟩ := k
        cases jsSame_eq _ _ k
        exact ha
      · cases k
    · obtain ⟨a, ha, k⟩ := List.any_eq_true.1 g2
      split at k
      · exact ha
      · cases k

/-- Rust on both sides. -/
def marketSetup : Setup Rust.Msg where
  server := marketServerCfg
  env := marketEnv
  opts := .new
  client := ⟨⟨0, fun _ _ => .err⟩, marketFlow, fun _ => true, some⟩
  up _ _ _ := []
  down _ _ _ := []

/-- Client 1 connects and makes a request; it gets a broadcast. -/
def marketRustRun : List (UInt64 × System.Event Rust.Msg) :=
  [(1, .opened 1), (2, .server .confirm), (2, .toClient 1 100)] ++ cityClient [.work, .work, .auth 0, .api true] ++
  [(4, .toServer 1 100), (4, .toClient 1 100)] ++ cityClient [.work, .api true, .work, .work, .auth 0, .api true] ++
  [(5, .toServer 1 100), (5, .toClient 1 100)] ++ cityClient [.work, .api true, .work, .work, .auth 0, .authMessage] ++
  cityClient [.call (.request marketQ) (cityMsg 3 4 41), .api true, .proceed 1, .api true, .authMessage,
    .proceed 1, .api true] ++
  [(6, .toServer 1 10), (6, .toServer 1 100), (7, .toClient 1 100)] ++
  cityClient [.work, .api true, .work, .work, .proceed 1] ++
  [(8, .server (.event ['S'] (cityMsg 7 8 1))), (8, .toClient 1 100)] ++ cityClient [.work, .api true, .work, .work]

def marketRustUp : Client.Act Rust.Msg → Bool
  | .sent _ _ (.msg _ ref m) => ref == ['Q'] && cityNumber m == some (3, 4, .u8, 41)
  | _ => true

theorem market_rust_typed {n : System.Net Rust.Msg} (h1 : n.server.past.all marketDown = true)
    (h2 : n.conns.all (fun p => p.2.client.past.all marketRustUp) = true) : Typed villageCodec n := by
  have sends : ∀ {id : UInt32} {f : UInt16} (y : Fin 256), (id, Fields.cons f (.num .u8) false false .nil) ∈ villageCodec.protocol.structs →
      CanSend villageCodec (cityMsg id f y) := by
    intro id f y hm
    refine ⟨⟨hm, by simp [FieldsOk, ElemOk, Fields.ids], by simp [FieldsClean, ElemClean]⟩, fun b hb => ?_⟩
    cases hb
    simp [Rust.packBuffer, Rust.getValueBuffer, Rust.ESize.bytes, length_leBytes, Num.size]
  refine ⟨fun u c hc who q id ref body h => ?_, fun u q ref body h => ?_⟩
  · have := List.all_eq_true.1 (List.all_eq_true.1 h2 (u, c) (find_mem hc)) _ h
    simp only [marketRustUp, Bool.and_eq_true, beq_iff_eq] at this
    obtain ⟨rfl, k⟩ := this
    obtain ⟨y, rfl, _⟩ := cityNumber_eq k
    exact ⟨sends y (by simp [villageCodec]), rfl, show _ from by simp [msgId, cityMsg, villageCodec]⟩
  · have := List.all_eq_true.1 h1 _ h
    simp only [marketDown, Bool.or_eq_true, Bool.and_eq_true, beq_iff_eq] at this
    rcases this with ⟨rfl, k⟩ | ⟨rfl, k⟩
    · obtain ⟨y, rfl, _⟩ := cityNumber_eq k
      exact ⟨sends y (by simp [villageCodec]), rfl, show _ from by simp [msgId, cityMsg, villageCodec]⟩
    · obtain ⟨y, rfl, _⟩ := cityNumber_eq k
      exact ⟨sends y (by simp [villageCodec]), rfl, show _ from by simp [msgId, cityMsg, villageCodec]⟩

/-- After the run nothing is under way; the call has ended with `R`, and one broadcast came. -/
example : Typed villageCodec (System.run (villageCodec.setup marketSetup) marketRustRun .new) ∧
    (marketSetup.opts.onError = .disconnect ∨ marketSetup.opts.onError = .emitErrorAndDisconnect) ∧ marketSetup.opts.identification ≠ .emitError ∧
    ∃ c, Settled (System.run (villageCodec.setup marketSetup) marketRustRun .new) 1 c ∧ Client.Few c.client.past ∧
      (c.client.past.any (fun | .called 1 (.request r) m => r == marketQ && cityNumber m == some (3, 4, .u8, 41) | _ => false) &&
       c.client.past.any (fun | .ended 1 (.conclusion _ ref m) => ref == ['R'] && cityNumber m == some (5, 6, .u8, 42) | _ => false) &&
       decide ((casts c.client.past).map Prod.fst = [['E']])) = true :=
  ⟨market_rust_typed (by decide +kernel) (by decide +kernel), .inr rfl, by decide, town_still _ (by decide +kernel) (by decide +kernel)⟩

end Verif.Props
