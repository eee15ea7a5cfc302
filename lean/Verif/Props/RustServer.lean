import Verif.Proofs.ServerCalm
import Verif.Proofs.ServerHandlers
import Verif.Proofs.ServerBatch
import Verif.Proofs.ServerIdentification
import Verif.Props.Workflow
import Verif.Props.RustStream
set_option autoImplicit false
/-!
Property theorems about the generated Rust server: C27–C32 and C75.
-/
namespace Verif.Props

open Verif Verif.Spec Verif.Server

/-! ### A server for witnesses -/

/-- Messages: 1 self key, 2 right hash, 3 request, 4 wrong hash, 5 beacon; other ids are unknown. -/
def shopDecoder : Rust.Decoder (In Unit) where
  signature := 7
  getMsg id _ :=
    if id = 1 then .ok (.msg ['K'] ())
    else if id = 2 then .ok (.hash ['p'] ['w'])
    else if id = 3 then .ok (.msg ['Q'] ())
    else if id = 4 then .ok (.hash ['x'] ['w'])
    else if id = 5 then .ok (.msg ['B'] ())
    else .err

/-- A frame with an empty body. -/
def shopFrame (id : UInt32) (seq : UInt32) : Frame := ⟨⟨id, 7, seq, 0, 0⟩, []⟩

/-- The request of the witness: two conclusions, the first with two broadcasts. -/
def shopRequest : Flow.Request :=
  ⟨some ['Q'], some ['E'], [⟨some ['Y'], some ['R'], [⟨['U'], false⟩, ⟨['V'], true⟩], [], false⟩,
    ⟨some ['N'], some ['S'], [], [], false⟩], [], [], .nothing, true⟩

/-- A request with one conclusion that declares a broadcast. -/
def soleRequest : Flow.Request :=
  ⟨some ['O'], some ['E'], [⟨some ['Y'], some ['R'], [⟨['U'], false⟩], [], false⟩], [], [], .nothing, true⟩

def shopCfg : Cfg Unit where
  decoder := shopDecoder
  workflow := ⟨[], [shopRequest, soleRequest], [⟨['B'], false⟩], none⟩
  selfKey := ['K']
  protocolHash := ['p']
  workflowHash := ['w']
  packs _ := true
  mergeKey _ k := k
  mergeAssigned _ k := k

/-- Everything succeeds; requests are answered with errors or plain responses. -/
def shopEnv : Env Unit where
  send _ _ _ _ := true
  drop _ _ := true
  conclude _ _ _ _ := some (.error ())
  reply _ _ _ _ := some (.response ())
  beacon _ _ _ _ := .ok ()
  emit _ _ _ := .err
  error _ _ := .ok ()
  ready _ := .ok ()

theorem shopEnv_benign : Benign shopEnv :=
  ⟨fun _ _ => rfl, fun _ _ => rfl, fun _ _ => rfl, fun _ => rfl, fun _ _ _ _ h => (nomatch h),
    fun _ _ _ _ h => (nomatch h), fun _ _ _ _ h => (nomatch h), fun _ _ _ h => (nomatch h)⟩

/-- Client 1 connects, does the handshake and sends a request. -/
def shopRun : List (Input Unit) :=
  [.connected 1, .confirm, .received 1 (shopFrame 1 0).bytes, .received 1 (shopFrame 2 1).bytes,
    .received 1 (shopFrame 3 10).bytes]

set_option maxRecDepth 20000 in
/-- What happens then (newest first). -/
theorem shopRun_past : listen shopCfg shopEnv .new shopRun .new =
    (.running, ⟨[(1, ⟨⟨[], []⟩, some (), none, false, true, true⟩)], [],
      [.deferred, .send 1 10 (.msg ['E'] ()) true, .respond 1 ['Q'] 10, .got 1 (.msg ['Q'] ()) 10,
        .chunk 1, .send 1 1 (.hash false) true, .got 1 (.hash ['p'] ['w']) 1, .chunk 1,
        .send 1 0 (.selfKey 1) true, .got 1 (.msg ['K'] ()) 0, .chunk 1,
        .send 1 0 .confirmation true, .confirmed 1, .opened 1, .event "connected".toList]⟩) := by
  rfl

/-! ### C27, C28, C29, C30: the handshake -/

/-- **C27** In every run (any transport, any user code, any inputs in any order): when code for a
request or beacon of `u` starts, the present connection of `u` is open and confirmed, showed the right
hashes, has a self key, and under the strict strategies was given an assigned key. -/
theorem C27_handler_after_handshake {P : Type} (cfg : Cfg P) (env : Env P) (opts : Options)
    (is : List (Input P)) {newer older : List (Act P)} {u : Uuid} {a : Act P} (ha : Served u a)
    (h : (listen cfg env opts is .new).2.past = newer ++ a :: older) : Handshake cfg opts u older := by
  have f := (listen_inv (cfg := cfg) (opts := opts) env is inv_new).fine
  rw [h] at f
  rcases ha with ⟨r, q, rfl⟩ | ⟨r, q, rfl⟩ <;> exact (AllFine.at f).1

/-- The run of the witness: the handler runs, so the handshake was complete. -/
example : Handshake shopCfg .new 1 [.got 1 (.msg ['Q'] ()) 10,
        .chunk 1, .send 1 1 (.hash false) true, .got 1 (.hash ['p'] ['w']) 1, .chunk 1,
        .send 1 0 (.selfKey 1) true, .got 1 (.msg ['K'] ()) 0, .chunk 1,
        .send 1 0 .confirmation true, .confirmed 1, .opened 1, .event "connected".toList] :=
  C27_handler_after_handshake shopCfg shopEnv .new shopRun (.inl ⟨_, _, rfl⟩)
    (newer := [.deferred, .send 1 10 (.msg ['E'] ()) true]) (by rw [shopRun_past]; rfl)

/-- Client 1 is in order; then it sends a wrong hash request and a request in one piece. -/
def kickRun : List (Input Unit) :=
  [.connected 1, .confirm, .received 1 (shopFrame 1 0).bytes, .received 1 (shopFrame 2 1).bytes,
    .received 1 ((shopFrame 4 11).bytes ++ (shopFrame 3 12).bytes)]

set_option maxRecDepth 20000 in
theorem kickRun_past : (listen shopCfg shopEnv .new kickRun .new).2.past =
    [.deferred, .send 1 12 (.msg ['E'] ()) true] ++ .respond 1 ['Q'] 12 ::
      [.got 1 (.msg ['Q'] ()) 12, .error (some 1), .drop 1, .send 1 11 (.hash true) true,
        .got 1 (.hash ['x'] ['w']) 11,
        .chunk 1, .send 1 1 (.hash false) true, .got 1 (.hash ['p'] ['w']) 1, .chunk 1,
        .send 1 0 (.selfKey 1) true, .got 1 (.msg ['K'] ()) 0, .chunk 1,
        .send 1 0 .confirmation true, .confirmed 1, .opened 1, .event "connected".toList] := by
  rfl

/-- **C28** violated: a client is kicked for a wrong hash, and a request that follows in the same
piece of data still reaches its handler. -/
theorem C28_kicked_violated : ∃ (cfg : Cfg Unit) (env : Env Unit) (opts : Options)
    (is : List (Input Unit)) (newer older : List (Act Unit)) (u : Uuid) (a : Act Unit), Served u a ∧
    (listen cfg env opts is .new).2.past = newer ++ a :: older ∧ Kicked u older := by
  refine ⟨shopCfg, shopEnv, .new, kickRun, _, _, 1, _, .inl ⟨_, _, rfl⟩, kickRun_past, ?_⟩
  simp [Kicked, since]

/-- **C28** (partial) Handlers run only for messages in data that arrived before the client was
kicked: data that arrives later is not looked at. The full property is that no handler runs after the
client was kicked. -/
theorem C28_kicked_partial {P : Type} (cfg : Cfg P) (env : Env P) (opts : Options)
    (is : List (Input P)) {newer older : List (Act P)} {u : Uuid} {a : Act P} (ha : Served u a)
    (h : (listen cfg env opts is .new).2.past = newer ++ a :: older) : FreshData u older := by
  have f := (listen_inv (cfg := cfg) (opts := opts) env is inv_new).fine
  rw [h] at f
  rcases ha with ⟨r, q, rfl⟩ | ⟨r, q, rfl⟩ <;> exact (AllFine.at f).2

example : FreshData 1 ([.got 1 (.msg ['Q'] ()) 12, .error (some 1), .drop 1, .send 1 11 (.hash true) true,
        .got 1 (.hash ['x'] ['w']) 11,
        .chunk 1, .send 1 1 (.hash false) true, .got 1 (.hash ['p'] ['w']) 1, .chunk 1,
        .send 1 0 (.selfKey 1) true, .got 1 (.msg ['K'] ()) 0, .chunk 1,
        .send 1 0 .confirmation true, .confirmed 1, .opened 1, .event "connected".toList] : List (Act Unit)) :=
  C28_kicked_partial shopCfg shopEnv .new kickRun (.inl ⟨_, _, rfl⟩) kickRun_past

/-- **C29** Whenever the server asks the transport to drop `u`, then `u` is connected and was not
dropped since its connection. -/
theorem C29_dropped_once {P : Type} (cfg : Cfg P) (env : Env P) (opts : Options)
    (is : List (Input P)) {newer older : List (Act P)} {u : Uuid}
    (h : (listen cfg env opts is .new).2.past = newer ++ .drop u :: older) :
    Online u older ∧ ¬ Kicked u older := by
  have f := (listen_inv (cfg := cfg) (opts := opts) env is inv_new).fine
  rw [h] at f
  exact AllFine.at f

example : ∃ newer older : List (Act Unit), (listen shopCfg shopEnv .new kickRun .new).2.past =
    newer ++ .drop 1 :: older :=
  ⟨[.deferred, .send 1 12 (.msg ['E'] ()) true, .respond 1 ['Q'] 12, .got 1 (.msg ['Q'] ()) 12,
    .error (some 1)], _, kickRun_past⟩

/-- **C30** A connected client counts as hash accepted exactly if it sent a hash request with both
hashes of the server on its present connection; and every hash request is answered: the right one
without error; a wrong one with error, and the client is kicked. (Provided hash responses can be
packed, which holds for structs of strings, and the loop did not end in the middle.) -/
theorem C30_hash_check {P : Type} (cfg : Cfg P) (env : Env P) (opts : Options)
    (is : List (Input P)) :
    let s := (listen cfg env opts is .new).2
    (∀ u c, s.find u = some c →
      (c.hashAccepted = true ↔ HashShown u cfg.protocolHash cfg.workflowHash s.past)) ∧
    ((∀ e, cfg.packs (.hash e) = true) →
      ((listen cfg env opts is .new).1 = .running ∨ (listen cfg env opts is .new).1 = .stopped) →
      ∀ newer older u p w seq, s.past = newer ++ .got u (.hash p w) seq :: older →
        (p ≠ cfg.protocolHash ∨ w ≠ cfg.workflowHash →
          (∃ ok, .send u seq (.hash true) ok ∈ newer) ∧
          ∃ n1 n2, newer = n1 ++ n2 ∧ Kicked u (n2 ++ .got u (.hash p w) seq :: older)) ∧
        (p = cfg.protocolHash ∧ w = cfg.workflowHash → ∃ ok, .send u seq (.hash false) ok ∈ newer)) := by
  refine ⟨fun u c h => ((listen_inv (cfg := cfg) (opts := opts) env is inv_new).known u c h).hash, ?_⟩
  intro hp hr newer older u p w seq e
  have := listen_answered (cfg := cfg) (opts := opts) env is hp inv_new
    (by intro n o _ _ _ _ e; cases n <;> cases e) hr newer older u p w seq e
  refine ⟨fun h => this.1 ?_, fun h => this.2 (fun x => x h)⟩
  rintro ⟨h1, h2⟩
  rcases h with h | h
  · exact h h1
  · exact h h2

/-- Both kinds of hash requests occur in the run above. -/
example : (∀ e, shopCfg.packs (.hash e) = true) ∧ (listen shopCfg shopEnv .new kickRun .new).1 = .running :=
  ⟨fun _ => rfl, by rfl⟩

/-! ### C31: one client cannot stop the server -/

/-- Like `shopEnv`, but client 1 is gone when the confirmation is sent. -/
def vanishedEnv : Env Unit :=
  { shopEnv with send := fun _ u _ o => match o with | .confirmation => u != 1 | _ => true }

/-- Like `shopEnv`, but the transport cannot drop client 1 any more. -/
def undroppableEnv : Env Unit := { shopEnv with drop := fun _ u => u != 1 }

/-- A header that announces 2^64 - 1 bytes. -/
def hugeHeader : Bytes :=
  [1, 0, 0, 0, 7, 0, 0, 0, 0, 0, 0, 0, 0, 0, 0, 0, 0, 0, 255, 255, 255, 255, 255, 255, 255, 255]

set_option maxRecDepth 20000 in
/-- **C31** violated, in four ways, while client 2 did nothing wrong: client 1 vanishes before its
confirmation is sent; the transport fails to drop client 1, which sent data too early; client 1 sends
26 bytes that make the reader panic, before any handshake; the transport reports client 1 twice. -/
theorem C31_server_survives_violated :
    (listen shopCfg vanishedEnv .new [.connected 2, .confirm, .connected 1, .confirm] .new).1 = .failed ∧
    (listen shopCfg undroppableEnv .new [.connected 2, .confirm, .connected 1, .received 1 []] .new).1
      = .failed ∧
    (listen shopCfg shopEnv .new [.connected 2, .confirm, .connected 1, .confirm,
      .received 1 hugeHeader] .new).1 = .panicked ∧
    (listen shopCfg shopEnv .new [.connected 2, .confirm, .connected 1, .connected 1] .new).1 = .failed :=
  ⟨by rfl, by rfl, by rfl, by rfl⟩

/-- **C31** (partial) The loop ends only when it is told to, if the transport can drop clients, can
deliver confirmations and reports connections once, user code does not panic and its error handlers
return normally, and reading the data of no client panics. Everything else is allowed: unknown and
wrong messages, requests out of order, failing handlers, failing sends. The full property has no such
conditions on transport and data. -/
theorem C31_server_survives_partial {P : Type} (cfg : Cfg P) (env : Env P) (opts : Options)
    (hb : Benign env) (hp : cfg.packs .confirmation = true) (is : List (Input P)) (hr : Regular [] is) :
    (listen cfg env opts is .new).1 = .running ∨ (listen cfg env opts is .new).1 = .stopped ∨
    ∃ before after u bytes s, is = before ++ .received u bytes :: after ∧
      listen cfg env opts before .new = (.running, s) ∧ ReadPanics cfg s u bytes :=
  listen_calm hb hp is hr (by intro v; simp [State.find, State.new])

example : Benign shopEnv ∧ shopCfg.packs .confirmation = true ∧ Regular [] kickRun :=
  ⟨shopEnv_benign, rfl, by simp [kickRun, Regular]⟩

/-- **C31** (partial, continued) If decoding of messages does not panic, reading panics only at a
header that announces at least 2^64 - 26 bytes. -/
theorem C31_read_panics_partial {P : Type} {cfg : Cfg P} (hc : Calm cfg.decoder) {s : State P}
    {u : Uuid} {bytes : Bytes} (h : ReadPanics cfg s u bytes) :
    ∃ c gs tail, s.find u = some c ∧ (∀ g ∈ gs, Good cfg.decoder g) ∧
      c.reader.buffer ++ bytes = stream gs ++ tail ∧ 26 ≤ tail.length ∧
      2 ^ 64 ≤ (Rust.getHeader tail).len.toNat + 26 := by
  obtain ⟨c, hc1, _, _, h⟩ := h
  obtain ⟨gs, tail, h1, h2, h3, h4⟩ := Rust.chunkLoop_panic cfg.decoder _ _ h
  rcases h4 with h4 | ⟨f, _, _, _, _, hm⟩
  · exact ⟨c, gs, tail, hc1, h1, h2, h3, h4⟩
  · exact absurd hm (hc _ _)

example : Calm shopCfg.decoder ∧ ReadPanics shopCfg
    ⟨[(1, ⟨.new, none, none, false, false, true⟩)], [], []⟩ 1 hugeHeader := by
  refine ⟨?_, _, rfl, rfl, rfl, by decide⟩
  intro id body
  simp only [shopCfg, shopDecoder]
  repeat' split
  all_goals exact fun h => nomatch h

/-! ### C32, C75: clients in order are served -/

set_option maxRecDepth 20000 in
/-- **C32** violated: if the loop takes the self key of a client before its own confirmation message,
it drops the client. -/
theorem C32_quick_client_violated :
    (listen shopCfg shopEnv .new [.connected 1, .received 1 (shopFrame 1 0).bytes] .new).2.past =
      [.error (some 1), .drop 1, .chunk 1, .opened 1, .event "connected".toList] := by
  rfl

/-- **C32** (partial) A self key of a client that is confirmed is stored and answered with its
sequence, and nothing else happens. The full property is this for all connected clients. -/
theorem C32_quick_client_partial {P : Type} (cfg : Cfg P) (env : Env P) (opts : Options) {u : Uuid}
    {s : State P} {c : Consumer P} (hc : s.find u = some c) (h1 : c.confirmed = true)
    (h2 : c.discredited = false) (h3 : c.reader = ⟨[], []⟩) (h4 : c.hashAccepted = false)
    {f : Frame} {k : P} (hf : f.Ok) (hsig : cfg.decoder.signature = f.hdr.signature)
    (hm : cfg.decoder.getMsg f.hdr.id f.body = .ok (.msg cfg.selfKey k))
    (hp : cfg.packs (.selfKey u) = true) (hs : ∀ s, env.send s u f.hdr.sequence (.selfKey u) = true) :
    (received cfg env opts u f.bytes s).1 = .ok () ∧
    (∃ d, (received cfg env opts u f.bytes s).2.find u = some d ∧ d.key.isSome = true ∧
      d.discredited = false) ∧
    (received cfg env opts u f.bytes s).2.past = .send u f.hdr.sequence (.selfKey u) true ::
      .got u (.msg cfg.selfKey k) f.hdr.sequence :: .chunk u :: s.past := by
  have st : Stage u true false false false s :=
    ⟨c, hc, fun _ => h1, h2, h3, fun x => (nomatch x), h4, fun x => (nomatch x)⟩
  obtain ⟨r1, r2, r3⟩ := serve_selfKey (env := env) (opts := opts) st hf hsig hm hp hs
  obtain ⟨d, d1, _, d3, _, d5, _⟩ := r2.here
  exact ⟨r1, ⟨d, d1, d5 rfl, d3⟩, r3⟩

example : (shopFrame 1 0).Ok ∧ shopCfg.decoder.signature = (shopFrame 1 0).hdr.signature ∧
    shopCfg.decoder.getMsg (shopFrame 1 0).hdr.id (shopFrame 1 0).body = .ok (.msg shopCfg.selfKey ()) :=
  ⟨⟨rfl, by decide⟩, rfl, rfl⟩

/-- **C75** A client that waits for its confirmation, then sends self key, hash request and a declared
request as three separate pieces of data is answered twice and then its request reaches the handler,
whatever happens in between: any number of other clients may connect, disconnect, send any data and be
kicked; events may be raised; keys may be set. Provided sending to `u` works, the loop keeps running,
and under the strict strategies the server assigns a key before. -/
theorem C75_polite_client_served {P : Type} (cfg : Cfg P) (env : Env P) (opts : Options) {u : Uuid}
    {pre mid0 mid1 mid2 post : List (Input P)} {f1 f2 f3 : Frame}
    {k p : P} {ref : Ref} {r : Flow.Request} {s0 : State P}
    (aside : ∀ x ∈ mid0 ++ mid1 ++ mid2,
      x ≠ .connected u ∧ x ≠ .disconnected u ∧ ∀ b, x ≠ .received u b)
    (ok : f1.Ok ∧ f2.Ok ∧ f3.Ok)
    (sig : f1.hdr.signature = cfg.decoder.signature ∧ f2.hdr.signature = cfg.decoder.signature ∧
      f3.hdr.signature = cfg.decoder.signature)
    (m1 : cfg.decoder.getMsg f1.hdr.id f1.body = .ok (.msg cfg.selfKey k))
    (m2 : cfg.decoder.getMsg f2.hdr.id f2.body = .ok (.hash cfg.protocolHash cfg.workflowHash))
    (m3 : cfg.decoder.getMsg f3.hdr.id f3.body = .ok (.msg ref p))
    (hr : r ∈ cfg.workflow.requests) (hn : r.request = some ref)
    (hp : cfg.packs (.selfKey u) = true ∧ cfg.packs (.hash false) = true)
    (hs : ∀ s seq o, env.send s u seq o = true)
    (hst : Strict opts.identification → ∃ k o, .setAssigned u k o ∈ mid0 ++ mid1 ++ mid2)
    (hl : listen cfg env opts (pre ++ .connected u :: mid0) .new = (.running, s0))
    (hcf : .confirmed u ∈ since u s0.past)
    (hrun : (listen cfg env opts (pre ++ .connected u :: mid0 ++ (.received u f1.bytes :: mid1 ++
      (.received u f2.bytes :: mid2 ++ (.received u f3.bytes :: post)))) .new).1 = .running) :
    ∃ newer older, (listen cfg env opts (pre ++ .connected u :: mid0 ++ (.received u f1.bytes :: mid1 ++
      (.received u f2.bytes :: mid2 ++ (.received u f3.bytes :: post)))) .new).2.past =
        newer ++ .respond u ref f3.hdr.sequence :: older ∧
      .send u f1.hdr.sequence (.selfKey u) true ∈ older ∧
      .send u f2.hdr.sequence (.hash false) true ∈ older := by
  have ha : ∀ x ∈ mid0 ++ mid1 ++ mid2, Aside u x := by
    intro x hx
    obtain ⟨h1, h2, h3⟩ := aside x hx
    cases x <;> try exact trivial
    · intro e; exact h1 (by rw [e])
    · intro e; exact h2 (by rw [e])
    · intro e; exact h3 _ (by rw [e])
  exact handshake_served (fun x hx => ha x (by simp [hx])) (fun x hx => ha x (by simp [hx]))
    (fun x hx => ha x (by simp [hx])) ok.1 ok.2.1 ok.2.2 sig.1.symm sig.2.1.symm sig.2.2.symm
    m1 m2 m3 hr hn hp.1 hp.2 hs hst hl hcf hrun

set_option maxRecDepth 20000 in
/-- Another client is kicked in between. -/
example : ∃ newer older, (listen shopCfg shopEnv .new ([.connected 2] ++ .connected 1 :: [.confirm, .confirm] ++
      (.received 1 (shopFrame 1 0).bytes :: [.received 2 (shopFrame 3 0).bytes] ++
      (.received 1 (shopFrame 2 1).bytes :: [.disconnected 2] ++
        (.received 1 (shopFrame 3 10).bytes :: [])))) .new).2.past =
        newer ++ .respond 1 ['Q'] 10 :: older ∧
      .send 1 0 (.selfKey 1) true ∈ older ∧ .send 1 1 (.hash false) true ∈ older := by
  refine C75_polite_client_served shopCfg shopEnv .new (u := 1) (f1 := shopFrame 1 0)
    (f2 := shopFrame 2 1) (f3 := shopFrame 3 10) (r := shopRequest) (k := ()) (p := ())
    (s0 := (listen shopCfg shopEnv .new [.connected 2, .connected 1, .confirm, .confirm] .new).2)
    ?_ ⟨⟨rfl, by decide⟩, ⟨rfl, by decide⟩, ⟨rfl, by decide⟩⟩ ⟨rfl, rfl, rfl⟩ rfl rfl rfl
    (by simp [shopCfg]) rfl ⟨rfl, rfl⟩ (fun _ _ _ => rfl) ?_ (by rfl) ?_ (by rfl)
  · simp
  · rintro (h | h | h) <;> cases h
  · have : (listen shopCfg shopEnv .new [.connected 2, .connected 1, .confirm, .confirm] .new).2.past =
      [.send 1 0 .confirmation true, .confirmed 1, .send 2 0 .confirmation true, .confirmed 2,
        .opened 1, .event "connected".toList, .opened 2, .event "connected".toList] := by rfl
    rw [this]
    simp [since]

end Verif.Props
