import Verif.Proofs.NetworkTsConnect
import Verif.Props.Network
import Verif.Props.SystemLive
set_option autoImplicit false
/-!
Property theorems about what generated TypeScript clients and a generated Rust server can reach together:
C160–C162.
-/
namespace Verif.Props

open Verif Verif.Spec Verif.Network

variable {P : Type} {cfg : Server.Cfg P} {env : Server.Env P} {opts : Server.Options}
  {down : UInt64 → UInt32 → Server.Out P → Bytes} {ccfg : TsClient.Cfg} {cenv : TsClient.Env}
  {up : UInt64 → UInt32 → TsClient.Out → Bytes}

theorem waits_regular {u : Network.Uuid} {e : Event (rustServer cfg env opts down) (tsClient ccfg cenv up)} (h : Network.Waits u e) :
    Network.Regular u e := by
  cases h <;> constructor

theorem regular_elsewhere {u v : Network.Uuid} {e : Event (rustServer cfg env opts down) (tsClient ccfg cenv up)} (h : Network.Regular v e)
    (huv : v ≠ u) : Network.Elsewhere u e := by
  cases h <;> first | exact huv | trivial

theorem heard_filter {t : Terms P} {w : Flow.Store} {u : Network.Uuid} : ∀ {l : List (Network.Uuid × Server.Out P)}
    {h : List (Flow.Ref × TsServer.Js)}, Network.Heard t w u ((l.filter (fun x => x.1 = u)).map (fun x => (u, x.2))) h → Network.Heard t w u l h
  | [], _, k => k
  | (v, o) :: l, h, k => by
    by_cases hv : v = u
    · subst hv
      simp only [List.filter_cons, decide_true, if_true, List.map_cons] at k
      cases k with
      | known k1 k2 k3 => exact .known k1 k2 (heard_filter k3)
      | unknown k1 k2 => exact .unknown k1 (heard_filter k2)
      | other k1 _ => exact absurd rfl k1
    · simp only [List.filter_cons, hv, decide_false] at k
      exact .other hv (heard_filter k)

/-! ### The witness -/

theorem quay_smooth : Network.Smooth town.server townEnv quayCfg pierEnv :=
  ⟨⟨fun _ => rfl, fun _ _ => rfl, fun _ _ => rfl, fun _ _ => rfl⟩, fun _ _ _ _ => rfl, fun _ => rfl, fun _ _ => rfl⟩

theorem townByte_small {x : Nat} (hx : x < 256) : townByte [UInt8.ofNat x] = x := by
  simp only [townByte, List.headD_cons, UInt8.toNat_ofNat']
  exact Nat.mod_eq_of_lt hx

theorem char_toNat {x : Nat} (hx : x < 256) : (Char.ofNat x).toNat = x := by
  have : x.isValidChar := .inl (by omega)
  simp only [Char.ofNat, this, dite_true]
  rfl

theorem quayVal_inj {x p : Nat} (h0 : 0 < x) (hx : x < 256) (h : quayVal x = quayVal p) : p = x := by
  simp only [quayVal, TsServer.Js.obj.injEq, TsServer.Js.str.injEq, List.cons.injEq, Prod.mk.injEq, and_true, true_and] at h
  have h1 := char_toNat hx
  rw [h] at h1
  by_cases hp : p.isValidChar
  · simp only [Char.ofNat, hp, dite_true] at h1
    exact h1
  · simp only [Char.ofNat, hp, dite_false] at h1
    have : (0 : Nat) = x := h1
    omega

theorem quayNum_of_val {x : Nat} (hx : x < 256) : quayNum (quayVal x) = some x := by
  have hc := char_toNat hx
  simp [quayNum, quayVal, hc, hx]

theorem quay_hears {o : TsClient.Out} (h : ∀ ref b, o = .msg ref b → ∃ x, b = quayVal x ∧ x < 256 ∧ (ref = ['Q'] ∨ ref = ['B'])) :
    Network.HeardRight quayTerms town.server quayUp o := by
  cases o with
  | selfKey => exact ⟨.msg ['K'] 0, fun ts q => ⟨_, town_frame_ok 1 ts q 0, rfl, rfl, rfl⟩, 0, rfl⟩
  | hash => exact ⟨.hash ['p'] ['w'], fun ts q => ⟨_, town_frame_ok 2 ts q 0, rfl, rfl, rfl⟩, rfl⟩
  | msg ref b =>
    obtain ⟨x, rfl, hx, hr⟩ := h ref b rfl
    have hb := townByte_small hx
    rcases hr with rfl | rfl
    · refine ⟨.msg ['Q'] x, fun ts q => ⟨_, town_frame_ok 3 ts q x, rfl, ?_, ?_⟩, x, rfl, rfl⟩
      · simp [quayUp, quayNum_of_val hx]
      · show some (Rust.Income.mk _ (Server.In.msg ['Q'] (townByte [UInt8.ofNat x]))) = _
        rw [hb]
    · refine ⟨.msg ['B'] x, fun ts q => ⟨_, town_frame_ok 5 ts q x, rfl, ?_, ?_⟩, x, rfl, rfl⟩
      · simp [quayUp, quayNum_of_val hx]
      · show some (Rust.Income.mk _ (Server.In.msg ['B'] (townByte [UInt8.ofNat x]))) = _
        rw [hb]

theorem quay_reads {o : Server.Out Nat} (hu : ∀ u, o = .selfKey u → u < 256)
    (h : ∀ ref x, o = .msg ref x → x < 256 ∧ (ref = ['R'] ∨ ref = ['U'] ∨ ref = ['E'])) :
    Network.ReadRight quayTerms quayCfg town.down o := by
  cases o with
  | confirmation => exact ⟨_, fun ts q => ⟨_, town_frame_ok 1 ts q 0, rfl, rfl, rfl⟩, rfl, _, rfl⟩
  | selfKey u =>
    refine ⟨serviceMsg "SelfKeyResponse" [("uuid".toList, .str [Char.ofNat u])],
      fun ts q => ⟨_, town_frame_ok 2 ts q u, rfl, rfl, ?_⟩, rfl, _, rfl, rfl⟩
    show some (Rust.Income.mk _ (serviceMsg "SelfKeyResponse" [("uuid".toList, .str [Char.ofNat (townByte [UInt8.ofNat u])])])) = _
    rw [townByte_small (hu u rfl)]
  | hash e =>
    cases e with
    | false =>
      exact ⟨serviceMsg "HashResponse" [], fun ts q => ⟨_, town_frame_ok 3 ts q 0, rfl, rfl, rfl⟩, rfl, _, rfl,
        ⟨fun k => (by cases k), fun ⟨_, k⟩ => (by cases k)⟩, ⟨fun _ => rfl, fun _ => rfl⟩⟩
    | true =>
      exact ⟨serviceMsg "HashResponse" [("error".toList, .str ['x'])], fun ts q => ⟨_, town_frame_ok 4 ts q 0, rfl, rfl, rfl⟩, rfl, _, rfl,
        ⟨fun _ => ⟨_, rfl⟩, fun _ => rfl⟩, ⟨fun k => (by cases k), fun k => (by cases k)⟩⟩
  | beacon => exact ⟨serviceMsg "BeaconConfirmation" [], fun ts q => ⟨_, town_frame_ok 5 ts q 0, rfl, rfl, rfl⟩, rfl, _, rfl, rfl⟩
  | msg ref x =>
    obtain ⟨hx, hr⟩ := h ref x rfl
    have hb := townByte_small hx
    rcases hr with rfl | rfl | rfl
    · refine ⟨⟨[['R']], quayVal x⟩, fun ts q => ⟨_, town_frame_ok 6 ts q x, rfl, rfl, ?_⟩, ⟨by decide, rfl⟩, rfl⟩
      show some (Rust.Income.mk _ (TsServer.Msg.mk [['R']] (quayVal (townByte [UInt8.ofNat x])))) = _
      rw [hb]
    · refine ⟨⟨[['U']], quayVal x⟩, fun ts q => ⟨_, town_frame_ok 7 ts q x, rfl, rfl, ?_⟩, ⟨by decide, rfl⟩, rfl⟩
      show some (Rust.Income.mk _ (TsServer.Msg.mk [['U']] (quayVal (townByte [UInt8.ofNat x])))) = _
      rw [hb]
    · refine ⟨⟨[['E']], quayVal x⟩, fun ts q => ⟨_, town_frame_ok 8 ts q x, rfl, rfl, ?_⟩, ⟨by decide, rfl⟩, rfl⟩
      show some (Rust.Income.mk _ (TsServer.Msg.mk [['E']] (quayVal (townByte [UInt8.ofNat x])))) = _
      rw [hb]

/-! ### C160 -/

/-- Client 1 connects and asks at once; its message arrives before the server confirms the connection. Then
everything arrives that is under way. -/
def quayRace : List (UInt64 × Event QuayServer QuayClient) :=
  [(1, .opened 1), (1, .client 1 .connected), (2, .toServer 1 100), (3, .server .confirm), (4, .toClient 1 100), (5, .client 1 (.work 0)),
   (6, .toServer 1 100), (7, .toClient 1 100)]

/-- **C160** violated: a TypeScript client sends its self key as soon as it is told of the connection. If that
arrives before the server has confirmed the connection, the server drops the client, and the client waits
for an answer forever, though all messages arrive and nothing is refused. -/
theorem C160_ts_client_gets_ready_violated : ∃ c, (run quayRace .new).find 1 = some c ∧
    .drop 1 ∈ (run quayRace .new).server.2.past ∧ c.up = [] ∧ c.down = [] ∧ c.client.2.tasks.isEmpty = true ∧
    c.client.2.pending.map Prod.fst = [1] ∧ c.client.2.past.all (fun | .emitted (.ready _) => false | _ => true) = true ∧
    Framed (run quayRace .new) ∧ Network.Small (run quayRace .new) ∧ Network.Faithful quayTerms (run quayRace .new) ∧
    Network.Readable (run quayRace .new) := by
  obtain ⟨c, h1, h2⟩ := quay_sees (es := quayRace) (fun c => c.up.isEmpty && c.down.isEmpty && c.client.2.tasks.isEmpty &&
    decide (c.client.2.pending.map Prod.fst = [1]) && c.client.2.past.all (fun | .emitted (.ready _) => false | _ => true))
    (by decide +kernel)
  simp only [Bool.and_eq_true, List.isEmpty_iff, decide_eq_true_eq] at h2
  obtain ⟨⟨⟨⟨k1, k2⟩, k3⟩, k4⟩, k5⟩ := h2
  exact ⟨c, h1, by decide +kernel, k1, k2, by simpa using k3, k4, k5, quay_framed _, quay_small (by decide +kernel),
    quay_faithful _ (by decide +kernel) (by decide +kernel), quay_readable _⟩

/-- **C160** (partial) Whatever happened before, as long as the server runs, a new TypeScript client can get ready:
there is an order of events, with nothing but regular progress of its connection, in which client and server make
their handshake, and user code of the client is told so with the id the server uses. Missing: this is not so
in every order, see above. -/
theorem C160_ts_client_gets_ready_partial (sm : Network.Smooth cfg env ccfg cenv) (hem : ∀ s e p, env.emit s e p ≠ .panic) (t : Terms P)
    (es : List (UInt64 × Event (rustServer cfg env opts down) (tsClient ccfg cenv up)))
    (hrun : (run es .new).server.1 = .running) {u : Network.Uuid} (hf : Network.Fresh (run es .new) u)
    (hhash : t.hashes = (cfg.protocolHash, cfg.workflowHash))
    (hk : Network.HeardRight t cfg up .selfKey) (hh : Network.HeardRight t cfg up .hash)
    (rc : Network.ReadRight t ccfg down .confirmation) (rk : Network.ReadRight t ccfg down (.selfKey u))
    (rh : Network.ReadRight t ccfg down (.hash false)) (hid : ∃ x ∈ t.name u, TsClient.jsSpace x = false)
    (hb : ∀ s e cs l, env.emit s e none = .ok cs → Server.Gives e.broadcasts cs l → ∀ x ∈ l, x.1 = u → Network.ReadRight t ccfg down x.2) :
    ∃ es' : List (UInt64 × Event (rustServer cfg env opts down) (tsClient ccfg cenv up)),
      (∀ e ∈ es', Network.Regular u e.2) ∧ Network.Established (run (es ++ es') .new) u ∧
      ∃ c, (run (es ++ es') .new).find u = some c ∧ .emitted (.ready (.str (t.name u))) ∈ c.client.2.past ∧
        c.client.2.uuid = some (t.name u) ∧ c.client.2.sequence = 3 := by
  obtain ⟨es0, hi⟩ := inv_run growing_tsRust es
  obtain ⟨hn, hcf⟩ := fresh_server hi hf.conns
  have hv : (t.name u).all TsClient.jsSpace = false := by
    obtain ⟨x, h1, h2⟩ := hid
    rw [Bool.eq_false_iff]
    intro k
    rw [List.all_eq_true] at k
    rw [k x h1] at h2
    cases h2
  obtain ⟨es', cl, sv, h1, h2, h3, h4, h5, h6, h7⟩ := connects sm hem hrun hf hn hcf hk hh hhash rc rk rh hv hb
  rw [← Network.run_append] at h2
  obtain ⟨gu, gd, hc⟩ := h2.conn
  exact ⟨es', h1, (h2.established h3 h4).1, _, hc, h5, h6, h7⟩

theorem quay_all_running : (run quayAll (.new : Net QuayServer QuayClient)).server.1 = .running := by decide +kernel

theorem quay_fresh {n : Net QuayServer QuayClient} (h1 : (n.find 65).isNone = true)
    (h2 : n.server.2.past.all (fun | .send v _ _ true => v != 65 | _ => true) = true) : Network.Fresh n 65 := by
  refine ⟨Option.isNone_iff_eq_none.1 h1, fun q o h => ?_⟩
  have := List.all_eq_true.1 h2 _ h
  simp at this

theorem quay_all_fresh : Network.Fresh (run quayAll (.new : Net QuayServer QuayClient)) 65 :=
  quay_fresh (by decide +kernel) (by rw [quay_past]; decide)

theorem quay_connects {es : List (UInt64 × Event QuayServer QuayClient)} (hrun : (run es (.new : Net QuayServer QuayClient)).server.1 = .running)
    (hf : Network.Fresh (run es (.new : Net QuayServer QuayClient)) 65) :
    ∃ es' : List (UInt64 × Event QuayServer QuayClient), (∀ e ∈ es', Network.Regular 65 e.2) ∧
    Network.Established (run (es ++ es') (.new : Net QuayServer QuayClient)) 65 ∧
    ∃ c, (run (es ++ es') (.new : Net QuayServer QuayClient)).find 65 = some c ∧
      .emitted (.ready (.str (quayTerms.name 65))) ∈ c.client.2.past ∧
      c.client.2.uuid = some (quayTerms.name 65) ∧ c.client.2.sequence = 3 := by
  have hb : ∀ s e cs l, townEnv.emit s e none = .ok cs → Server.Gives e.broadcasts cs l → ∀ x ∈ l, x.1 = 65 →
      Network.ReadRight quayTerms quayCfg town.down x.2 := by
    intro s e cs l h hg x hx _
    rw [town_news h hg] at hx
    rw [List.mem_singleton.1 hx]
    exact quay_reads (by simp) (by simp)
  have hk : Network.HeardRight quayTerms town.server quayUp .selfKey := quay_hears (by simp)
  have hh : Network.HeardRight quayTerms town.server quayUp .hash := quay_hears (by simp)
  have rc : Network.ReadRight quayTerms quayCfg town.down .confirmation := quay_reads (by simp) (by simp)
  have rk : Network.ReadRight quayTerms quayCfg town.down (.selfKey 65) := quay_reads (by simp) (by simp)
  have rh : Network.ReadRight quayTerms quayCfg town.down (.hash false) := quay_reads (by simp) (by simp)
  have hid : ∃ x ∈ quayTerms.name 65, TsClient.jsSpace x = false := ⟨'A', List.mem_cons_self, by decide⟩
  exact C160_ts_client_gets_ready_partial (cfg := town.server) (env := townEnv) (opts := .new) (down := town.down) (ccfg := quayCfg)
    (cenv := pierEnv) (up := quayUp) (u := 65) quay_smooth town_no_panic quayTerms es hrun hf rfl
    hk hh rc rk rh hid hb

/-- After client 1 has done all it does in `quayAll`, client 65 can connect: all that C160 asks for is there. -/
theorem quay_second : ∃ es' : List (UInt64 × Event QuayServer QuayClient), (∀ e ∈ es', Network.Regular 65 e.2) ∧
    Network.Established (run (quayAll ++ es') (.new : Net QuayServer QuayClient)) 65 ∧
    ∃ c, (run (quayAll ++ es') (.new : Net QuayServer QuayClient)).find 65 = some c ∧
      .emitted (.ready (.str (quayTerms.name 65))) ∈ c.client.2.past ∧
      c.client.2.uuid = some (quayTerms.name 65) ∧ c.client.2.sequence = 3 :=
  quay_connects quay_all_running quay_all_fresh

/-- **C160** User code of the server can then assign the client, whatever the key; the client does not notice. -/
theorem C160_ts_client_can_be_assigned {n : Net (rustServer cfg env opts down) (tsClient ccfg cenv up)} {u : Network.Uuid}
    (h : Network.Established n u) (ts : UInt64) (k : P) (overwrite : Bool) :
    let n' : Net (rustServer cfg env opts down) (tsClient ccfg cenv up) := run [(ts, .server (.setAssigned u k overwrite))] n
    Network.Established n' u ∧ Network.Admitted n' u ∧ (n'.find u).map (·.client) = (n.find u).map (·.client) := by
  obtain ⟨cl, a, A, hi, st, _⟩ := h.pieces
  obtain ⟨gu, gd, hc⟩ := A.conn
  obtain ⟨c, k1, _⟩ := st.here
  have st' := Server.step_aside (cfg := cfg) (env := env) (opts := opts) (x := .setAssigned u k overwrite) trivial st
  have hs : ∃ s', Server.step cfg env opts (.setAssigned u k overwrite) n.server.2 = (.ok (), s') ∧
      ∃ l, s'.past = l ++ n.server.2.past ∧ System.sends u l = [] := by
    simp only [Server.step, k1]
    exact ⟨_, rfl, [_], rfl, rfl⟩
  obtain ⟨s', e, l, hl, hsd⟩ := hs
  rw [e] at st'
  have A1 := A.serve ts (e := .own (.setAssigned u k overwrite)) rfl (by simp) (by simp) e l hl
  rw [hsd, show packAll down ts [] = [] from rfl, List.append_nil] at A1
  replace A1 : At (run [(ts, .server (.setAssigned u k overwrite))] n) u cl [] [] s' := A1
  obtain ⟨e1, e2⟩ := A1.established hi st'
  obtain ⟨gu', gd', hc'⟩ := A1.conn
  exact ⟨e1, e2 (fun _ => by simp), by rw [hc, hc']; rfl⟩

theorem quay_assigns {es : List (UInt64 × Event QuayServer QuayClient)} (h : Network.Established (run es (.new : Net QuayServer QuayClient)) 65)
    {c : Conn QuayClient} (hc : (run es (.new : Net QuayServer QuayClient)).find 65 = some c) :
    ∃ es' : List (UInt64 × Event QuayServer QuayClient), Network.Established (run es' (.new : Net QuayServer QuayClient)) 65 ∧
      Network.Admitted (run es' (.new : Net QuayServer QuayClient)) 65 ∧
      ∃ c', (run es' (.new : Net QuayServer QuayClient)).find 65 = some c' ∧ c'.client.2.sequence = c.client.2.sequence := by
  obtain ⟨h1, h2, h3⟩ := C160_ts_client_can_be_assigned h 0 0 true
  rw [← Network.run_append] at h1 h2 h3
  obtain ⟨c', hc', _⟩ := h1.conn
  refine ⟨_, h1, h2, c', hc', ?_⟩
  rw [hc, hc'] at h3
  simp only [Option.map_some, Option.some.injEq] at h3
  rw [h3]

/-- A state of the witness in which client 65 is connected and assigned. -/
theorem quay_ready : ∃ es : List (UInt64 × Event QuayServer QuayClient),
    Network.Established (run es (.new : Net QuayServer QuayClient)) 65 ∧
    Network.Admitted (run es (.new : Net QuayServer QuayClient)) 65 ∧
    ∃ c, (run es (.new : Net QuayServer QuayClient)).find 65 = some c ∧ c.client.2.sequence = 3 := by
  obtain ⟨es', _, h, c, hc, _, _, hq⟩ := quay_second
  generalize quayAll ++ es' = es at h hc
  obtain ⟨es2, h1, h2, c', hc', hq'⟩ := quay_assigns h hc
  exact ⟨es2, h1, h2, c', hc', hq'.trans hq⟩

/-! ### C161 -/

/-- **C161** A call of a connected TypeScript client of a Rust server returns: user code makes a request object and
sends it; then with nothing but bytes that arrive and jobs that run, the promise of a request is resolved with what
user code of the server decided on for this very message, and that of a beacon is confirmed. Client and server are then ready for
the next call, and user code of the client got the broadcasts the call caused for itself, in order. -/
theorem C161_ts_call_returns (sm : Network.Smooth cfg env ccfg cenv) (t : Terms P)
    (es0 : List (UInt64 × Event (rustServer cfg env opts down) (tsClient ccfg cenv up))) {u : Network.Uuid}
    (h : Network.Established (run es0 .new) u) (ha : Network.Admitted (run es0 .new) u)
    (hq : ∀ c, (run es0 .new).find u = some c → c.client.2.sequence < 4294967296)
    {kind : TsClient.Kind} {body : TsServer.Js} (hs : Network.Servable t cfg env ccfg down up u kind body) :
    ∃ o es res l heard, (∀ e ∈ es, Network.Waits u e.2) ∧
      let n' : Net (rustServer cfg env opts down) (tsClient ccfg cenv up) :=
        run (es0 ++ (0, .client u (.user (.create kind body))) :: (0, .client u (.user (.send o))) :: es) .new
      Network.Established n' u ∧ Network.Admitted n' u ∧ Network.Told t env u (run es0 .new).server.2.past kind body res l ∧
      Network.Heard t ccfg.workflow u l heard ∧ Network.Returned (run es0 .new) n' u kind body res heard := by
  obtain ⟨es', hi⟩ := inv_run growing_tsRust es0
  obtain ⟨o, es, res, l, heard, h1, h2, h3, h4, h5, h6, _, _⟩ := Network.answered sm hi h ha hq hs
  rw [← Network.run_append] at h2 h3 h6
  exact ⟨o, es, res, l, heard, h1, h2, h3, h4, h5, h6⟩

theorem quay_request {u : Network.Uuid} {x : Nat} (h0 : 0 < x) (hx : x < 255) :
    Network.Servable quayTerms town.server townEnv quayCfg town.down quayUp u (.request townRequest) (quayVal x) := by
  refine .request (ref := ['Q']) (by simp [town, townFlow]) rfl (by simp [town, townFlow]) (town_outside _ (by simp [townFlow])).1 ?_
    (quay_hears ?_) (fun s p _ => ?_) (fun s p o l hp hd => ?_)
  · intro a b ha hb
    rcases town_answers ha with rfl | rfl <;> rcases town_answers hb with rfl | rfl <;> exact single_apart _ _ (by decide) (by decide)
  · intro ref b e
    injection e with e1 e2
    subst e1 e2
    exact ⟨x, rfl, by omega, .inl rfl⟩
  · exact ⟨_, _, .plain (by decide) rfl⟩
  · cases hd with
    | error h1 _ => exact absurd h1 (by decide)
    | action h1 _ _ => exact absurd h1 (by decide)
    | plainError _ h2 => cases h2
    | plain _ h2 =>
      injection h2 with h2
      injection h2 with h2
      subst h2
      refine ⟨quay_reads (by simp) ?_, by simp⟩
      intro ref' y e
      injection e with e1 e2
      subst e1 e2
      refine ⟨?_, .inl rfl⟩
      have := quayVal_inj h0 (by omega) hp
      omega

theorem quay_beacon {u : Network.Uuid} :
    Network.Servable quayTerms town.server townEnv quayCfg town.down quayUp u (.beacon ['B']) (quayVal 5) := by
  refine .beacon (b := ⟨['B'], false⟩) (by simp [town, townFlow]) (by decide) (quay_hears ?_) (fun s p _ => rfl) (quay_reads (by simp) (by simp))
  intro ref' body' e
  injection e with e1 e2
  subst e1 e2
  exact ⟨5, rfl, by decide, .inr rfl⟩

/-- **C161** The same for any number of calls, one after another, as long as the client has numbers for them. -/
theorem C161_ts_calls_return (sm : Network.Smooth cfg env ccfg cenv) (t : Terms P) {u : Network.Uuid} :
    ∀ (calls : List (TsClient.Kind × TsServer.Js))
    (es0 : List (UInt64 × Event (rustServer cfg env opts down) (tsClient ccfg cenv up))),
    Network.Established (run es0 .new) u → Network.Admitted (run es0 .new) u →
    (∀ c, (run es0 .new).find u = some c → c.client.2.sequence + calls.length ≤ 4294967296) →
    (∀ x ∈ calls, Network.Servable t cfg env ccfg down up u x.1 x.2) →
    ∃ es : List (UInt64 × Event (rustServer cfg env opts down) (tsClient ccfg cenv up)),
      (∀ e ∈ es, Network.Regular u e.2) ∧ Network.Established (run (es0 ++ es) .new) u ∧ Network.Admitted (run (es0 ++ es) .new) u ∧
      Network.AllReturned t u calls (run es0 .new) (run (es0 ++ es) .new)
  | [], es0, h, ha, _, _ => ⟨[], by simp, by rwa [List.append_nil], by rwa [List.append_nil], by rw [List.append_nil]; exact .nil⟩
  | (kind, body) :: calls, es0, h, ha, hq, hs => by
    obtain ⟨es', hi⟩ := inv_run growing_tsRust es0
    obtain ⟨o, es, res, l, heard, h1, h2, h3, h4, h5, h6, h7, _⟩ := Network.answered sm hi h ha
      (fun c hc => by have := hq c hc; simp only [List.length_cons] at this; omega) (hs _ List.mem_cons_self)
    rw [← Network.run_append] at h2 h3 h6 h7
    obtain ⟨es2, k1, k2, k3, k4⟩ := C161_ts_calls_return sm t calls _ h2 h3 (fun c' hc' => by
      obtain ⟨c, hc, _⟩ := h.conn
      have := hq c hc
      rw [h7 c c' hc hc']
      simp only [List.length_cons] at this
      omega) (fun x hx => hs x (List.mem_cons_of_mem _ hx))
    refine ⟨(0, .client u (.user (.create kind body))) :: (0, .client u (.user (.send o))) :: es ++ es2, ?_, ?_, ?_, ?_⟩
    · intro e he
      simp only [List.cons_append, List.mem_cons, List.mem_append] at he
      rcases he with rfl | rfl | he | he
      · constructor
      · constructor
      · exact waits_regular (h1 e he)
      · exact k1 e he
    · rw [← List.append_assoc]; exact k2
    · rw [← List.append_assoc]; exact k3
    · rw [← List.append_assoc]; exact .cons h6 h4 h5 k4

/-- Two requests and a beacon of client 65. -/
theorem quay_calls : ∃ es0 es : List (UInt64 × Event QuayServer QuayClient), (∀ e ∈ es, Network.Regular 65 e.2) ∧
    Network.Established (run (es0 ++ es) (.new : Net QuayServer QuayClient)) 65 ∧
    Network.AllReturned quayTerms 65 [(.request townRequest, quayVal 41), (.beacon ['B'], quayVal 5), (.request townRequest, quayVal 42)]
      (run es0 (.new : Net QuayServer QuayClient)) (run (es0 ++ es) (.new : Net QuayServer QuayClient)) := by
  obtain ⟨es0, h1, h2, c, hc, hq⟩ := quay_ready
  obtain ⟨es, k1, k2, _, k4⟩ := C161_ts_calls_return quay_smooth quayTerms
    [(.request townRequest, quayVal 41), (.beacon ['B'], quayVal 5), (.request townRequest, quayVal 42)] _ h1 h2
    (by
      intro c' hc'
      rw [hc] at hc'
      injection hc' with hc'
      subst hc'
      rw [hq]
      decide)
    (by
      intro x hx
      simp only [List.mem_cons, List.not_mem_nil, or_false] at hx
      rcases hx with rfl | rfl | rfl
      · exact quay_request (by decide) (by decide)
      · exact quay_beacon
      · exact quay_request (by decide) (by decide))
  exact ⟨es0, es, k1, k2, k4⟩

/-! ### C162 -/

/-- **C162** A connected TypeScript client that is quiet gets its broadcasts: whatever happens elsewhere, if all the Rust server
sends to the client meanwhile are broadcasts, then user code of the client gets those of its workflow, in order and
with the values the server sent, as soon as the bytes arrive; and it is ready for calls again. -/
theorem C162_ts_client_hears (sm : Network.Smooth cfg env ccfg cenv) (t : Terms P)
    {n : Net (rustServer cfg env opts down) (tsClient ccfg cenv up)} {u : Network.Uuid} (h : Network.Established n u)
    {es : List (UInt64 × Event (rustServer cfg env opts down) (tsClient ccfg cenv up))}
    (hes : ∀ e ∈ es, Network.Elsewhere u e.2) (hrun : (run es n).server.1 = .running) {later : List (Server.Act P)}
    (hl : (run es n).server.2.past = later ++ n.server.2.past)
    (hb : ∀ x ∈ System.sends u later, x.1 = 0 ∧ ∃ ref p, x.2 = .msg ref p)
    (hr : ∀ x ∈ System.sends u later, Network.ReadRight t ccfg down x.2) :
    ∃ k c c' newer,
      let n' : Net (rustServer cfg env opts down) (tsClient ccfg cenv up) := run (es ++ [(0, .toClient u k)]) n
      Network.Established n' u ∧ (Network.Admitted n u → Network.Admitted n' u) ∧ n.find u = some c ∧ n'.find u = some c' ∧
      c'.client.2.past = newer ++ c.client.2.past ∧
      Network.Heard t ccfg.workflow u ((System.sends u later).map (fun x => (u, x.2))) (tsCasts newer) :=
  Network.overheard sm h hes hrun hl hb hr

/-- **C162** In particular a request of one client reaches the others: it returns what user code of the server decided on, and user code of any
other client that is connected gets exactly the broadcasts that user code of the server gave with it for this client. -/
theorem C162_ts_others_hear (sm : Network.Smooth cfg env ccfg cenv) (t : Terms P)
    (es0 : List (UInt64 × Event (rustServer cfg env opts down) (tsClient ccfg cenv up))) {u v : Network.Uuid} (huv : v ≠ u)
    (h : Network.Established (run es0 .new) v) (ha : Network.Admitted (run es0 .new) v)
    (hq : ∀ c, (run es0 .new).find v = some c → c.client.2.sequence < 4294967296) (hu : Network.Established (run es0 .new) u)
    {kind : TsClient.Kind} {body : TsServer.Js} (hs : Network.Servable t cfg env ccfg down up v kind body)
    (hr : ∀ req s p o l, Server.Decides env req s v p o l → ∀ x ∈ l, x.1 = u → Network.ReadRight t ccfg down x.2) :
    ∃ (es : List (UInt64 × Event (rustServer cfg env opts down) (tsClient ccfg cenv up))) (k : Nat) (res : TsClient.Result)
      (l : List (Network.Uuid × Server.Out P)) (mine : List (Flow.Ref × TsServer.Js)) (c c' : Conn (tsClient ccfg cenv up)) (newer : List TsClient.Act),
      (∀ e ∈ es, Network.Regular v e.2) ∧ Network.Told t env v (run es0 .new).server.2.past kind body res l ∧
      Network.Returned (run es0 .new) (run (es0 ++ es) .new) v kind body res mine ∧
      (run es0 .new).find u = some c ∧ (run (es0 ++ es ++ [(0, .toClient u k)]) .new).find u = some c' ∧
      c'.client.2.past = newer ++ c.client.2.past ∧ Network.Heard t ccfg.workflow u l (tsCasts newer) ∧
      Network.Established (run (es0 ++ es ++ [(0, .toClient u k)]) .new) u := by
  obtain ⟨es', hi⟩ := inv_run growing_tsRust es0
  obtain ⟨o, es, res, l, heard, h1, h2, h3, h4, h5, h6, h7, h8, later, h9, h10⟩ := Network.answered sm hi h ha hq hs
  have hreg : ∀ e ∈ ((0, .client v (.user (.create kind body))) :: (0, .client v (.user (.send o))) :: es :
      List (UInt64 × Event (rustServer cfg env opts down) (tsClient ccfg cenv up))), Network.Regular v e.2 := by
    intro e he
    simp only [List.mem_cons] at he
    rcases he with rfl | rfl | he
    · constructor
    · constructor
    · exact waits_regular (h1 e he)
  have hrd : ∀ x ∈ l, x.1 = u → Network.ReadRight t ccfg down x.2 := by
    cases h4 with
    | beacon => simp
    | answer _ _ _ hd _ _ => exact hr _ _ _ _ _ hd
  have hsend := h10 u (Ne.symm huv)
  obtain ⟨k, c, c', newer, k1, k2, k3, k4, k5, k6⟩ := Network.overheard sm (t := t) hu
    (fun e he => regular_elsewhere (hreg e he) huv) h2.running h9
    (by
      intro x hx
      rw [hsend] at hx
      obtain ⟨y, hy, rfl⟩ := List.mem_map.1 hx
      exact ⟨rfl, h8 y (List.mem_filter.1 hy).1⟩)
    (by
      intro x hx
      rw [hsend] at hx
      obtain ⟨y, hy, rfl⟩ := List.mem_map.1 hx
      obtain ⟨y1, y2⟩ := List.mem_filter.1 hy
      exact hrd y y1 (by simpa using y2))
  rw [← Network.run_append] at h6
  rw [← Network.run_append, ← List.append_assoc] at k1 k4
  refine ⟨_, k, res, l, heard, c, c', newer, hreg, h4, h6, k3, k4, k5, ?_, k1⟩
  rw [hsend] at k6
  simp only [List.map_map] at k6
  exact heard_filter k6

/-- **C162** In particular an event of the workflow reaches the clients: user code of a client that is connected gets exactly the
broadcasts that user code of the server gave for it, in the order of their declaration. -/
theorem C162_ts_event_heard (sm : Network.Smooth cfg env ccfg cenv) (t : Terms P)
    {n : Net (rustServer cfg env opts down) (tsClient ccfg cenv up)} {u : Network.Uuid} (h : Network.Established n u) {e : Flow.Event}
    (he : e ∈ cfg.workflow.events) {ref : Flow.Ref} (href : e.reference = some ref)
    (hdef : ref ≠ "connected".toList ∧ ref ≠ "disconnected".toList)
    (huniq : ∀ e' ∈ cfg.workflow.events, e'.reference = some ref → e' = e) {p : P} {cs : Server.Casts P e.broadcasts}
    (hem : env.emit (n.server.2.push (.event ref)) e (some p) = .ok cs)
    (hr : ∀ l, Server.Gives e.broadcasts cs l → ∀ x ∈ l, x.1 = u → Network.ReadRight t ccfg down x.2) :
    ∃ k l c c' newer,
      let n' : Net (rustServer cfg env opts down) (tsClient ccfg cenv up) := run [(0, .server (.event ref p)), (0, .toClient u k)] n
      Server.Gives e.broadcasts cs l ∧ Network.Established n' u ∧ n.find u = some c ∧ n'.find u = some c' ∧
      c'.client.2.past = newer ++ c.client.2.past ∧ Network.Heard t ccfg.workflow u l (tsCasts newer) := by
  obtain ⟨cl, a, A, hi, st, _⟩ := h.pieces
  have hd : Flow.isDefaultEvent ref = false := by
    simp only [Flow.isDefaultEvent, Bool.or_eq_false_iff, decide_eq_false_iff_not]
    exact hdef
  have hf : cfg.workflow.events.find? (fun e => e.reference = some ref && !Flow.isDefaultEvent ref) = some e := by
    cases hq : cfg.workflow.events.find? (fun e => e.reference = some ref && !Flow.isDefaultEvent ref) with
    | none =>
      have := List.find?_eq_none.1 hq e he
      rw [href, hd] at this
      simp at this
    | some r =>
      have := List.find?_some hq
      simp only [Bool.and_eq_true, decide_eq_true_eq] at this
      rw [huniq r (List.mem_of_find?_eq_some hq) this.1]
  have hg := Server.castList_gives e.broadcasts cs
  have hstep : Server.step cfg env opts (.event ref p) n.server.2 = (.ok (), { n.server.2 with
      past := .deferred :: System.allSent (Server.flat (Server.castList _ cs)) ++ .event ref :: n.server.2.past }) := by
    simp only [Server.step]
    rw [hf]
    dsimp only
    unfold Server.warned Server.emitEvent
    simp only [href, Option.getD_some]
    rw [hem]
    dsimp only
    rw [if_neg (by simp [sm.answer]), System.broadcastAll_sent sm.send]
    simp [Server.State.push]
  have A1 := A.serve 0 (e := .own (.event ref p)) (i := .event ref p) rfl (by simp) (by simp) hstep
    (.deferred :: System.allSent (Server.flat (Server.castList _ cs)) ++ [.event ref]) (by simp)
  replace A1 : At (run [(0, .server (.event ref p))] n) u cl [] _ _ := A1
  have hs : System.sends u (.deferred :: System.allSent (Server.flat (Server.castList e.broadcasts cs)) ++ [.event ref]) =
      ((Server.flat (Server.castList e.broadcasts cs)).filter (fun x => x.1 = u)).map (fun x => (0, x.2)) := by
    rw [List.cons_append]
    show System.sends u (System.allSent _ ++ _) = _
    rw [System.sends_append, System.sends_allSent]
    rfl
  obtain ⟨k, c, c', newer, k1, k2, k3, k4, k5, k6⟩ := Network.overheard sm (t := t) (es := [(0, .server (.event ref p))])
    (later := .deferred :: System.allSent (Server.flat (Server.castList e.broadcasts cs)) ++ [.event ref]) h
    (fun x hx => by rw [List.mem_singleton.1 hx]; trivial) (by rw [A1.server]) (by rw [A1.server]; simp)
    (by
      intro x hx
      rw [hs] at hx
      obtain ⟨y, hy, rfl⟩ := List.mem_map.1 hx
      exact ⟨rfl, System.flat_msgs _ _ y (List.mem_filter.1 hy).1⟩)
    (by
      intro x hx
      rw [hs] at hx
      obtain ⟨y, hy, rfl⟩ := List.mem_map.1 hx
      obtain ⟨y1, y2⟩ := List.mem_filter.1 hy
      exact hr _ hg y y1 (by simpa using y2))
  rw [hs] at k6
  simp only [List.map_map] at k6
  exact ⟨k, _, c, c', newer, hg, k1, k3, k4, k5, heard_filter k6⟩

/-- In the witness client 1, whose id user code of the server gives with the event `T`, gets the broadcast. -/
theorem quay_hears_event {es : List (UInt64 × Event QuayServer QuayClient)}
    (h : Network.Established (run es (.new : Net QuayServer QuayClient)) 1) :
    ∃ (k : Nat) (c' : Conn QuayClient) (newer : List TsClient.Act),
      (run ([(0, .server (.event ['T'] 0)), (0, .toClient 1 k)] : List (UInt64 × Event QuayServer QuayClient)) (run es (.new : Net QuayServer QuayClient))).find 1 = some c' ∧
      (∃ past, c'.client.2.past = newer ++ past) ∧ tsCasts newer = [(['U'], quayVal 9)] := by
  obtain ⟨k, l, c, c', newer, h1, _, _, h4, h5, h6⟩ := C162_ts_event_heard quay_smooth quayTerms h (e := townEvent)
    (by simp [town, townFlow]) (ref := ['T']) rfl (by decide) (by simp [town, townFlow]) (p := 0) (cs := (([1], 9), ())) rfl (by
      intro l hg x hx _
      rw [town_gives rfl hg] at hx
      rw [List.mem_singleton.1 hx]
      exact quay_reads (by simp) (by simp))
  rw [town_gives rfl h1] at h6
  refine ⟨k, c', newer, h4, ⟨_, h5⟩, ?_⟩
  generalize tsCasts newer = x at h6
  cases h6 with
  | known _ hv hn => cases hn; cases hv; rfl
  | unknown hn _ => exact absurd (.inr ⟨townEvent, List.mem_singleton.2 rfl, _, List.mem_singleton.2 rfl, rfl⟩) hn
  | other hn _ => exact absurd rfl hn

/-- Client 1 can connect, in the empty system. -/
theorem quay_one : ∃ es : List (UInt64 × Event QuayServer QuayClient), Network.Established (run es (.new : Net QuayServer QuayClient)) 1 := by
  obtain ⟨es', _, h, _⟩ := C160_ts_client_gets_ready_partial (cfg := town.server) (env := townEnv) (opts := .new) (down := town.down)
    (ccfg := quayCfg) (cenv := pierEnv) (up := quayUp) (u := 1) quay_smooth town_no_panic quayTerms [] rfl
    ⟨rfl, by intro q o h; cases h⟩ rfl
    (quay_hears (by simp)) (quay_hears (by simp)) (quay_reads (by simp) (by simp)) (quay_reads (by simp) (by simp))
    (quay_reads (by simp) (by simp)) ⟨Char.ofNat 1, List.mem_cons_self, by decide⟩ (by
      intro s e cs l h hg x hx _
      rw [town_news h hg] at hx
      rw [List.mem_singleton.1 hx]
      exact quay_reads (by simp) (by simp))
  exact ⟨_, h⟩

example : ∃ (n : Net QuayServer QuayClient) (k : Nat) (c' : Conn QuayClient) (newer : List TsClient.Act),
    (run ([(0, .server (.event ['T'] 0)), (0, .toClient 1 k)] : List (UInt64 × Event QuayServer QuayClient)) n).find 1 = some c' ∧ (∃ past, c'.client.2.past = newer ++ past) ∧
    tsCasts newer = [(['U'], quayVal 9)] := by
  obtain ⟨es, h⟩ := quay_one
  obtain ⟨k, c', newer, h⟩ := quay_hears_event h
  exact ⟨_, k, c', newer, h⟩

end Verif.Props
