import Verif.Proofs.NetworkTsRustMore
import Verif.Props.System
import Verif.Props.TsClient
set_option autoImplicit false
/-!
Property theorems about generated TypeScript clients and a generated Rust server that talk to each
other: C157–C159. Time, order, loss and the pieces in which bytes arrive are arbitrary, see
`Network.Event`.
-/
namespace Verif.Props

open Verif Verif.Spec Verif.Network

variable {P : Type} {cfg : Server.Cfg P} {env : Server.Env P} {opts : Server.Options}
  {down : UInt64 → UInt32 → Server.Out P → Bytes} {ccfg : TsClient.Cfg} {cenv : TsClient.Env}
  {up : UInt64 → UInt32 → TsClient.Out → Bytes}

/-! ### A TypeScript client of the server of `town` for witnesses -/

/-- A number as a value of the client. -/
def quayVal (x : Nat) : TsServer.Js := .obj [(['n'], .str [Char.ofNat x])]

/-- The number in a value, if it is one and a byte. -/
def quayNum : TsServer.Js → Option Nat
  | .obj [(nm, .str [c])] => if nm = ['n'] ∧ c.toNat < 256 then some c.toNat else none
  | _ => none

theorem quayNum_val {b : TsServer.Js} {x : Nat} (h : quayNum b = some x) : b = quayVal x ∧ x < 256 := by
  unfold quayNum at h
  split at h
  · split at h
    · rename_i k
      cases h
      obtain ⟨rfl, k⟩ := k
      exact ⟨by simp [quayVal], k⟩
    · cases h
  · cases h

/-- The messages of the server for the client, with the ids of `townDown`. -/
def quayDown : Rust.Decoder TsServer.Msg where
  signature := 7
  getMsg id b :=
    if id = 1 then .ok (serviceMsg "ConnectConfirmationBeacon" [])
    else if id = 2 then .ok (serviceMsg "SelfKeyResponse" [("uuid".toList, .str [Char.ofNat (townByte b)])])
    else if id = 3 then .ok (serviceMsg "HashResponse" [])
    else if id = 4 then .ok (serviceMsg "HashResponse" [("error".toList, .str ['x'])])
    else if id = 5 then .ok (serviceMsg "BeaconConfirmation" [])
    else if id = 6 then .ok ⟨[['R']], quayVal (townByte b)⟩
    else if id = 7 then .ok ⟨[['U']], quayVal (townByte b)⟩
    else if id = 8 then .ok ⟨[['E']], quayVal (townByte b)⟩
    else .err

def quayUp (ts : UInt64) (q : UInt32) : TsClient.Out → Bytes
  | .selfKey => (townFrame 1 ts q 0).bytes
  | .hash => (townFrame 2 ts q 0).bytes
  | .msg ref b => if ref = ['Q'] then (townFrame 3 ts q ((quayNum b).getD 0)).bytes else
      (townFrame 5 ts q ((quayNum b).getD 0)).bytes

def quayCfg : TsClient.Cfg := ⟨quayDown, townFlow, fun _ => true⟩

abbrev QuayServer : ServerProg := rustServer town.server townEnv .new town.down

abbrev QuayClient : ClientProg := tsClient quayCfg pierEnv quayUp

def quayTerms : Terms Nat := ⟨fun p b => b = quayVal p, fun u => [Char.ofNat u], (['p'], ['w'])⟩

/-- Client 1 connects and does the handshake; the server confirms the connection first. -/
def quayShake : List (UInt64 × Event QuayServer QuayClient) :=
  [(1, .opened 1), (2, .server .confirm), (3, .client 1 .connected), (4, .toServer 1 100), (4, .toClient 1 100),
   (5, .client 1 (.work 0)), (5, .client 1 (.work 0)), (6, .toServer 1 100), (6, .toClient 1 100), (7, .client 1 (.work 0))]

/-- It makes a request; the bytes come in two pieces. -/
def quayCall : List (UInt64 × Event QuayServer QuayClient) :=
  [(8, .client 1 (.user (.create (.request townRequest) (quayVal 41)))), (8, .client 1 (.user (.on 1 "response".toList))),
   (8, .client 1 (.user (.send 1))),
   (8, .toServer 1 10), (8, .toServer 1 100), (8, .toClient 1 100), (8, .client 1 (.work 0))]

/-- The event `T` sends the broadcast `U`. -/
def quayNews : List (UInt64 × Event QuayServer QuayClient) := [(9, .server (.event ['T'] 0)), (9, .toClient 1 100)]

/-- The client sends the beacon `B`. -/
def quayBeat : List (UInt64 × Event QuayServer QuayClient) :=
  [(9, .client 1 (.user (.create (.beacon ['B']) (quayVal 5)))), (9, .client 1 (.user (.send 3))),
   (9, .toServer 1 100), (9, .toClient 1 100), (9, .client 1 (.work 0))]

def quayAll : List (UInt64 × Event QuayServer QuayClient) := quayShake ++ quayCall ++ quayNews ++ quayBeat

/-- The history of the server after it all. -/
theorem quay_past : (run quayAll .new).server.2.past = [.deferred, .send 1 4 .beacon true, .beacon 1 ['B'] 4,
    .got 1 (.msg ['B'] 5) 4, .chunk 1, .deferred, .send 1 0 (.msg ['U'] 9) true, .event ['T'],
    .deferred, .send 1 3 (.msg ['R'] 42) true, .respond 1 ['Q'] 3, .got 1 (.msg ['Q'] 41) 3,
    .chunk 1, .chunk 1, .send 1 2 (.hash false) true, .got 1 (.hash ['p'] ['w']) 2, .chunk 1,
    .send 1 1 (.selfKey 1) true, .got 1 (.msg ['K'] 0) 1, .chunk 1,
    .send 1 0 .confirmation true, .confirmed 1, .opened 1, .event "connected".toList] := by decide +kernel


theorem quay_sees {tenv : Server.Env Nat} {topts : Server.Options}
    {es : List (UInt64 × Event (rustServer town.server tenv topts town.down) QuayClient)} (f : Conn QuayClient → Bool)
    (h : ((run es .new).find 1).any f = true) : ∃ c, (run es .new).find 1 = some c ∧ f c = true := by
  cases e : (run es .new).find 1 with
  | none => rw [e] at h; cases h
  | some c => exact ⟨c, rfl, by rwa [e] at h⟩

theorem conn_mem {S : ServerProg} {C : ClientProg} {n : Net S C} {u : Network.Uuid} {c : Conn C} (h : n.find u = some c) :
    (u, c) ∈ n.conns := by
  unfold Net.find at h
  revert h
  induction n.conns with
  | nil => intro h; cases h
  | cons p l ih =>
    intro h
    obtain ⟨v, d⟩ := p
    rw [List.lookup_cons] at h
    split at h
    · rename_i e
      cases h
      cases beq_iff_eq.1 e
      exact List.mem_cons_self
    · exact List.mem_cons_of_mem _ (ih h)

/-- Every message is packed into a frame. -/
theorem quay_framed {tenv : Server.Env Nat} {topts : Server.Options} (n : Net (rustServer town.server tenv topts town.down) QuayClient) : Framed n := by
  refine ⟨fun u q o _ ts => ?_, fun u c _ q o _ ts => ?_⟩
  · show System.IsFrame q (town.down ts q o)
    cases o <;> simp only [town] <;> (try split) <;> (try split) <;> exact townFrame_is _ _ _ _
  · show System.IsFrame q (quayUp ts q o)
    cases o <;> simp only [quayUp] <;> (try split) <;> exact townFrame_is _ _ _ _

/-- The messages with a known id are decoded. -/
theorem decodes_town {T : Type} {d : Rust.Decoder T} (hd : d.signature = 7) {id : UInt32} {ts : UInt64} {q : UInt32} {x : Nat} {m : T} :
    System.Decodes d (townFrame id ts q x).bytes m ↔ d.getMsg id [UInt8.ofNat x] = .ok m := by
  constructor
  · intro h
    obtain ⟨y, k1, k2⟩ := decodes_frame (townFrame_ok _ _ _ _) h
    unfold Spec.delivered at k1
    rw [if_pos (show d.signature = (townFrame id ts q x).hdr.signature from hd)] at k1
    split at k1
    · rename_i t ht
      cases k1
      rw [← k2]
      exact ht
    · cases k1
  · intro h
    refine ⟨townFrame id ts q x, ⟨(townFrame id ts q x).hdr, m⟩, townFrame_ok _ _ _ _, rfl, ?_, rfl⟩
    unfold Spec.delivered
    rw [if_pos (show d.signature = (townFrame id ts q x).hdr.signature from hd)]
    rw [show d.getMsg (townFrame id ts q x).hdr.id (townFrame id ts q x).body = .ok m from h]

/-- Every message can be decoded. -/
theorem quay_readable {tenv : Server.Env Nat} {topts : Server.Options} (n : Net (rustServer town.server tenv topts town.down) QuayClient) : Network.Readable n := by
  refine ⟨fun u c _ w q o _ ts => ?_, fun u q o _ ts => ?_⟩
  · cases o <;> simp only [quayUp] <;> (try split) <;> exact ⟨_, (decodes_town rfl).2 rfl⟩
  · cases o with
    | hash e => cases e <;> exact ⟨_, (decodes_town rfl).2 rfl⟩
    | _ => simp only [town] <;> (try split) <;> (try split) <;> exact ⟨_, (decodes_town rfl).2 rfl⟩

/-- Numbers are bytes, and the names are declared. -/
def quaySmallUp : TsClient.Act → Bool
  | .sent _ _ (.msg ref b) => ref ∈ [['Q'], ['B']] && (quayNum b).isSome
  | _ => true

theorem quay_faithful {tenv : Server.Env Nat} {topts : Server.Options}
    (n : Net (rustServer town.server tenv topts town.down) QuayClient) (h1 : n.server.2.past.all townSmallDown = true)
    (h2 : n.conns.all (fun p => p.2.client.2.past.all quaySmallUp) = true) : Network.Faithful quayTerms n := by
  have hb : ∀ x, x < 256 → townByte [UInt8.ofNat x] = x := by
    intro x hx
    show (UInt8.ofNat x).toNat = x
    simp [UInt8.toNat_ofNat']; omega
  refine ⟨fun u c hc w q o hm ts m hd => ?_, fun u q o hm ts m hd => ?_⟩
  · have hs : quaySmallUp (.sent w q o) = true := by
      rw [List.all_eq_true] at h2
      have := h2 (u, c) (conn_mem hc)
      rw [List.all_eq_true] at this
      exact this _ hm
    cases o with
    | selfKey => cases (decodes_town rfl).1 hd; exact ⟨0, rfl⟩
    | hash => cases (decodes_town rfl).1 hd; rfl
    | msg ref b =>
      simp only [quaySmallUp, List.mem_cons, List.not_mem_nil, or_false, Bool.and_eq_true, decide_eq_true_eq] at hs
      obtain ⟨hr, hx⟩ := hs
      obtain ⟨x, hx⟩ := Option.isSome_iff_exists.1 hx
      obtain ⟨e, hx2⟩ := quayNum_val hx
      rcases hr with rfl | rfl
      · simp only [quayUp, if_pos, hx, Option.getD_some] at hd
        have := (decodes_town rfl).1 hd
        have e2 : town.server.decoder.getMsg 3 [UInt8.ofNat x] = .ok (.msg ['Q'] (townByte [UInt8.ofNat x])) := rfl
        rw [e2, hb x hx2] at this
        cases this
        exact ⟨x, rfl, e⟩
      · have hq : ¬ (['B'] : List Char) = ['Q'] := by decide
        simp only [quayUp, if_neg hq, hx, Option.getD_some] at hd
        have := (decodes_town rfl).1 hd
        have e2 : town.server.decoder.getMsg 5 [UInt8.ofNat x] = .ok (.msg ['B'] (townByte [UInt8.ofNat x])) := rfl
        rw [e2, hb x hx2] at this
        cases this
        exact ⟨x, rfl, e⟩
  · have hs : townSmallDown (.send u q o true) = true := by
      rw [List.all_eq_true] at h1
      exact h1 _ hm
    cases o with
    | confirmation => cases (decodes_town rfl).1 hd; exact ⟨rfl, _, rfl⟩
    | selfKey v =>
      have := (decodes_town (d := quayDown) rfl).1 hd
      have e : quayDown.getMsg 2 [UInt8.ofNat v] =
        .ok (serviceMsg "SelfKeyResponse" [("uuid".toList, .str [Char.ofNat (townByte [UInt8.ofNat v])])]) := rfl
      rw [e, hb v (by simpa [townSmallDown] using hs)] at this
      cases this
      exact ⟨rfl, _, rfl, rfl⟩
    | hash e =>
      cases e with
      | false =>
        cases (decodes_town (d := quayDown) (id := 3) rfl).1 hd
        exact ⟨rfl, _, rfl, ⟨fun k => (by cases k), fun ⟨_, k⟩ => (by cases k)⟩, ⟨fun _ => rfl, fun _ => rfl⟩⟩
      | true =>
        cases (decodes_town (d := quayDown) (id := 4) rfl).1 hd
        exact ⟨rfl, _, rfl, ⟨fun _ => ⟨_, rfl⟩, fun _ => rfl⟩, ⟨fun k => (by cases k), fun k => (by cases k)⟩⟩
    | beacon => cases (decodes_town rfl).1 hd; exact ⟨rfl, _, rfl, rfl⟩
    | msg ref x =>
      simp only [townSmallDown, List.mem_cons, List.not_mem_nil, or_false, Bool.and_eq_true, decide_eq_true_eq] at hs
      obtain ⟨hr, hx⟩ := hs
      rcases hr with rfl | rfl | rfl
      · have := (decodes_town (d := quayDown) (id := 6) rfl).1 hd
        have e : quayDown.getMsg 6 [UInt8.ofNat x] = .ok ⟨[['R']], quayVal (townByte [UInt8.ofNat x])⟩ := rfl
        rw [e, hb x hx] at this
        cases this; exact ⟨⟨by decide, rfl⟩, rfl⟩
      · have := (decodes_town (d := quayDown) (id := 7) rfl).1 hd
        have e : quayDown.getMsg 7 [UInt8.ofNat x] = .ok ⟨[['U']], quayVal (townByte [UInt8.ofNat x])⟩ := rfl
        rw [e, hb x hx] at this
        cases this; exact ⟨⟨by decide, rfl⟩, rfl⟩
      · have := (decodes_town (d := quayDown) (id := 8) rfl).1 hd
        have e : quayDown.getMsg 8 [UInt8.ofNat x] = .ok ⟨[['E']], quayVal (townByte [UInt8.ofNat x])⟩ := rfl
        rw [e, hb x hx] at this
        cases this; exact ⟨⟨by decide, rfl⟩, rfl⟩

/-- Few bytes arrived. -/
theorem quay_small {tenv : Server.Env Nat} {topts : Server.Options} {n : Net (rustServer town.server tenv topts town.down) QuayClient}
    (h : n.conns.all (fun p => p.2.gotUp.length < 10000 && p.2.gotDown.length < 10000) = true) : Network.Small n := by
  intro u c hc
  rw [List.all_eq_true] at h
  have := h (u, c) (conn_mem hc)
  simp only [Bool.and_eq_true, decide_eq_true_eq] at this
  exact ⟨by omega, by omega⟩

/-- The witness for all theorems below: these hypotheses hold of the run. -/
theorem quay_ok : Framed (run quayAll .new) ∧ Network.Small (run quayAll .new) ∧ Network.Faithful quayTerms (run quayAll .new) ∧
    Network.Readable (run quayAll .new) :=
  ⟨quay_framed _, quay_small (by decide +kernel), quay_faithful _ (by decide +kernel) (by decide +kernel), quay_readable _⟩

theorem spells_single {ns : List TsServer.Name} {a : Char} (ha : a ≠ '.') (h : TsServer.Spells ns [a]) : ns = [[a]] := by
  have : TsServer.Spells [[a]] [a] := ⟨by simpa using Ne.symm ha, rfl⟩
  exact (TsServer.spells_unique h).trans (TsServer.spells_unique this).symm

/-- Names of one letter are apart and not in the service group. -/
theorem single_apart (a b : Char) (ha : a ≠ '.') (hb : b ≠ '.') : Apart [a] [b] := by
  intro ns ms h1 h2 h3
  rw [spells_single ha h1, spells_single hb h2] at h3
  rcases h3 with h3 | h3
  · exact (List.cons_prefix_cons.1 h3).1
  · exact (List.cons_prefix_cons.1 h3).1.symm

theorem single_foreign (a : Char) (ha : a ≠ '.') : Foreign [a] := by
  intro ns h1 h2
  rw [spells_single ha h1] at h2
  exact absurd h2 (by intro k; cases k)

theorem town_answers {a : Flow.Ref} (h : AnswerOf townRequest a) : a = ['R'] ∨ a = ['E'] := by
  rcases h with ⟨x, h1, h2⟩ | h
  · rw [List.mem_singleton.1 h1] at h2; cases h2; exact .inl rfl
  · cases h; exact .inr rfl

theorem town_outside : Outside townFlow := by
  intro r hr
  rw [List.mem_singleton.1 hr]
  refine ⟨⟨by decide, by decide, fun a ha => ?_⟩, fun a ha => ?_⟩
  · rw [List.mem_singleton.1 ha]; simp
  · rcases town_answers ha with rfl | rfl <;> exact single_foreign _ (by decide)

/-! ### C157 -/

theorem town_distinct : Distinct townFlow townRequest := by
  intro a ha
  refine ⟨(town_outside _ (List.mem_singleton.2 rfl)).2 a ha, fun served hs => ⟨(town_outside _ hs).1, ?_⟩⟩
  rw [List.mem_singleton.1 hs]
  intro a' ha'
  rcases town_answers ha with rfl | rfl <;> rcases town_answers ha' with rfl | rfl <;> exact single_apart _ _ (by decide) (by decide)

/-- **C157** In every run: if a request of a TypeScript client is resolved, then the client sent this very
request, the server looked at it and ran the code of the request for this client with what user code of
the client passed, user code of the server decided on this answer, and the server sent it. -/
theorem C157_result_from_server (t : Terms P)
    (es : List (UInt64 × Event (rustServer cfg env opts down) (tsClient ccfg cenv up)))
    (hf : Framed (run es .new)) (hs : Network.Small (run es .new)) (ha : Network.Faithful t (run es .new))
    {u : Network.Uuid} {c : Conn (tsClient ccfg cenv up)} (hc : (run es .new).find u = some c) {k o : Nat} {r : Flow.Request}
    {b v : TsServer.Js} {ref : Flow.Ref} (h1 : .created o (.request r) b ∈ c.client.2.past) (h2 : .called k o ∈ c.client.2.past)
    (h3 : .ended k (.resolved ref v) ∈ c.client.2.past) (hd : Distinct cfg.workflow r) :
    AnswerOf r ref ∧ Served t cfg env u (run es .new).server.2.past c.client.2.past k o r b ref v := by
  obtain ⟨es', hi⟩ := inv_run (growing_tsRust (cfg := cfg) (env := env) (opts := opts) (down := down) (ccfg := ccfg) (cenv := cenv) (up := up)) es
  have hl := tsRust_law hi hc
  obtain ⟨l1, l2, e⟩ := List.append_of_mem h3
  have hl' := hl
  rw [e] at hl'
  obtain ⟨_, o', kind, b', k1, k2, q, m, k3, k4⟩ := hl'.at
  have sub : ∀ a ∈ l2, a ∈ c.client.2.past := fun a ha => by rw [e]; simp [ha]
  cases TsClient.law_called_unique hl h2 (sub _ k1)
  obtain ⟨rfl, rfl⟩ := TsClient.law_created_unique hl h1 (sub _ k2)
  have key : ∀ {m}, .delivered (.call k o) q m ∈ c.client.2.past → TsClient.Holds m ref v → AnswerOf r ref →
      AnswerOf r ref ∧ Served t cfg env u (run es .new).server.2.past c.client.2.past k o r b ref v := by
    intro m g1 g2 g3
    obtain ⟨g4, g5⟩ := hd ref g3
    obtain ⟨asked, p, x, newer, older, served, s, l, g⟩ := tsRust_told hi hf hs ha hc g1 h1 g2 g4 g5
    exact ⟨g3, q, asked, p, x, newer, older, served, s, l, g⟩
  cases k4 with
  | action g =>
    obtain ⟨before, after, g1, g2, g3, _⟩ := g
    exact key (sub _ k3) g3 (.inl ⟨_, by rw [g1]; simp, g2⟩)
  | error _ g1 g2 => exact key (sub _ k3) g2 (.inr g1)

/-- The request is resolved with 42, and the hypotheses hold. -/
example : Framed (run quayAll .new) ∧ Network.Small (run quayAll .new) ∧ Network.Faithful quayTerms (run quayAll .new) ∧
    Distinct town.server.workflow townRequest ∧ ∃ c, (run quayAll .new).find 1 = some c ∧
      c.client.2.past.any (fun | .ended 2 (.resolved ref v) => ref = ['R'] && quayNum v = some 42 | _ => false) = true :=
  ⟨quay_ok.1, quay_ok.2.1, quay_ok.2.2.1, town_distinct, quay_sees _ (by decide +kernel)⟩

/-- **C157** The same for the value a handler of the request is called with. -/
theorem C157_handler_from_server (t : Terms P)
    (es : List (UInt64 × Event (rustServer cfg env opts down) (tsClient ccfg cenv up)))
    (hf : Framed (run es .new)) (hs : Network.Small (run es .new)) (ha : Network.Faithful t (run es .new))
    {u : Network.Uuid} {c : Conn (tsClient ccfg cenv up)} (hc : (run es .new).find u = some c) {k o : Nat} {r : Flow.Request}
    {b v : TsServer.Js} {name : TsServer.Name} (h1 : .created o (.request r) b ∈ c.client.2.past) (h2 : .called k o ∈ c.client.2.past)
    (h3 : .handled k name (some v) ∈ c.client.2.past) (hd : Distinct cfg.workflow r) :
    ∃ ref, Served t cfg env u (run es .new).server.2.past c.client.2.past k o r b ref v ∧
      ((∃ a ∈ r.actions, a.response = some ref ∧ TsClient.HandlerOf r a name) ∨
        r.error = some ref ∧ name = "err".toList) := by
  obtain ⟨es', hi⟩ := inv_run (growing_tsRust (cfg := cfg) (env := env) (opts := opts) (down := down) (ccfg := ccfg) (cenv := cenv) (up := up)) es
  have hl := tsRust_law hi hc
  obtain ⟨l1, l2, e⟩ := List.append_of_mem h3
  have hl' := hl
  rw [e] at hl'
  obtain ⟨_, _, o', kind, b', q, m, k1, k2, k3, k4⟩ := hl'.at
  have sub : ∀ a ∈ l2, a ∈ c.client.2.past := fun a ha => by rw [e]; simp [ha]
  cases TsClient.law_called_unique hl h2 (sub _ k1)
  obtain ⟨rfl, rfl⟩ := TsClient.law_created_unique hl h1 (sub _ k2)
  have key : ∀ {m ref}, .delivered (.call k o) q m ∈ c.client.2.past → TsClient.Holds m ref v → AnswerOf r ref →
      Served t cfg env u (run es .new).server.2.past c.client.2.past k o r b ref v := by
    intro m ref g1 g2 g3
    obtain ⟨g4, g5⟩ := hd ref g3
    obtain ⟨asked, p, x, newer, older, served, s, l, g⟩ := tsRust_told hi hf hs ha hc g1 h1 g2 g4 g5
    exact ⟨q, asked, p, x, newer, older, served, s, l, g⟩
  cases k4 with
  | action g hn =>
    obtain ⟨before, after, g1, g2, g3, _⟩ := g
    exact ⟨_, key (sub _ k3) g3 (.inl ⟨_, by rw [g1]; simp, g2⟩), .inl ⟨_, by rw [g1]; simp, g2, hn⟩⟩
  | error _ g1 g2 => exact ⟨_, key (sub _ k3) g2 (.inr g1), .inr ⟨g1, rfl⟩⟩

/-- The handler `response` is called with 42. -/
example : ∃ c, (run quayAll .new).find 1 = some c ∧
    c.client.2.past.any (fun | .handled 2 name (some v) => name = "response".toList && quayNum v = some 42 | _ => false) = true :=
  quay_sees _ (by decide +kernel)

/-- **C157** In every run: if the promise of a beacon of a TypeScript client is settled by a confirmation,
then it is resolved, the client sent this very beacon, the server looked at it, and user code of the
server took it. -/
theorem C157_beacon_from_server (t : Terms P)
    (es : List (UInt64 × Event (rustServer cfg env opts down) (tsClient ccfg cenv up)))
    (hf : Framed (run es .new)) (hs : Network.Small (run es .new)) (ha : Network.Faithful t (run es .new))
    {u : Network.Uuid} {c : Conn (tsClient ccfg cenv up)} (hc : (run es .new).find u = some c) {k o : Nat} {ref : Flow.Ref}
    {b : TsServer.Js} {res : TsClient.Result} (h1 : .created o (.beacon ref) b ∈ c.client.2.past) (h2 : .called k o ∈ c.client.2.past)
    (h3 : .ended k res ∈ c.client.2.past) (hres : res = .confirmed ∨ res = .refused) (ho : Outside cfg.workflow) :
    res = .confirmed ∧ ∃ q p newer older d s, .sent (.call k o) (UInt32.toNat q) (.msg ref b) ∈ c.client.2.past ∧
      (run es .new).server.2.past = newer ++ .send u q .beacon true :: .beacon u ref q :: .got u (.msg ref p) q :: older ∧
      t.same p b ∧ d ∈ cfg.workflow.beacons ∧ d.reference = ref ∧
      s.past = .beacon u ref q :: .got u (.msg ref p) q :: older ∧ env.beacon s ref u p = .ok () := by
  obtain ⟨es', hi⟩ := inv_run (growing_tsRust (cfg := cfg) (env := env) (opts := opts) (down := down) (ccfg := ccfg) (cenv := cenv) (up := up)) es
  have hl := tsRust_law hi hc
  obtain ⟨l1, l2, e⟩ := List.append_of_mem h3
  have hl' := hl
  rw [e] at hl'
  obtain ⟨_, o', kind, b', k1, k2, k3⟩ := hl'.at
  have sub : ∀ a ∈ l2, a ∈ c.client.2.past := fun a ha => by rw [e]; simp [ha]
  cases TsClient.law_called_unique hl h2 (sub _ k1)
  obtain ⟨rfl, rfl⟩ := TsClient.law_created_unique hl h1 (sub _ k2)
  rcases hres with rfl | rfl
  · obtain ⟨q, m, k3, k4⟩ := k3
    cases k4 with
    | confirmed k4 =>
      obtain ⟨_, p, newer, older, d, s, g⟩ := tsRust_confirmed hi hf hs ha hc (sub _ k3) h1 k4 ho
      exact ⟨rfl, q, p, newer, older, d, s, g⟩
  · obtain ⟨q, m, k3, k4⟩ := k3
    cases k4 with
    | refused k4 =>
      obtain ⟨k5, _⟩ := tsRust_confirmed hi hf hs ha hc (sub _ k3) h1 k4 ho
      cases k5

/-- The beacon is confirmed. -/
example : Outside town.server.workflow ∧ ∃ c, (run quayAll .new).find 1 = some c ∧
    c.client.2.past.any (fun | .ended 4 .confirmed => true | _ => false) = true :=
  ⟨town_outside, quay_sees _ (by decide +kernel)⟩

/-! ### C158 -/

/-- **C158** In every run: the messages of a TypeScript client the server looks at are messages the client
sent, unchanged, in the order and with the numbers the client gave them, each at most once. If the
messages can be decoded, none is left out. -/
theorem C158_calls_in_order (t : Terms P)
    (es : List (UInt64 × Event (rustServer cfg env opts down) (tsClient ccfg cenv up)))
    (hf : Framed (run es .new)) (ha : Network.Faithful t (run es .new))
    {u : Network.Uuid} {c : Conn (tsClient ccfg cenv up)} (hc : (run es .new).find u = some c) :
    System.Sub (fun x y => x.1 = y.1.toNat ∧ SameUp t cfg x.2 y.2) (tsSents c.client.2.past) (System.heard u (run es .new).server.2.past) ∧
    (Network.Readable (run es .new) → System.Pairs (fun x y => x.1 = y.1.toNat ∧ SameUp t cfg x.2 y.2)
      ((tsSents c.client.2.past).take (System.heard u (run es .new).server.2.past).length)
      (System.heard u (run es .new).server.2.past)) := by
  obtain ⟨es', hi⟩ := inv_run (growing_tsRust (cfg := cfg) (env := env) (opts := opts) (down := down) (ccfg := ccfg) (cenv := cenv) (up := up)) es
  have hl := tsRust_law hi hc
  have key : ∀ (x : Nat × TsClient.Out) (y : UInt32 × Server.In P), x ∈ tsSents c.client.2.past →
      x.1.toUInt32 = y.1 ∧ System.Arrives up cfg.decoder x.1.toUInt32 x.2 y.2 → x.1 = y.1.toNat ∧ SameUp t cfg x.2 y.2 := by
    rintro ⟨q, o⟩ ⟨q', m⟩ hx ⟨h1, ts, h2⟩
    obtain ⟨w, hw⟩ := mem_tsSents.1 hx
    refine ⟨?_, ha.up u c hc w q o hw ts m h2⟩
    obtain ⟨a, b, e⟩ := List.append_of_mem hw
    rw [e] at hl
    have := (hl.at).2.1
    dsimp only at h1 ⊢
    rw [← h1]
    simp only [Nat.toUInt32_eq, UInt32.toNat_ofNat']
    omega
  refine ⟨?_, fun hr => ?_⟩
  · have h := tsRust_up hi hf hc
    rw [tsSent_sents] at h
    exact (Sub.of_map h).mono (fun x y hx _ => key x y hx)
  · obtain ⟨fs, more, h1, h2⟩ := frames_of_reads (hi.links u c hc).up (fun q o ho ts => hf.up u c hc q o ho ts) (tsRust_reads_up hi hc)
    have h3 := System.pairs_of_readable (d := cfg.decoder) h1 (by
      rintro ⟨q, o⟩ hx ts
      obtain ⟨w, k, h4, rfl⟩ := mem_tsSent.1 hx
      exact hr.up u c hc w k o h4 ts)
    rw [h2, show (tsClient ccfg cenv up).sent c.client = tsSent c.client.2.past from rfl, tsSent_sents] at h3
    have h4 := (Pairs.of_map h3).take
    exact h4.mono (fun x y hx => key x y (List.mem_of_mem_take hx))

/-- Four messages of the client were looked at. -/
example : (System.heard 1 (run quayAll .new).server.2.past).map Prod.fst = [1, 2, 3, 4] := by
  rw [quay_past]; rfl

/-- **C158** In every run: the messages of the server a TypeScript client looks at are messages the server
sent to it, unchanged, in this order, each at most once. If the messages can be decoded, none is left
out. -/
theorem C158_answers_in_order (t : Terms P)
    (es : List (UInt64 × Event (rustServer cfg env opts down) (tsClient ccfg cenv up)))
    (hf : Framed (run es .new)) (hs : Network.Small (run es .new)) (ha : Network.Faithful t (run es .new))
    {u : Network.Uuid} {c : Conn (tsClient ccfg cenv up)} (hc : (run es .new).find u = some c) :
    System.Sub (fun x y => x.1 = y.1 ∧ SameDown t x.2 y.2) (System.sends u (run es .new).server.2.past)
      (TsClient.looked c.client.2.past) ∧
    (Network.Readable (run es .new) → System.Pairs (fun x y => x.1 = y.1 ∧ SameDown t x.2 y.2)
      ((System.sends u (run es .new).server.2.past).take (TsClient.looked c.client.2.past).length)
      (TsClient.looked c.client.2.past)) := by
  obtain ⟨es', hi⟩ := inv_run (growing_tsRust (cfg := cfg) (env := env) (opts := opts) (down := down) (ccfg := ccfg) (cenv := cenv) (up := up)) es
  have key : ∀ (x : UInt32 × Server.Out P) (y : UInt32 × TsServer.Msg), x ∈ System.sends u (run es .new).server.2.past →
      x.1 = y.1 ∧ System.Arrives down ccfg.decoder x.1 x.2 y.2 → x.1 = y.1 ∧ SameDown t x.2 y.2 := by
    rintro ⟨q, o⟩ ⟨q', m⟩ hx ⟨h1, ts, h2⟩
    exact ⟨h1, ha.down u q o (System.mem_sends.1 hx) ts m h2⟩
  refine ⟨(tsRust_down hi hf hs hc).mono (fun x y hx _ => key x y hx), fun hr => ?_⟩
  obtain ⟨k1, k2⟩ := tsRust_reads_down hi hs hc
  obtain ⟨fs, more, h1, h2⟩ := frames_of_reads k1 (tsRust_framed_down hf) k2
  have h3 := System.pairs_of_readable (d := ccfg.decoder) h1 (by
    rintro ⟨q, o⟩ hx ts
    exact hr.down u q o (System.mem_sends.1 hx) ts)
  rw [h2] at h3
  exact h3.take.mono (fun x y hx => key x y (List.mem_of_mem_take hx))

/-- Five messages and the confirmation of the connection were sent and looked at. -/
example : (System.sends 1 (run quayAll .new).server.2.past).map Prod.fst = [0, 1, 2, 3, 0, 4] ∧
    ∃ c, (run quayAll .new).find 1 = some c ∧ decide ((TsClient.looked c.client.2.past).map Prod.fst = [0, 1, 2, 3, 0, 4]) = true :=
  ⟨by rw [quay_past]; rfl, quay_sees _ (by decide +kernel)⟩

/-- **C158** In every run: the numbers of the messages the server sends to a TypeScript client grow, apart
from those with number 0. So a message is answered at most once. -/
theorem C158_one_answer (es : List (UInt64 × Event (rustServer cfg env opts down) (tsClient ccfg cenv up)))
    (hf : Framed (run es .new)) {u : Network.Uuid} {c : Conn (tsClient ccfg cenv up)} (hc : (run es .new).find u = some c) :
    ((System.sends u (run es .new).server.2.past).filter (fun x => x.1 ≠ 0)).Pairwise (fun a b => a.1 < b.1) := by
  obtain ⟨es', hi⟩ := inv_run (growing_tsRust (cfg := cfg) (env := env) (opts := opts) (down := down) (ccfg := ccfg) (cenv := cenv) (up := up)) es
  have hj : System.J cfg env (run es .new).server.2 := by rw [hi.server]; exact (rustKnown_run es').just
  exact (answers_increasing hj (tsRust_increasing hi hf hc)).1

/-- **C158** In every run: the broadcasts a TypeScript client hands to user code are messages the server
sent to this client, in order, each one once. -/
theorem C158_broadcasts_from_server (t : Terms P)
    (es : List (UInt64 × Event (rustServer cfg env opts down) (tsClient ccfg cenv up)))
    (hf : Framed (run es .new)) (hs : Network.Small (run es .new)) (ha : Network.Faithful t (run es .new))
    {u : Network.Uuid} {c : Conn (tsClient ccfg cenv up)} (hc : (run es .new).find u = some c)
    (hb : ∀ ref, TsClient.Broadcasts ccfg.workflow ref → Foreign ref) :
    System.Sub (fun (x : UInt32 × Server.Out P) (y : Flow.Ref × TsServer.Js) => ∃ p, x.2 = .msg y.1 p ∧ t.same p y.2)
      (System.sends u (run es .new).server.2.past) (tsCasts c.client.2.past) := by
  obtain ⟨es', hi⟩ := inv_run (growing_tsRust (cfg := cfg) (env := env) (opts := opts) (down := down) (ccfg := ccfg) (cenv := cenv) (up := up)) es
  refine (C158_answers_in_order t es hf hs ha hc).1.trans (tsCasts_looked (tsRust_law hi hc)).1 ?_
  rintro ⟨q, o⟩ ⟨q', m⟩ ⟨ref, b⟩ hx ⟨_, h2⟩ ⟨k1, k2, k3⟩
  dsimp only at h2 k1 k2 k3 ⊢
  have hfo := hb ref k3
  have no : ∀ name, IsService m name → False := by
    intro name hn
    refine hfo _ k1 ?_
    rw [hn]; rfl
  cases o with
  | msg ref' p =>
    obtain ⟨e1, e2⟩ := h2
    refine ⟨p, ?_, by rw [k2]; exact e2⟩
    rw [spells_ref e1 k1]
  | confirmation => exact (no _ h2.1).elim
  | selfKey => exact (no _ h2.1).elim
  | hash => exact (no _ h2.1).elim
  | beacon => exact (no _ h2.1).elim

/-- The broadcast `U` with 9 is handed to user code. -/
example : ∃ c, (run quayAll .new).find 1 = some c ∧
    decide ((tsCasts c.client.2.past).map (fun x => (x.1, quayNum x.2)) = [(['U'], some 9)]) = true :=
  quay_sees _ (by decide +kernel)

/-! ### C159 -/

/-- **C159** In every run: if a TypeScript client is ready, then protocol and workflow of the client are
those of the server, the id it is told is the one of its connection, and the server answered its self
key and, after that, its hashes. -/
theorem C159_handshake_with_server (t : Terms P)
    (es : List (UInt64 × Event (rustServer cfg env opts down) (tsClient ccfg cenv up)))
    (hf : Framed (run es .new)) (hs : Network.Small (run es .new)) (ha : Network.Faithful t (run es .new))
    {u : Network.Uuid} {c : Conn (tsClient ccfg cenv up)} (hc : (run es .new).find u = some c) (ho : Outside cfg.workflow)
    {v : TsServer.Js} (h : .emitted (.ready v) ∈ c.client.2.past) :
    v = .str (t.name u) ∧ t.hashes = (cfg.protocolHash, cfg.workflowHash) ∧
    ∃ n q1 q2 k newer mid older, .sent (.assign n true) (UInt32.toNat q1) .selfKey ∈ c.client.2.past ∧
      .sent (.hash n v) (UInt32.toNat q2) .hash ∈ c.client.2.past ∧
      (run es .new).server.2.past = newer ++ .send u q2 (.hash false) true ::
        .got u (.hash cfg.protocolHash cfg.workflowHash) q2 :: (mid ++ .send u q1 (.selfKey u) true ::
        .got u (.msg cfg.selfKey k) q1 :: older) := by
  obtain ⟨es', hi⟩ := inv_run (growing_tsRust (cfg := cfg) (env := env) (opts := opts) (down := down) (ccfg := ccfg) (cenv := cenv) (up := up)) es
  have hl := tsRust_law hi hc
  obtain ⟨l1, l2, e⟩ := List.append_of_mem h
  have hl' := hl
  rw [e] at hl'
  obtain ⟨n, h', q2, m2, rfl, k2, k3⟩ := hl'.at
  have d2 : .delivered (.hash n v) q2 m2 ∈ c.client.2.past := by rw [e]; simp [k2]
  obtain ⟨o2, out2, x2, newer2, g2, s2, ⟨ts1, a1⟩, e2, an2, ⟨ts2, a2⟩⟩ := tsRust_answer hi hf hs hc d2
  obtain ⟨y1, y2, ey⟩ := List.append_of_mem s2
  have hly := hl
  rw [ey] at hly
  obtain ⟨_, b2, hlt, _, _, ⟨q1, m1, k4, k5⟩, rfl⟩ := hly.at
  have d1 : .delivered (.assign n true) q1 m1 ∈ c.client.2.past := by rw [ey]; simp [k4]
  obtain ⟨o1, out1, x1, newer1, g1, s1, ⟨ts3, a3⟩, e1, an1, ⟨ts4, a4⟩⟩ := tsRust_answer hi hf hs hc d1
  -- the self key was sent before
  have hq : q1 < q2 := by
    have hly2 := (TsClient.Lawful.tail hly).2
    obtain ⟨z1, z2, ez⟩ := List.append_of_mem k4
    rw [ez] at hly2
    obtain ⟨⟨out, hz⟩, _⟩ := hly2.at
    have := hlt _ _ _ (show .sent (.assign n true) q1.toNat out ∈ y2 by rw [ez]; simp [hz])
    exact UInt32.lt_iff_toNat_lt.2 this
  obtain ⟨_, hcause, _⟩ := hl.cause s1
  obtain ⟨_, rfl⟩ := hcause
  obtain ⟨kk, rfl⟩ := ha.up u c hc _ _ _ s1 ts3 x1 (by simpa using a3)
  cases (show x2 = _ from ha.up u c hc _ _ _ s2 ts1 x2 (by simpa using a1))
  have dn1 := ha.down u q1 out1 (by rw [e1]; simp) ts4 m1 a4
  have dn2 := ha.down u q2 out2 (by rw [e2]; simp) ts2 m2 a2
  obtain ⟨ps1, hk1, hk2⟩ := k5
  rw [selfKey_name] at hk1
  obtain ⟨bd, hh1, hh2⟩ := k3
  rw [hash_name] at hh1
  -- the answer to the self key
  have r1 : v = .str (t.name u) ∧ out1 = .selfKey u ∧ ∃ older, g1 = .got u (.msg cfg.selfKey kk) q1 :: older := by
    generalize hx : Server.In.msg cfg.selfKey kk = x1 at an1 a3
    cases an1 with
    | selfKey =>
      cases hx
      obtain ⟨_, hb⟩ := service_same dn1.1 (by decide) hk1
      obtain ⟨_, ps, f1, f2⟩ := dn1
      rw [f1] at hb
      cases hb
      rw [f2] at hk2
      cases hk2
      exact ⟨rfl, rfl, _, rfl⟩
    | request w1 w2 w3 w4 =>
      obtain ⟨c1, c2⟩ := ho _ w1
      obtain ⟨a, x, rfl, c3⟩ := answer_of_decides c1 w4
      exact (foreign_service dn1.1 (c2 a c3) hk1).elim
    | hash => cases hx
    | wrongHash => cases hx
    | beacon =>
      have := (service_same dn1.1 (by decide) hk1).1
      exact absurd this (by decide)
  -- the answer to the hashes
  have r2 : t.hashes = (cfg.protocolHash, cfg.workflowHash) ∧ out2 = .hash false ∧
      ∃ older, g2 = .got u (.hash cfg.protocolHash cfg.workflowHash) q2 :: older := by
    generalize hx : Server.In.hash t.hashes.1 t.hashes.2 = x2 at an2 a1
    cases an2 with
    | hash =>
      injection hx with f1 f2
      exact ⟨Prod.ext f1 f2, rfl, _, rfl⟩
    | wrongHash =>
      obtain ⟨_, rfl⟩ := service_same dn2.1 (by decide) hh1
      obtain ⟨_, ps, f1, f2, _⟩ := dn2
      obtain ⟨x, f3⟩ := f2.1 rfl
      rw [hh2 ps f1] at f3
      cases f3
    | selfKey => cases hx
    | request => cases hx
    | beacon => cases hx
  obtain ⟨rfl, rfl, older1, rfl⟩ := r1
  obtain ⟨r3, rfl, older2, rfl⟩ := r2
  obtain ⟨mid, rfl⟩ := answers_order (tsRust_increasing hi hf hc) hq e1 e2
  exact ⟨rfl, r3, n, q1, q2, kk, newer2, mid, older1, s1, s2, e2⟩

/-- The client is ready with the id 1. -/
example : Outside town.server.workflow ∧ ∃ c, (run quayAll .new).find 1 = some c ∧
    c.client.2.past.any (fun | .emitted (.ready (.str v)) => v = [Char.ofNat 1] | _ => false) = true :=
  ⟨town_outside, quay_sees _ (by decide +kernel)⟩

end Verif.Props
