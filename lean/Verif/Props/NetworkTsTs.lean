import Verif.Proofs.NetworkTsTs
import Verif.Props.Network
set_option autoImplicit false
/-!
Property theorems about generated TypeScript clients and a generated TypeScript server that talk to each
other: C163–C165. Time, order, loss and the pieces in which bytes arrive are arbitrary, see
`Network.Event`; so is what the transport of the server takes.
-/
namespace Verif.Props

open Verif Verif.Spec Verif.Network

variable {cfg : TsServer.Cfg} {env : TsServer.Env} {opts : Server.Options}
  {takes : List TsServer.Act → Network.Uuid → UInt32 → TsServer.Out → Bool}
  {down : UInt64 → UInt32 → TsServer.Out → Bytes} {ccfg : TsClient.Cfg} {cenv : TsClient.Env}
  {up : UInt64 → UInt32 → TsClient.Out → Bytes}

/-! ### A TypeScript server for the client of `quay` for witnesses -/

/-- The messages of the client: 1 self key, 2 hashes, 3 request `Q`, 5 beacon `B`. -/
def wharfUp : Rust.Decoder TsServer.Msg where
  signature := 7
  getMsg id b :=
    if id = 1 then .ok ⟨[['K']], .obj []⟩
    else if id = 2 then .ok (serviceMsg "HashRequest" [("protocol".toList, .str ['p']), ("workflow".toList, .str ['w'])])
    else if id = 3 then .ok ⟨[['Q']], quayVal (townByte b)⟩
    else if id = 5 then .ok ⟨[['B']], quayVal (townByte b)⟩
    else .err

/-- The messages of the server, with the ids of `quayDown`. -/
def wharfDown (ts : UInt64) (q : UInt32) : TsServer.Out → Bytes
  | .selfKey u => (townFrame 2 ts q u).bytes
  | .hash e => (townFrame (if e then 4 else 3) ts q 0).bytes
  | .beacon => (townFrame 5 ts q 0).bytes
  | .msg ref b => if ref = ['R'] then (townFrame 6 ts q ((quayNum b).getD 0)).bytes else
      if ref = ['U'] then (townFrame 7 ts q ((quayNum b).getD 0)).bytes else (townFrame 8 ts q ((quayNum b).getD 0)).bytes

def wharfCfg : TsServer.Cfg := ⟨wharfUp, townFlow, ['K'], ['p'], ['w'], fun _ => true, [], []⟩

/-- User code of the server changes no identification and throws nothing. -/
def wharfEnv : TsServer.Env := ⟨fun _ _ => [], fun _ _ => false⟩

abbrev WharfServer : ServerProg := tsServer wharfCfg wharfEnv .new (fun _ _ _ _ => true) wharfDown

def wharfTerms : TsTerms := ⟨fun u => [Char.ofNat u], (['p'], ['w'])⟩

/-- Client 1 connects and does the handshake. -/
def wharfShake : List (UInt64 × Event WharfServer QuayClient) :=
  [(1, .opened 1), (3, .client 1 .connected), (4, .toServer 1 100), (4, .toClient 1 100),
   (5, .client 1 (.work 0)), (5, .client 1 (.work 0)), (6, .toServer 1 100), (6, .toClient 1 100), (7, .client 1 (.work 0))]

/-- It makes two requests; the bytes come in two pieces, and the second one is answered first. -/
def wharfCall : List (UInt64 × Event WharfServer QuayClient) :=
  [(8, .client 1 (.user (.create (.request townRequest) (quayVal 41)))), (8, .client 1 (.user (.on 1 "response".toList))),
   (8, .client 1 (.user (.send 1))), (8, .client 1 (.user (.create (.request townRequest) (quayVal 51)))), (8, .client 1 (.user (.send 3))),
   (8, .toServer 1 10), (8, .toServer 1 100),
   (9, .server (.settled 2 (.answer ['R'] (quayVal 52) []))), (9, .server (.settled 1 (.answer ['R'] (quayVal 42) []))),
   (9, .server (.settled 1 (.sent true))), (9, .server (.settled 2 (.sent true))),
   (9, .toClient 1 100), (9, .client 1 (.work 0)), (9, .client 1 (.work 0))]

/-- The event `T` sends the broadcast `U`. -/
def wharfNews : List (UInt64 × Event WharfServer QuayClient) :=
  [(9, .server (.event ['T'])), (9, .server (.settled 3 (.output [⟨[1], TsServer.plain ['U'], quayVal 9⟩]))), (9, .toClient 1 100)]

/-- The client sends the beacon `B`. -/
def wharfBeat : List (UInt64 × Event WharfServer QuayClient) :=
  [(9, .client 1 (.user (.create (.beacon ['B']) (quayVal 5)))), (9, .client 1 (.user (.send 5))),
   (9, .toServer 1 100), (9, .server (.settled 4 .done)), (9, .toClient 1 100), (9, .client 1 (.work 0))]

def wharfAll : List (UInt64 × Event WharfServer QuayClient) := wharfShake ++ wharfCall ++ wharfNews ++ wharfBeat

theorem wharf_sees {es : List (UInt64 × Event WharfServer QuayClient)} (f : Conn QuayClient → Bool)
    (h : ((run es .new).find 1).any f = true) : ∃ c, (run es .new).find 1 = some c ∧ f c = true := by
  cases e : (run es .new).find 1 with
  | none => rw [e] at h; cases h
  | some c => exact ⟨c, rfl, by rwa [e] at h⟩

/-- Every message is packed into a frame. -/
theorem wharf_framed (n : Net WharfServer QuayClient) : Network.Framed n := by
  refine ⟨fun u q o _ ts => ?_, fun u c _ q o _ ts => ?_⟩
  · show System.IsFrame q (wharfDown ts q o)
    cases o <;> simp only [wharfDown] <;> (try split) <;> (try split) <;> exact townFrame_is _ _ _ _
  · show System.IsFrame q (quayUp ts q o)
    cases o <;> simp only [quayUp] <;> (try split) <;> exact townFrame_is _ _ _ _

/-- Every message can be decoded. -/
theorem wharf_readable (n : Net WharfServer QuayClient) : TsReadable n := by
  refine ⟨fun u c _ w q o _ ts => ?_, fun f u q o _ ts => ?_⟩
  · cases o <;> simp only [quayUp] <;> (try split) <;> exact ⟨_, (decodes_town rfl).2 rfl⟩
  · cases o with
    | hash e => cases e <;> exact ⟨_, (decodes_town rfl).2 rfl⟩
    | _ => simp only [wharfDown] <;> (try split) <;> (try split) <;> exact ⟨_, (decodes_town rfl).2 rfl⟩

/-- Numbers are bytes, and the names are declared. -/
def wharfSmallDown : TsServer.Act → Bool
  | .send _ _ _ (.selfKey u) => u < 256
  | .send _ _ _ (.msg ref b) => ref ∈ [['R'], ['U'], ['E']] && (quayNum b).isSome
  | _ => true

theorem wharf_faithful (n : Net WharfServer QuayClient) (h1 : n.server.2.past.all wharfSmallDown = true)
    (h2 : n.conns.all (fun p => p.2.client.2.past.all quaySmallUp) = true) : TsFaithful wharfTerms n := by
  have hb : ∀ x, x < 256 → townByte [UInt8.ofNat x] = x := by
    intro x hx
    show (UInt8.ofNat x).toNat = x
    simp [UInt8.toNat_ofNat']; omega
  refine ⟨fun u c hc w q o hm ts m hd => ?_, fun f u q o hm ts m hd => ?_⟩
  · have hs : quaySmallUp (.sent w q o) = true := by
      rw [List.all_eq_true] at h2
      have := h2 (u, c) (conn_mem hc)
      rw [List.all_eq_true] at this
      exact this _ hm
    cases o with
    | selfKey => cases (decodes_town rfl).1 hd; exact ⟨by decide, rfl⟩
    | hash => cases (decodes_town rfl).1 hd; exact ⟨rfl, _, rfl, rfl, rfl⟩
    | msg ref b =>
      simp only [quaySmallUp, List.mem_cons, List.not_mem_nil, or_false, Bool.and_eq_true, decide_eq_true_eq] at hs
      obtain ⟨hr, hx⟩ := hs
      obtain ⟨x, hx⟩ := Option.isSome_iff_exists.1 hx
      obtain ⟨rfl, hx2⟩ := quayNum_val hx
      rcases hr with rfl | rfl
      · simp only [quayUp, if_pos, hx, Option.getD_some] at hd
        have := (decodes_town rfl).1 hd
        have e2 : wharfCfg.decoder.getMsg 3 [UInt8.ofNat x] = .ok ⟨[['Q']], quayVal (townByte [UInt8.ofNat x])⟩ := rfl
        rw [e2, hb x hx2] at this
        cases this
        exact ⟨⟨by decide, rfl⟩, rfl⟩
      · have hq : ¬ (['B'] : List Char) = ['Q'] := by decide
        simp only [quayUp, if_neg hq, hx, Option.getD_some] at hd
        have := (decodes_town rfl).1 hd
        have e2 : wharfCfg.decoder.getMsg 5 [UInt8.ofNat x] = .ok ⟨[['B']], quayVal (townByte [UInt8.ofNat x])⟩ := rfl
        rw [e2, hb x hx2] at this
        cases this
        exact ⟨⟨by decide, rfl⟩, rfl⟩
  · have hs : wharfSmallDown (.send f u q o) = true := by
      rw [List.all_eq_true] at h1
      exact h1 _ hm
    cases o with
    | selfKey v =>
      have := (decodes_town (d := quayDown) rfl).1 hd
      have e : quayDown.getMsg 2 [UInt8.ofNat v] =
        .ok (serviceMsg "SelfKeyResponse" [("uuid".toList, .str [Char.ofNat (townByte [UInt8.ofNat v])])]) := rfl
      rw [e, hb v (by simpa [wharfSmallDown] using hs)] at this
      cases this
      exact ⟨rfl, _, rfl, rfl⟩
    | hash e =>
      cases e with
      | false =>
        cases (decodes_town (d := quayDown) (id := 3) rfl).1 hd
        exact ⟨rfl, _, rfl, ⟨fun k => (by cases k), fun ⟨_, k⟩ => (by cases k)⟩, ⟨fun _ => rfl, fun _ => rfl⟩⟩
      | true =>
        cases (decodes_town (d := quayDown) (id := 4) rfl).1 hd
        exact ⟨rfl, _, rfl, ⟨fun _ => ⟨_, rfl⟩, fun _ => rfl⟩, ⟨fun k => (by cases k), fun k => (by cases k)⟩⟩
    | beacon => cases (decodes_town rfl).1 hd; exact ⟨rfl, _, rfl, rfl⟩
    | msg ref b =>
      simp only [wharfSmallDown, List.mem_cons, List.not_mem_nil, or_false, Bool.and_eq_true, decide_eq_true_eq] at hs
      obtain ⟨hr, hx⟩ := hs
      obtain ⟨x, hx⟩ := Option.isSome_iff_exists.1 hx
      obtain ⟨rfl, hx2⟩ := quayNum_val hx
      have key : ∀ (id : UInt32) (ref : Flow.Ref), wharfDown ts q (.msg ref (quayVal x)) = (townFrame id ts q ((quayNum (quayVal x)).getD 0)).bytes →
          quayDown.getMsg id [UInt8.ofNat x] = .ok ⟨[ref], quayVal (townByte [UInt8.ofNat x])⟩ → '.' ∉ ref →
          System.Decodes quayDown (wharfDown ts q (.msg ref (quayVal x))) m → TsSameDown wharfTerms (.msg ref (quayVal x)) m := by
        intro id ref k1 k2 k3 k4
        rw [k1, hx, Option.getD_some] at k4
        have := (decodes_town (d := quayDown) (id := id) rfl).1 k4
        rw [k2, hb x hx2] at this
        cases this
        exact ⟨⟨k3, rfl⟩, rfl⟩
      rcases hr with rfl | rfl | rfl
      · exact key 6 _ rfl rfl (by decide) hd
      · exact key 7 _ rfl rfl (by decide) hd
      · exact key 8 _ rfl rfl (by decide) hd

/-- Few bytes arrived. -/
theorem wharf_small {n : Net WharfServer QuayClient}
    (h : n.conns.all (fun p => p.2.gotUp.length < 10000 && p.2.gotDown.length < 10000) = true) : Network.Small n := by
  intro u c hc
  rw [List.all_eq_true] at h
  have := h (u, c) (conn_mem hc)
  simp only [Bool.and_eq_true, decide_eq_true_eq] at this
  exact ⟨by omega, by omega⟩

/-- The witness for all theorems below: these hypotheses hold of the run. -/
theorem wharf_ok : Network.Framed (run wharfAll .new) ∧ Network.Small (run wharfAll .new) ∧ TsFaithful wharfTerms (run wharfAll .new) ∧
    TsReadable (run wharfAll .new) :=
  ⟨wharf_framed _, wharf_small (by decide +kernel), wharf_faithful _ (by decide +kernel) (by decide +kernel), wharf_readable _⟩

theorem wharf_outside : TsOutside townFlow := fun r hr a ha => (town_outside r hr).2 a ha

theorem wharf_clear : Clear townFlow townRequest := by
  refine ⟨fun a ha => ⟨(town_distinct a ha).1, fun served hs => ((town_distinct a ha).2 served hs).2⟩, fun served hs ref hr => ?_⟩
  rw [List.mem_singleton.1 hs] at hr
  cases hr
  exact single_apart 'Q' 'Q' (by decide) (by decide)

/-! ### C163 -/

/-- **C163** In every run: if a request of a TypeScript client is resolved, then the client sent this very
request, the server looked at it and ran the code of the request for this client with what user code of
the client passed, user code of the server decided on this answer, and the server sent it. -/
theorem C163_result_from_server (t : TsTerms)
    (es : List (UInt64 × Event (tsServer cfg env opts takes down) (tsClient ccfg cenv up)))
    (hf : Network.Framed (run es .new)) (hs : Network.Small (run es .new)) (ha : TsFaithful t (run es .new))
    {u : Network.Uuid} {c : Conn (tsClient ccfg cenv up)} (hc : (run es .new).find u = some c) {k o : Nat} {r : Flow.Request}
    {b v : TsServer.Js} {ref : Flow.Ref} (h1 : .created o (.request r) b ∈ c.client.2.past) (h2 : .called k o ∈ c.client.2.past)
    (h3 : .ended k (.resolved ref v) ∈ c.client.2.past) (hd : Clear cfg.workflow r) :
    AnswerOf r ref ∧ TsServed es u (run es .new).server.2.past c.client.2.past k o r b ref v := by
  obtain ⟨es', hi⟩ := inv_run (growing_tsTs (cfg := cfg) (env := env) (opts := opts) (takes := takes) (down := down) (ccfg := ccfg) (cenv := cenv) (up := up)) es
  have hl := tsTs_law hi hc
  obtain ⟨l1, l2, e⟩ := List.append_of_mem h3
  have hl' := hl
  rw [e] at hl'
  obtain ⟨_, o', kind, b', k1, k2, q, m, k3, k4⟩ := hl'.at
  have sub : ∀ a ∈ l2, a ∈ c.client.2.past := fun a ha => by rw [e]; simp [ha]
  cases TsClient.law_called_unique hl h2 (sub _ k1)
  obtain ⟨rfl, rfl⟩ := TsClient.law_created_unique hl h1 (sub _ k2)
  have key : ∀ {m}, .delivered (.call k o) q m ∈ c.client.2.past → TsClient.Holds m ref v → AnswerOf r ref →
      AnswerOf r ref ∧ TsServed es u (run es .new).server.2.past c.client.2.past k o r b ref v :=
    fun g1 g2 g3 => ⟨g3, tsTs_served hi hf hs ha hc g1 h1 g2 g3 hd⟩
  cases k4 with
  | action g =>
    obtain ⟨before, after, g1, g2, g3, _⟩ := g
    exact key (sub _ k3) g3 (.inl ⟨_, by rw [g1]; simp, g2⟩)
  | error _ g1 g2 => exact key (sub _ k3) g2 (.inr g1)

/-- Both requests are resolved with their own answers, although the second one is answered first, and the
hypotheses hold. -/
example : Network.Framed (run wharfAll .new) ∧ Network.Small (run wharfAll .new) ∧ TsFaithful wharfTerms (run wharfAll .new) ∧
    Clear wharfCfg.workflow townRequest ∧ ∃ c, (run wharfAll .new).find 1 = some c ∧
      (c.client.2.past.any (fun | .ended 2 (.resolved ref v) => ref = ['R'] && quayNum v = some 42 | _ => false) &&
       c.client.2.past.any (fun | .ended 4 (.resolved ref v) => ref = ['R'] && quayNum v = some 52 | _ => false)) = true :=
  ⟨wharf_ok.1, wharf_ok.2.1, wharf_ok.2.2.1, wharf_clear, wharf_sees _ (by decide +kernel)⟩

/-- **C163** The same for the value a handler of the request is called with. -/
theorem C163_handler_from_server (t : TsTerms)
    (es : List (UInt64 × Event (tsServer cfg env opts takes down) (tsClient ccfg cenv up)))
    (hf : Network.Framed (run es .new)) (hs : Network.Small (run es .new)) (ha : TsFaithful t (run es .new))
    {u : Network.Uuid} {c : Conn (tsClient ccfg cenv up)} (hc : (run es .new).find u = some c) {k o : Nat} {r : Flow.Request}
    {b v : TsServer.Js} {name : TsServer.Name} (h1 : .created o (.request r) b ∈ c.client.2.past) (h2 : .called k o ∈ c.client.2.past)
    (h3 : .handled k name (some v) ∈ c.client.2.past) (hd : Clear cfg.workflow r) :
    ∃ ref, TsServed es u (run es .new).server.2.past c.client.2.past k o r b ref v ∧
      ((∃ a ∈ r.actions, a.response = some ref ∧ TsClient.HandlerOf r a name) ∨
        r.error = some ref ∧ name = "err".toList) := by
  obtain ⟨es', hi⟩ := inv_run (growing_tsTs (cfg := cfg) (env := env) (opts := opts) (takes := takes) (down := down) (ccfg := ccfg) (cenv := cenv) (up := up)) es
  have hl := tsTs_law hi hc
  obtain ⟨l1, l2, e⟩ := List.append_of_mem h3
  have hl' := hl
  rw [e] at hl'
  obtain ⟨_, _, o', kind, b', q, m, k1, k2, k3, k4⟩ := hl'.at
  have sub : ∀ a ∈ l2, a ∈ c.client.2.past := fun a ha => by rw [e]; simp [ha]
  cases TsClient.law_called_unique hl h2 (sub _ k1)
  obtain ⟨rfl, rfl⟩ := TsClient.law_created_unique hl h1 (sub _ k2)
  cases k4 with
  | action g hn =>
    obtain ⟨before, after, g1, g2, g3, _⟩ := g
    exact ⟨_, tsTs_served hi hf hs ha hc (sub _ k3) h1 g3 (.inl ⟨_, by rw [g1]; simp, g2⟩) hd, .inl ⟨_, by rw [g1]; simp, g2, hn⟩⟩
  | error _ g1 g2 => exact ⟨_, tsTs_served hi hf hs ha hc (sub _ k3) h1 g2 (.inr g1) hd, .inr ⟨g1, rfl⟩⟩

/-- The handler `response` is called with 42. -/
example : ∃ c, (run wharfAll .new).find 1 = some c ∧
    c.client.2.past.any (fun | .handled 2 name (some v) => name = "response".toList && quayNum v = some 42 | _ => false) = true :=
  wharf_sees _ (by decide +kernel)

/-- **C163** In every run: if the promise of a beacon of a TypeScript client is settled by a confirmation,
then it is resolved, the client sent this very beacon, the server looked at it and ran the code of the
beacon with what user code of the client passed, and user code of the server took it. -/
theorem C163_beacon_from_server (t : TsTerms)
    (es : List (UInt64 × Event (tsServer cfg env opts takes down) (tsClient ccfg cenv up)))
    (hf : Network.Framed (run es .new)) (hs : Network.Small (run es .new)) (ha : TsFaithful t (run es .new))
    {u : Network.Uuid} {c : Conn (tsClient ccfg cenv up)} (hc : (run es .new).find u = some c) {k o : Nat} {ref : Flow.Ref}
    {b : TsServer.Js} {res : TsClient.Result} (h1 : .created o (.beacon ref) b ∈ c.client.2.past) (h2 : .called k o ∈ c.client.2.past)
    (h3 : .ended k res ∈ c.client.2.past) (hres : res = .confirmed ∨ res = .refused) (ho : TsOutside cfg.workflow)
    (hap : ∀ d ∈ cfg.workflow.beacons, Apart ref d.reference) :
    res = .confirmed ∧ ∃ q x task newer mid older d ts, .sent (.call k o) (UInt32.toNat q) (.msg ref b) ∈ c.client.2.past ∧
      (run es .new).server.2.past = newer ++ .send (.answer task) u q .beacon :: (mid ++
        .beacon task u ref b q :: .got u x q :: older) ∧
      TsServer.IsA x ref ∧ x.body = b ∧ d ∈ cfg.workflow.beacons ∧ d.reference = ref ∧
      (ts, .server (.settled task .done)) ∈ es := by
  obtain ⟨es', hi⟩ := inv_run (growing_tsTs (cfg := cfg) (env := env) (opts := opts) (takes := takes) (down := down) (ccfg := ccfg) (cenv := cenv) (up := up)) es
  have hl := tsTs_law hi hc
  obtain ⟨l1, l2, e⟩ := List.append_of_mem h3
  have hl' := hl
  rw [e] at hl'
  obtain ⟨_, o', kind, b', k1, k2, k3⟩ := hl'.at
  have sub : ∀ a ∈ l2, a ∈ c.client.2.past := fun a ha => by rw [e]; simp [ha]
  cases TsClient.law_called_unique hl h2 (sub _ k1)
  obtain ⟨rfl, rfl⟩ := TsClient.law_created_unique hl h1 (sub _ k2)
  rcases hres with rfl | rfl
  · obtain ⟨q, m, k3, k4⟩ := k3
    cases k4 with
    | confirmed k4 =>
      obtain ⟨_, x, task, newer, mid, older, d, g1, g2, g3⟩ := tsTs_confirmed hi hf hs ha hc (sub _ k3) h1 k4 ho hap
      obtain ⟨ts, y, g4, g5⟩ := tsServer_decided es (t := task) (u := u) (q := q) (o := .beacon) (by rw [g2]; simp)
      obtain rfl : y = .done := by
        rcases g5 with ⟨_, _, _, _, g5⟩ | ⟨g5, _⟩
        · cases g5
        · exact g5
      obtain ⟨g6, g7, g8, g9⟩ := g3
      exact ⟨rfl, q, x, task, newer, mid, older, d, ts, g1, g2, g6, g7, g8, g9, g4⟩
  · obtain ⟨q, m, k3, k4⟩ := k3
    cases k4 with
    | refused k4 =>
      obtain ⟨k5, _⟩ := tsTs_confirmed hi hf hs ha hc (sub _ k3) h1 k4 ho hap
      cases k5

/-- The beacon is confirmed. -/
example : TsOutside wharfCfg.workflow ∧ (∀ d ∈ wharfCfg.workflow.beacons, Apart ['B'] d.reference) ∧
    ∃ c, (run wharfAll .new).find 1 = some c ∧
    c.client.2.past.any (fun | .ended 6 .confirmed => true | _ => false) = true :=
  ⟨wharf_outside, fun d hd => by rw [List.mem_singleton.1 hd]; exact single_apart 'B' 'B' (by decide) (by decide),
    wharf_sees _ (by decide +kernel)⟩

/-! ### C164 -/

/-- **C164** In every run: the messages of a TypeScript client the server looks at are messages the client
sent, unchanged, in the order and with the numbers the client gave them, each at most once. If the
messages can be decoded, none is left out. -/
theorem C164_calls_in_order (t : TsTerms)
    (es : List (UInt64 × Event (tsServer cfg env opts takes down) (tsClient ccfg cenv up)))
    (hf : Network.Framed (run es .new)) (hs : Network.Small (run es .new)) (ha : TsFaithful t (run es .new))
    {u : Network.Uuid} {c : Conn (tsClient ccfg cenv up)} (hc : (run es .new).find u = some c) :
    System.Sub (fun x y => x.1 = y.1.toNat ∧ TsSameUp t cfg x.2 y.2) (tsSents c.client.2.past) (tsHeard u (run es .new).server.2.past) ∧
    (TsReadable (run es .new) → System.Pairs (fun x y => x.1 = y.1.toNat ∧ TsSameUp t cfg x.2 y.2)
      ((tsSents c.client.2.past).take (tsHeard u (run es .new).server.2.past).length)
      (tsHeard u (run es .new).server.2.past)) := by
  obtain ⟨es', hi⟩ := inv_run (growing_tsTs (cfg := cfg) (env := env) (opts := opts) (takes := takes) (down := down) (ccfg := ccfg) (cenv := cenv) (up := up)) es
  have hl := tsTs_law hi hc
  have key : ∀ (x : Nat × TsClient.Out) (y : UInt32 × TsServer.Msg), x ∈ tsSents c.client.2.past →
      x.1.toUInt32 = y.1 ∧ System.Arrives up cfg.decoder x.1.toUInt32 x.2 y.2 → x.1 = y.1.toNat ∧ TsSameUp t cfg x.2 y.2 := by
    rintro ⟨q, o⟩ ⟨q', m⟩ hx ⟨h1, ts, h2⟩
    obtain ⟨w, hw⟩ := mem_tsSents.1 hx
    refine ⟨?_, ha.up u c hc w q o hw ts m h2⟩
    obtain ⟨a, b, e⟩ := List.append_of_mem hw
    rw [e] at hl
    have := (hl.at).2.1
    dsimp only at h1 ⊢
    rw [← h1]
    simp only [Nat.toUInt32_eq, UInt32.toNat_ofNat']
    omega
  refine ⟨?_, fun hr => ?_⟩
  · have h := tsTs_up hi hf hs hc
    rw [tsSent_sents] at h
    exact (Sub.of_map h).mono (fun x y hx _ => key x y hx)
  · obtain ⟨fs, more, h1, h2⟩ := frames_of_reads (hi.links u c hc).up (fun q o ho ts => hf.up u c hc q o ho ts) (tsTs_reads_up hi hs hc)
    have h3 := System.pairs_of_readable (d := cfg.decoder) h1 (by
      rintro ⟨q, o⟩ hx ts
      obtain ⟨w, k, h4, rfl⟩ := mem_tsSent.1 hx
      exact hr.up u c hc w k o h4 ts)
    rw [h2, show (tsClient ccfg cenv up).sent c.client = tsSent c.client.2.past from rfl, tsSent_sents] at h3
    have h4 := (Pairs.of_map h3).take
    exact h4.mono (fun x y hx => key x y (List.mem_of_mem_take hx))

/-- Five messages of the client were looked at. -/
example : (tsHeard 1 (run wharfAll .new).server.2.past).map Prod.fst = [1, 2, 3, 4, 5] := by decide +kernel

/-- **C164** In every run: the messages of the server a TypeScript client looks at are messages the server
sent to it, unchanged, in this order, each at most once. If the messages can be decoded, none is left
out. -/
theorem C164_answers_in_order (t : TsTerms)
    (es : List (UInt64 × Event (tsServer cfg env opts takes down) (tsClient ccfg cenv up)))
    (hf : Network.Framed (run es .new)) (hs : Network.Small (run es .new)) (ha : TsFaithful t (run es .new))
    {u : Network.Uuid} {c : Conn (tsClient ccfg cenv up)} (hc : (run es .new).find u = some c) :
    System.Sub (fun x y => x.1 = y.1 ∧ TsSameDown t x.2 y.2) (tsPosted takes u (run es .new).server.2.past)
      (TsClient.looked c.client.2.past) ∧
    (TsReadable (run es .new) → System.Pairs (fun x y => x.1 = y.1 ∧ TsSameDown t x.2 y.2)
      ((tsPosted takes u (run es .new).server.2.past).take (TsClient.looked c.client.2.past).length)
      (TsClient.looked c.client.2.past)) := by
  obtain ⟨es', hi⟩ := inv_run (growing_tsTs (cfg := cfg) (env := env) (opts := opts) (takes := takes) (down := down) (ccfg := ccfg) (cenv := cenv) (up := up)) es
  have key : ∀ (x : UInt32 × TsServer.Out) (y : UInt32 × TsServer.Msg), x ∈ tsPosted takes u (run es .new).server.2.past →
      x.1 = y.1 ∧ System.Arrives down ccfg.decoder x.1 x.2 y.2 → x.1 = y.1 ∧ TsSameDown t x.2 y.2 := by
    rintro ⟨q, o⟩ ⟨q', m⟩ hx ⟨h1, ts, h2⟩
    obtain ⟨f, hm⟩ := mem_tsPosted hx
    exact ⟨h1, ha.down f u q o hm ts m h2⟩
  refine ⟨(tsTs_down hi hf hs hc).mono (fun x y hx _ => key x y hx), fun hr => ?_⟩
  obtain ⟨k1, k2⟩ := tsTs_reads_down hi hs hc
  obtain ⟨fs, more, h1, h2⟩ := frames_of_reads k1 (tsTs_framed_down hf) k2
  have h3 := System.pairs_of_readable (d := ccfg.decoder) h1 (by
    rintro ⟨q, o⟩ hx ts
    obtain ⟨f, hm⟩ := mem_tsPosted hx
    exact hr.down f u q o hm ts)
  rw [h2] at h3
  exact h3.take.mono (fun x y hx => key x y (List.mem_of_mem_take hx))

/-- Six messages were sent and looked at. -/
example : (tsPosted (fun _ _ _ _ => true) 1 (run wharfAll .new).server.2.past).map Prod.fst = [1, 2, 4, 3, 0, 5] ∧
    ∃ c, (run wharfAll .new).find 1 = some c ∧ decide ((TsClient.looked c.client.2.past).map Prod.fst = [1, 2, 4, 3, 0, 5]) = true :=
  ⟨by decide +kernel, wharf_sees _ (by decide +kernel)⟩

/-- **C164** In every run: the numbers of the messages the server passes to the transport for a TypeScript
client differ, apart from number 0. So a message is answered at most once. -/
theorem C164_one_answer (es : List (UInt64 × Event (tsServer cfg env opts takes down) (tsClient ccfg cenv up)))
    (hf : Network.Framed (run es .new)) (hs : Network.Small (run es .new))
    {u : Network.Uuid} {c : Conn (tsClient ccfg cenv up)} (hc : (run es .new).find u = some c) :
    ((tsPosted (fun _ _ _ _ => true) u (run es .new).server.2.past).filter (fun x => x.1 ≠ 0)).Pairwise (fun a b => a.1 ≠ b.1) := by
  obtain ⟨es', hi⟩ := inv_run (growing_tsTs (cfg := cfg) (env := env) (opts := opts) (takes := takes) (down := down) (ccfg := ccfg) (cenv := cenv) (up := up)) es
  exact posted_distinct (tsTs_fine hi) (tsTs_increasing hi hf hs hc)

/-- **C164** In every run: the broadcasts a TypeScript client hands to user code are messages the server
sent to this client, in order, each one once. -/
theorem C164_broadcasts_from_server (t : TsTerms)
    (es : List (UInt64 × Event (tsServer cfg env opts takes down) (tsClient ccfg cenv up)))
    (hf : Network.Framed (run es .new)) (hs : Network.Small (run es .new)) (ha : TsFaithful t (run es .new))
    {u : Network.Uuid} {c : Conn (tsClient ccfg cenv up)} (hc : (run es .new).find u = some c)
    (hb : ∀ ref, TsClient.Broadcasts ccfg.workflow ref → Foreign ref) :
    System.Sub (fun (x : UInt32 × TsServer.Out) (y : Flow.Ref × TsServer.Js) => x.2 = .msg y.1 y.2)
      (tsPosted takes u (run es .new).server.2.past) (tsCasts c.client.2.past) := by
  obtain ⟨es', hi⟩ := inv_run (growing_tsTs (cfg := cfg) (env := env) (opts := opts) (takes := takes) (down := down) (ccfg := ccfg) (cenv := cenv) (up := up)) es
  refine (C164_answers_in_order t es hf hs ha hc).1.trans (tsCasts_looked (tsTs_law hi hc)).1 ?_
  rintro ⟨q, o⟩ ⟨q', m⟩ ⟨ref, b⟩ hx ⟨_, h2⟩ ⟨k1, k2, k3⟩
  dsimp only at h2 k1 k2 k3 ⊢
  have hfo := hb ref k3
  have no : ∀ name, IsService m name → False := by
    intro name hn
    refine hfo _ k1 ?_
    rw [hn]; rfl
  cases o with
  | msg ref' p =>
    obtain ⟨e1, e2⟩ := h2
    rw [spells_ref e1 k1, k2, e2]
  | selfKey => exact (no _ h2.1).elim
  | hash => exact (no _ h2.1).elim
  | beacon => exact (no _ h2.1).elim

/-- The broadcast `U` with 9 is handed to user code. -/
example : ∃ c, (run wharfAll .new).find 1 = some c ∧
    decide ((tsCasts c.client.2.past).map (fun x => (x.1, quayNum x.2)) = [(['U'], some 9)]) = true :=
  wharf_sees _ (by decide +kernel)

/-! ### C165 -/

/-- **C165** In every run: if a TypeScript client is ready, then protocol and workflow of the client are
those of the server, the id it is told is the one of its connection, and the server answered its self
key and, after that, its hashes. -/
theorem C165_handshake_with_server (t : TsTerms)
    (es : List (UInt64 × Event (tsServer cfg env opts takes down) (tsClient ccfg cenv up)))
    (hf : Network.Framed (run es .new)) (hs : Network.Small (run es .new)) (ha : TsFaithful t (run es .new))
    {u : Network.Uuid} {c : Conn (tsClient ccfg cenv up)} (hc : (run es .new).find u = some c) (ho : TsOutside cfg.workflow)
    {v : TsServer.Js} (h : .emitted (.ready v) ∈ c.client.2.past) :
    v = .str (t.name u) ∧ t.hashes = (cfg.protocolHash, cfg.workflowHash) ∧
    ∃ n q1 q2 m1 m2 newer mid older, .sent (.assign n true) (UInt32.toNat q1) .selfKey ∈ c.client.2.past ∧
      .sent (.hash n v) (UInt32.toNat q2) .hash ∈ c.client.2.past ∧
      (run es .new).server.2.past = newer ++ .send .handshake u q2 (.hash false) :: .got u m2 q2 :: (mid ++
        .send .handshake u q1 (.selfKey u) :: .got u m1 q1 :: older) ∧
      TsServer.IsA m1 cfg.selfKey ∧ IsService m2 "HashRequest" := by
  obtain ⟨es', hi⟩ := inv_run (growing_tsTs (cfg := cfg) (env := env) (opts := opts) (takes := takes) (down := down) (ccfg := ccfg) (cenv := cenv) (up := up)) es
  have hl := tsTs_law hi hc
  obtain ⟨l1, l2, e⟩ := List.append_of_mem h
  have hl' := hl
  rw [e] at hl'
  obtain ⟨n, h', q2, m2, rfl, k2, k3⟩ := hl'.at
  have d2 : .delivered (.hash n v) q2 m2 ∈ c.client.2.past := by rw [e]; simp [k2]
  obtain ⟨o2, f2, out2, x2, newer2, g2, s2, ⟨ts1, a1⟩, e2, an2, ⟨ts2, a2⟩⟩ := tsTs_answer hi hf hs hc d2
  obtain ⟨y1, y2, ey⟩ := List.append_of_mem s2
  have hly := hl
  rw [ey] at hly
  obtain ⟨_, b2, hlt, _, _, ⟨q1, m1, k4, k5⟩, rfl⟩ := hly.at
  have d1 : .delivered (.assign n true) q1 m1 ∈ c.client.2.past := by rw [ey]; simp [k4]
  obtain ⟨o1, f1, out1, x1, newer1, g1, s1, ⟨ts3, a3⟩, e1, an1, ⟨ts4, a4⟩⟩ := tsTs_answer hi hf hs hc d1
  -- the self key was sent before
  have hq : q1 < q2 := by
    have hly2 := (TsClient.Lawful.tail hly).2
    obtain ⟨z1, z2, ez⟩ := List.append_of_mem k4
    rw [ez] at hly2
    obtain ⟨⟨out, hz⟩, _⟩ := hly2.at
    have := hlt _ _ _ (show .sent (.assign n true) q1.toNat out ∈ y2 by rw [ez]; simp [hz])
    exact UInt32.lt_iff_toNat_lt.2 this
  obtain ⟨_, hcause, _⟩ := hl.cause s1
  obtain ⟨_, rfl⟩ := hcause
  have up1 := ha.up u c hc _ _ _ s1 ts3 x1 (by simpa using a3)
  have up2 := ha.up u c hc _ _ _ s2 ts1 x2 (by simpa using a1)
  have dn1 := ha.down f1 u q1 out1 (by rw [e1]; simp) ts4 m1 a4
  have dn2 := ha.down f2 u q2 out2 (by rw [e2]; simp) ts2 m2 a2
  obtain ⟨ps1, hk1, hk2⟩ := k5
  rw [selfKey_name] at hk1
  obtain ⟨bd, hh1, hh2⟩ := k3
  rw [hash_name] at hh1
  -- the answer to the self key
  have r1 : v = .str (t.name u) ∧ f1 = .handshake ∧ out1 = .selfKey u ∧ ∃ older, g1 = .got u x1 q1 :: older := by
    cases an1 with
    | selfKey =>
      obtain ⟨_, hb⟩ := service_same dn1.1 (by decide) hk1
      obtain ⟨_, ps, w1, w2⟩ := dn1
      rw [w1] at hb
      cases hb
      rw [w2] at hk2
      cases hk2
      exact ⟨rfl, rfl, rfl, _, rfl⟩
    | request w1 w2 w3 w4 => exact (foreign_service dn1.1 (ho _ w1 _ w3) hk1).elim
    | hash =>
      have := (service_same dn1.1 (by decide) hk1).1
      exact absurd this (by decide)
    | beacon =>
      have := (service_same dn1.1 (by decide) hk1).1
      exact absurd this (by decide)
  -- the answer to the hashes
  have r2 : t.hashes = (cfg.protocolHash, cfg.workflowHash) ∧ f2 = .handshake ∧ out2 = .hash false ∧
      ∃ older, g2 = .got u x2 q2 :: older := by
    cases an2 with
    | selfKey =>
      have := (service_same dn2.1 (by decide) hh1).1
      exact absurd this (by decide)
    | request w1 w2 w3 w4 => exact (foreign_service dn2.1 (ho _ w1 _ w3) hh1).elim
    | beacon =>
      have := (service_same dn2.1 (by decide) hh1).1
      exact absurd this (by decide)
    | @hash _ _ b e w1 w2 =>
      obtain ⟨_, rfl⟩ := service_same dn2.1 (by decide) hh1
      obtain ⟨_, ps, z1, z2, z3⟩ := dn2
      obtain rfl : e = false := z3.2 (hh2 ps z1)
      obtain ⟨ps', z4, z5, z6⟩ := w2.1 rfl
      obtain ⟨u1, qs, u2, u3, u4⟩ := up2
      have w1 := found_holds w1
      rw [hashRequest_name] at w1
      obtain ⟨_, u5⟩ := service_same u1 (by decide) w1
      rw [z4, u2] at u5
      cases u5
      rw [u3] at z5
      rw [u4] at z6
      injection z5 with z5
      injection z5 with z5
      injection z6 with z6
      injection z6 with z6
      exact ⟨Prod.ext z5 z6, rfl, rfl, _, rfl⟩
  obtain ⟨rfl, rfl, rfl, older1, rfl⟩ := r1
  obtain ⟨r3, rfl, rfl, older2, rfl⟩ := r2
  obtain ⟨mid, rfl⟩ := shakes_order (tsTs_increasing hi hf hs hc) hq (by simp) (by simp) e1 e2
  exact ⟨rfl, r3, n, q1, q2, x1, x2, newer2, mid, older1, s1, s2, e2, up1, up2.1⟩

/-- The client is ready with the id 1. -/
example : TsOutside wharfCfg.workflow ∧ ∃ c, (run wharfAll .new).find 1 = some c ∧
    c.client.2.past.any (fun | .emitted (.ready (.str v)) => v = [Char.ofNat 1] | _ => false) = true :=
  ⟨wharf_outside, wharf_sees _ (by decide +kernel)⟩

end Verif.Props
