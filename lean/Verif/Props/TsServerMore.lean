import Verif.Proofs.TsServerCasts
import Verif.Props.TsServer
import Verif.Props.TsStream
set_option autoImplicit false
/-!
Property theorems about the generated TypeScript server, second part: C83–C86, C88, C91–C93.
-/
namespace Verif.Props

open Verif Verif.Spec Verif.TsServer

/-! ### C83, C84: broadcasts -/

set_option maxRecDepth 20000 in
/-- **C83** violated: an accepted workflow declares a required broadcast for the only response of a
request; and whatever user code collected, a handler of a request with one action sends the response
and then has nothing to broadcast. -/
theorem C83_broadcasts_violated :
    (∃ w pr r, Flow.Parses flowProt soleText (.accepted w pr) ∧ r ∈ w.requests ∧ soleDeclared r ∧
      Requires r "G.R".toList ['B']) ∧
    ∀ (cfg : Cfg) (env : Env) (opts : Server.Options) (s : State) (t : Nat) (u : Uuid) (seq : UInt32)
      (r : Flow.Request) (body : Js) (calls : List Call), soleDeclared r →
      s.tasks.lookup t = some ⟨u, seq, .request r, .user⟩ →
      cfg.packs (.msg "G.R".toList body) = true →
      let s' := (step cfg env opts (.settled t (.answer "G.R".toList body calls)) s).2
      s'.past = .send (.answer t) u seq (.msg "G.R".toList body) :: s.past ∧
        s'.tasks.lookup t = some ⟨u, seq, .request r, .sending []⟩ := by
  refine ⟨⟨_, _, _, ⟨300, by rfl⟩, List.mem_cons_self, ⟨_, rfl, by rfl, by rfl, by rfl⟩,
    ⟨_, List.mem_cons_self, by rfl, List.mem_cons_self⟩⟩, ?_⟩
  rintro cfg env opts s t u seq r body calls ⟨a, ha, hr, _, _⟩ hl hp
  have he : "G.R".toList ∈ expectations r := by
    simp [expectations, ha, hr]
  have hlen : ¬ r.actions.length > 1 := by rw [ha]; simp
  simp only [step, hl, resume]
  rw [if_neg (fun h => h he), if_neg hlen]
  unfold sendAnswer
  rw [if_pos hp]
  exact ⟨rfl, wait_lookup hl⟩

/-- **C83** (partial) For requests with at least two actions: when user code concludes with a declared
response, either the response is sent, or nothing is sent, the handler ends, and this counts as an
error of the client. It is sent only with
all broadcasts that the response requires, only with broadcasts it allows, none twice, with receivers
and contents as user code gave them, and they stay with the handler. The full property is this for
all requests. -/
theorem C83_broadcasts_partial (cfg : Cfg) (env : Env) (opts : Server.Options) {s : State} {t : Nat}
    {u : Uuid} {seq : UInt32} {r : Flow.Request} {resp : Ref} {body : Js} {calls : List Call}
    (hl : s.tasks.lookup t = some ⟨u, seq, .request r, .user⟩) (h2 : 2 ≤ r.actions.length)
    (hr : ∀ a ∈ r.actions, a.response ≠ none)
    (hd : r.error = some resp ∨ ∃ a ∈ r.actions, a.response = some resp) :
    let s' := (step cfg env opts (.settled t (.answer resp body calls)) s).2
    (∃ casts : List Cast, s'.past = .send (.answer t) u seq (.msg resp body) :: s.past ∧
      s'.tasks.lookup t = some ⟨u, seq, .request r, .sending casts⟩ ∧
      (casts.map Prod.fst).Nodup ∧
      casts.map (fun x => (x.1.filter (· ≠ '.'), x.2)) = calls.map (fun c => (c.name, c.uuids, c.body)) ∧
      (∀ x ∈ casts, Allows r resp x.1) ∧ (∀ ref, Requires r resp ref → ∃ x ∈ casts, x.1 = ref)) ∨
    (Reacts opts.onError u s.past s'.past ∧
      ∃ l, s'.past = l ++ s.past ∧ (∀ a ∈ l, ∀ o v q x, a ≠ .send o v q x) ∧
      s'.tasks.lookup t = none) := by
  intro s'
  have he : resp ∈ expectations r := by
    unfold expectations
    rw [if_pos (show r.actions.length > 1 from h2), List.mem_append]
    rcases hd with hd | ⟨a, ha, hd⟩
    · right; rw [hd]; simp
    · left; exact List.mem_filterMap.2 ⟨a, ha, hd⟩
  have hfail : ∀ {e}, s' = (fail cfg env opts t ⟨u, seq, .request r, .user⟩ s).2 → e ∨
      (Reacts opts.onError u s.past s'.past ∧ ∃ l, s'.past = l ++ s.past ∧ (∀ a ∈ l, ∀ o v q x, a ≠ .send o v q x) ∧
        s'.tasks.lookup t = none) := by
    intro e h
    obtain ⟨⟨l, f1, f2⟩, f3⟩ := fail_mute (cfg := cfg) (env := env) (opts := opts) (t := t)
      (task := ⟨u, seq, .request r, .user⟩) s
    exact .inr ⟨by rw [h]; exact reacts_receivingErr (s.drop t), l, by rw [h, f1], f2, by rw [h, f3]⟩
  have hs : s' = ((match collect (requestMethods r) resp calls [] with
      | none => fail cfg env opts t ⟨u, seq, .request r, .user⟩
      | some casts =>
        if complete r resp casts then
          sendAnswer cfg env opts t ⟨u, seq, .request r, .user⟩ (.msg resp body) casts
        else fail cfg env opts t ⟨u, seq, .request r, .user⟩) s).2 := by
    show (step cfg env opts (.settled t (.answer resp body calls)) s).2 = _
    simp only [step, hl, resume]
    rw [if_neg (fun h => h he), if_pos (show r.actions.length > 1 from h2)]
    rfl
  cases hc : collect (requestMethods r) resp calls [] with
  | none => rw [hc] at hs; exact hfail hs
  | some casts =>
    rw [hc] at hs
    dsimp only at hs
    by_cases hcomp : complete r resp casts = true
    · rw [if_pos hcomp] at hs
      unfold sendAnswer at hs
      by_cases hp : cfg.packs (.msg resp body) = true
      · rw [if_pos hp] at hs
        obtain ⟨c1, c2, c3⟩ := collect_request hr hc
        refine .inl ⟨casts, by rw [hs]; rfl, by rw [hs]; exact wait_lookup hl, c1, c2, c3,
          complete_iff.1 hcomp⟩
      · rw [if_neg hp] at hs; exact hfail hs
    · rw [if_neg hcomp] at hs; exact hfail hs

/-- **C83** (partial), then: when the response is out, all broadcasts of the handler are delivered, in
order, each to all its receivers with sequence 0, and nothing else is sent. Provided that they can be
packed. -/
theorem C83_delivered_partial (cfg : Cfg) (env : Env) (opts : Server.Options) {s : State} {t : Nat}
    {task : Task} {casts : List Cast} (hl : s.tasks.lookup t = some task)
    (hph : task.phase = .sending casts) (hp : ∀ x ∈ casts, cfg.packs (.msg x.1 x.2.2) = true) :
    ∃ l, (step cfg env opts (.settled t (.sent true)) s).2.past =
        l ++ (deliveries t casts).reverse ++ s.past ∧ ∀ a ∈ l, ∀ o v q x, a ≠ .send o v q x := by
  have e : (step cfg env opts (.settled t (.sent true)) s).2 =
      (broadcastAll cfg env opts t task casts s).2 := by
    obtain ⟨u, seq, job, phase⟩ := task
    cases hph
    simp only [step, hl, resume]
  rw [e]
  exact broadcastAll_ok hp s

/-- **C83** (partial), events: when user code is done with an event, either all its broadcasts are
delivered, among them every required one of the event and only such of the event; or nothing is sent.
Provided that they can be packed. -/
theorem C83_event_partial (cfg : Cfg) (env : Env) (opts : Server.Options) {s : State} {t : Nat}
    {u : Uuid} {seq : UInt32} {e : Flow.Event} {calls : List Call}
    (hl : s.tasks.lookup t = some ⟨u, seq, .event e, .user⟩) (hp : ∀ o, cfg.packs o = true) :
    ∃ casts l, (step cfg env opts (.settled t (.output calls)) s).2.past =
        l ++ (deliveries t casts).reverse ++ s.past ∧ (∀ a ∈ l, ∀ o v q x, a ≠ .send o v q x) ∧
      (casts = [] ∨
        casts.map (fun x => (x.1.filter (· ≠ '.'), x.2)) =
          calls.map (fun c => (c.name, c.uuids, c.body)) ∧
        (∀ x ∈ casts, ∃ b ∈ e.broadcasts, b.reference = x.1) ∧
        ∀ ref, ⟨ref, false⟩ ∈ e.broadcasts → ∃ x ∈ casts, x.1 = ref) := by
  have hfail : ∀ (casts : List Cast), ∃ l, (fail cfg env opts t ⟨u, seq, .event e, .user⟩ s).2.past =
      l ++ (deliveries t []).reverse ++ s.past ∧ ∀ a ∈ l, ∀ o v q x, a ≠ .send o v q x := by
    intro _
    obtain ⟨⟨l, f1, f2⟩, _⟩ := fail_mute (cfg := cfg) (env := env) (opts := opts) (t := t)
      (task := ⟨u, seq, .event e, .user⟩) s
    exact ⟨l, by simpa [deliveries] using f1, f2⟩
  have hs : (step cfg env opts (.settled t (.output calls)) s).2 =
      ((match collect (eventMethods e) [] calls [] with
      | none => fail cfg env opts t ⟨u, seq, .event e, .user⟩
      | some casts =>
        if covers e.broadcasts casts then broadcastAll cfg env opts t ⟨u, seq, .event e, .user⟩ casts
        else fail cfg env opts t ⟨u, seq, .event e, .user⟩) s).2 := by
    simp only [step, hl, resume]
    rfl
  rw [hs]
  cases hc : collect (eventMethods e) [] calls [] with
  | none =>
    obtain ⟨l, f1, f2⟩ := hfail []
    exact ⟨[], l, f1, f2, .inl rfl⟩
  | some casts =>
    dsimp only
    by_cases hcov : covers e.broadcasts casts = true
    · rw [if_pos hcov]
      obtain ⟨l, f1, f2⟩ := broadcastAll_ok (cfg := cfg) (env := env) (opts := opts) (t := t)
        (task := ⟨u, seq, .event e, .user⟩) (casts := casts) (fun x _ => hp _) s
      obtain ⟨c1, c2⟩ := collect_event hc
      exact ⟨casts, l, f1, f2, .inr ⟨c1, c2, covers_iff.1 hcov⟩⟩
    · rw [if_neg hcov]
      obtain ⟨l, f1, f2⟩ := hfail []
      exact ⟨[], l, f1, f2, .inl rfl⟩

/-- The handler of the witness waits for user code after its message. -/
theorem yardWaits : ∃ s, run yardCfg yardEnv yardOpts (yardOpen ++ [.received 1 (shopFrame 3 10).bytes]) .new =
    (false, s) ∧ s.tasks.lookup 1 = some ⟨1, 10, .request shopRequest, .user⟩ := by
  rw [run_append yardOpen_run]
  exact ⟨_, rfl, rfl⟩

set_option maxRecDepth 20000 in
/-- Without the required broadcast the response is not sent, and the client is dropped. -/
example : (run yardCfg yardEnv yardOpts (yardOpen ++ [.received 1 (shopFrame 3 10).bytes,
    .settled 1 (.answer ['R'] .other [⟨[2], ['V'], .other⟩])]) .new).2.past =
    [.error (some 1), .drop 1, .respond 1 1 ['Q'] (.obj []) 10, .got 1 ⟨[['Q']], .obj []⟩ 10, .chunk 1] ++
      yardPast := by
  rw [run_append yardOpen_run]
  rfl

example : 2 ≤ shopRequest.actions.length ∧ (∀ a ∈ shopRequest.actions, a.response ≠ none) ∧
    (∃ a ∈ shopRequest.actions, a.response = some ['R']) ∧ Requires shopRequest ['R'] ['U'] := by
  refine ⟨by decide, by simp [shopRequest], ⟨_, List.mem_cons_self, rfl⟩,
    _, List.mem_cons_self, rfl, List.mem_cons_self⟩

/-- A workflow with a request whose two conclusions have the same response. -/
def twinText : List Char := "G.Q !E { (Y > G.R) > B; (N > G.R) > E; }".toList

/-- The request of `twinText`. -/
def twinDeclared (r : Flow.Request) : Prop :=
  ∃ a b, r.actions = [a, b] ∧ a.response = some "G.R".toList ∧ b.response = some "G.R".toList ∧
    a.broadcast = [⟨['B'], false⟩] ∧ b.broadcast = [⟨['E'], false⟩]

set_option maxRecDepth 20000 in
/-- **C84** violated: an accepted workflow has two conclusions with the same response and one broadcast
each; a handler that concludes with the first one and gives exactly its broadcast ends without
sending the response. -/
theorem C84_answerable_violated :
    (∃ w pr r, Flow.Parses flowProt twinText (.accepted w pr) ∧ r ∈ w.requests ∧ twinDeclared r) ∧
    ∀ (cfg : Cfg) (env : Env) (opts : Server.Options) (s : State) (t : Nat) (u : Uuid) (seq : UInt32)
      (r : Flow.Request) (body : Js) (us : List Uuid) (x : Js), twinDeclared r →
      s.tasks.lookup t = some ⟨u, seq, .request r, .user⟩ →
      let s' := (step cfg env opts (.settled t (.answer "G.R".toList body [⟨us, ['B'], x⟩])) s).2
      (∃ l, s'.past = l ++ s.past ∧ ∀ a ∈ l, ∀ o v q x, a ≠ .send o v q x) ∧
        s'.tasks.lookup t = none := by
  refine ⟨⟨_, _, _, ⟨300, by rfl⟩, List.mem_cons_self, ⟨_, _, rfl, by rfl, by rfl, by rfl, by rfl⟩⟩, ?_⟩
  rintro cfg env opts s t u seq r body us x ⟨a, b, ha, h1, h2, h3, h4⟩ hl s'
  have := C83_broadcasts_partial cfg env opts (body := body) (calls := [⟨us, ['B'], x⟩]) hl
    (by rw [ha]; simp) (by rw [ha]; simp [h1, h2]) (resp := "G.R".toList)
    (.inr ⟨a, by rw [ha]; simp, h1⟩)
  rcases this with ⟨casts, _, _, _, c2, c3, c4⟩ | ⟨_, l, c1, c2, c3⟩
  · exfalso
    obtain ⟨y, hy, e⟩ := c4 ['E'] ⟨b, by rw [ha]; simp, h2, by rw [h4]; simp⟩
    have hm := List.mem_map_of_mem (f := fun x : Cast => (x.1.filter (· ≠ '.'), x.2)) hy
    rw [c2, e] at hm
    simp at hm
  · exact ⟨⟨l, c1, c2⟩, c3⟩

/-- **C84** (partial) For requests with at least two actions, if the response of an action belongs to
no other action and the names of the broadcasts differ without their dots: whatever broadcasts of the
action user code gives, none twice and all required ones, the response is sent and exactly these
broadcasts stay with the handler. The full property has no condition on responses. -/
theorem C84_answerable_partial (cfg : Cfg) (env : Env) (opts : Server.Options) {s : State} {t : Nat}
    {u : Uuid} {seq : UInt32} {r : Flow.Request} {a : Flow.Action} {resp : Ref} {body : Js}
    {casts : List Cast} (hl : s.tasks.lookup t = some ⟨u, seq, .request r, .user⟩)
    (h2 : 2 ≤ r.actions.length) (ha : a ∈ r.actions) (hr : a.response = some resp)
    (own : ∀ b ∈ r.actions, b.response = some resp → b = a)
    (names : ((r.actions.flatMap Flow.Action.broadcast).map
      (fun b => b.reference.filter (· ≠ '.'))).Nodup)
    (once : (casts.map Prod.fst).Nodup)
    (allowed : ∀ x ∈ casts, ∃ b ∈ a.broadcast, b.reference = x.1)
    (required : ∀ ref, ⟨ref, false⟩ ∈ a.broadcast → ∃ x ∈ casts, x.1 = ref)
    (hp : cfg.packs (.msg resp body) = true) :
    let s' := (step cfg env opts (.settled t (.answer resp body
      (casts.map (fun x => ⟨x.2.1, x.1.filter (· ≠ '.'), x.2.2⟩)))) s).2
    s'.past = .send (.answer t) u seq (.msg resp body) :: s.past ∧
      s'.tasks.lookup t = some ⟨u, seq, .request r, .sending casts⟩ := by
  intro s'
  have he : resp ∈ expectations r := by
    unfold expectations
    rw [if_pos (show r.actions.length > 1 from h2), List.mem_append]
    left; exact List.mem_filterMap.2 ⟨a, ha, hr⟩
  have hc : collect (requestMethods r) resp
      (casts.map (fun x => ⟨x.2.1, x.1.filter (· ≠ '.'), x.2.2⟩)) [] = some casts := by
    refine collect_all (.inr rfl) (by rw [methods_names]; exact names) casts [] (fun x hx => ?_) once
    obtain ⟨b, hb, e⟩ := allowed x hx
    exact requestMethods_mem.2 ⟨a, ha, b, hb, rfl, e, hr⟩
  have hcomp : complete r resp casts = true := by
    rw [complete_iff]
    rintro ref ⟨b, hb, h3, h4⟩
    rw [own b hb h3] at h4
    exact required ref h4
  have hs : s' = (sendAnswer cfg env opts t ⟨u, seq, .request r, .user⟩ (.msg resp body) casts s).2 := by
    show (step cfg env opts (.settled t (.answer resp body _)) s).2 = _
    simp only [step, hl, resume]
    rw [if_neg (fun h => h he), if_pos (show r.actions.length > 1 from h2), hc]
    dsimp only
    rw [if_pos hcomp]
  unfold sendAnswer at hs
  rw [if_pos hp] at hs
  rw [hs]
  exact ⟨rfl, wait_lookup hl⟩

/-- The first conclusion of the witness with its required broadcast. -/
example : (∀ b ∈ shopRequest.actions, b.response = some ['R'] →
      b = ⟨some ['Y'], some ['R'], [⟨['U'], false⟩, ⟨['V'], true⟩], [], false⟩) ∧
    ((shopRequest.actions.flatMap Flow.Action.broadcast).map
      (fun b => b.reference.filter (· ≠ '.'))).Nodup := by
  refine ⟨?_, by decide⟩
  intro b hb h
  simp only [shopRequest, List.mem_cons, List.not_mem_nil, or_false] at hb
  rcases hb with rfl | rfl
  · rfl
  · cases h

/-- **C84** (partial), events: if the names of the broadcasts differ without their dots, whatever
broadcasts of the event user code gives, none twice and all required ones, they are delivered. -/
theorem C84_event_partial (cfg : Cfg) (env : Env) (opts : Server.Options) {s : State} {t : Nat}
    {u : Uuid} {seq : UInt32} {e : Flow.Event} {casts : List Cast}
    (hl : s.tasks.lookup t = some ⟨u, seq, .event e, .user⟩)
    (names : (e.broadcasts.map (fun b => b.reference.filter (· ≠ '.'))).Nodup)
    (once : (casts.map Prod.fst).Nodup)
    (allowed : ∀ x ∈ casts, ∃ b ∈ e.broadcasts, b.reference = x.1)
    (required : ∀ ref, ⟨ref, false⟩ ∈ e.broadcasts → ∃ x ∈ casts, x.1 = ref)
    (hp : ∀ x ∈ casts, cfg.packs (.msg x.1 x.2.2) = true) :
    ∃ l, (step cfg env opts (.settled t (.output
      (casts.map (fun x => ⟨x.2.1, x.1.filter (· ≠ '.'), x.2.2⟩)))) s).2.past =
        l ++ (deliveries t casts).reverse ++ s.past ∧ ∀ a ∈ l, ∀ o v q x, a ≠ .send o v q x := by
  have hc : collect (eventMethods e) []
      (casts.map (fun x => ⟨x.2.1, x.1.filter (· ≠ '.'), x.2.2⟩)) [] = some casts := by
    refine collect_all (only := none) (.inl rfl) ?_ casts [] (fun x hx => ?_) once
    · rw [show (eventMethods e).map Prod.fst = e.broadcasts.map (fun b => b.reference.filter (· ≠ '.')) from
        by unfold eventMethods; rw [List.map_map]; rfl]
      exact names
    · obtain ⟨b, hb, h⟩ := allowed x hx
      exact List.mem_map.2 ⟨b, hb, by rw [← h]⟩
  have hs : (step cfg env opts (.settled t (.output
      (casts.map (fun x => ⟨x.2.1, x.1.filter (· ≠ '.'), x.2.2⟩)))) s).2 =
      (broadcastAll cfg env opts t ⟨u, seq, .event e, .user⟩ casts s).2 := by
    simp only [step, hl, resume]
    rw [hc]
    dsimp only
    rw [if_pos (covers_iff.2 required)]
  rw [hs]
  exact broadcastAll_ok hp s

example : (([⟨"G.U".toList, false⟩, ⟨['V'], true⟩] : List Flow.Broadcast).map
    (fun b => b.reference.filter (· ≠ '.'))).Nodup := by decide

/-! ### C85: other clients -/

/-- **C85** violated: client 1 sends one frame with another signature, and the server never gets to
anything else; client 2 did nothing wrong. -/
theorem C85_survives_violated : ∃ (cfg : Cfg) (env : Env) (opts : Server.Options) (is : List Input)
    (bytes : Bytes), (run cfg env opts is .new).1 = false ∧
      ∀ js, (run cfg env opts (is ++ .received 1 bytes :: js) .new).1 = true := by
  have hr : run yardCfg yardEnv yardOpts [.connected 1, .connected 2] .new =
      (false, (run yardCfg yardEnv yardOpts [.connected 1, .connected 2] .new).2) := rfl
  refine ⟨yardCfg, yardEnv, yardOpts, [.connected 1, .connected 2], foreignFrame.bytes, rfl, fun js => ?_⟩
  rw [run_append hr]
  have : (step yardCfg yardEnv yardOpts (.received 1 foreignFrame.bytes)
      (run yardCfg yardEnv yardOpts [.connected 1, .connected 2] .new).2).1 = .hung := by
    rw [step_hung]
    refine ⟨1, _, Consumer.new, rfl, rfl, rfl, ?_⟩
    exact Ts.chunk_hangs yardCfg.decoder _ _ [] (by simp) foreignFrame
      ⟨⟨rfl, by decide⟩, by decide⟩ [] (by simp [Consumer.new, Rust.Reader.new, stream])
  unfold run
  split
  · rfl
  · rename_i h1 h2
    rw [h2] at this
    exact absurd this h1

/-- **C85** (partial) The server stops working only in one way: a connected client that user code has
not declared discredited sent frames the reader can take off, followed by a complete frame with a
foreign signature. The full property has no such exception. -/
theorem C85_survives_partial (cfg : Cfg) (env : Env) (opts : Server.Options) {i : Input} {s : State}
    (hb : ∀ u bytes c, i = .received u bytes → s.find u = some c →
      c.reader.buffer.length + bytes.length < 2 ^ 64) :
    (step cfg env opts i s).1 = .hung ↔ ∃ u bytes c, i = .received u bytes ∧ s.find u = some c ∧
      c.discredited = false ∧ ∃ fs f rest, (∀ g ∈ fs, Readable cfg.decoder g) ∧ Foreign cfg.decoder f ∧
        c.reader.buffer ++ bytes = stream fs ++ (f.bytes ++ rest) := by
  rw [step_hung]
  constructor
  · rintro ⟨u, bytes, c, h1, h2, h3, h4⟩
    refine ⟨u, bytes, c, h1, h2, h3, Classical.byContradiction fun hn => ?_⟩
    obtain ⟨e, r', h⟩ := (C16_ts_returns_partial cfg.decoder c.reader bytes (hb u bytes c h1 h2)).2 hn
    exact h4 e r' h
  · rintro ⟨u, bytes, c, h1, h2, h3, h4⟩
    refine ⟨u, bytes, c, h1, h2, h3, fun e r' h => ?_⟩
    exact (C16_ts_returns_partial cfg.decoder c.reader bytes (hb u bytes c h1 h2)).1 ⟨e, r', h⟩ h4

/-- **C85** (partial), isolation: whatever bytes a client sends, in whatever state of the server: no
client appears or disappears, running handlers stay, only code for messages of this client starts,
only this client is dropped or gets handshake answers, and the record of another client changes only
by user code, which cannot touch its reader and its hash. -/
theorem C85_isolation_partial (cfg : Cfg) (env : Env) (opts : Server.Options) (u : Uuid)
    (bytes : Bytes) (s : State) :
    let s' := (step cfg env opts (.received u bytes) s).2
    (∀ v, (s'.find v).isSome = (s.find v).isSome) ∧ (∃ ts, s'.tasks = s.tasks ++ ts) ∧
    ∃ l, s'.past = l ++ s.past ∧ (∀ a ∈ l, Concerns u a ∨ ∃ v, Changes v a) ∧
      ∀ v, v ≠ u → ∀ c, s.find v = some c →
        (∃ d, s'.find v = some d ∧ d.reader = c.reader ∧ d.hash = c.hash) ∧
        ((∀ a ∈ l, ¬ Changes v a) → s'.find v = some c) := by
  obtain ⟨l, h⟩ := frames_received (cfg := cfg) (env := env) (opts := opts) (u := u) (bytes := bytes) s
  refine ⟨fun v => h.same v (fun k => k), adds_received cfg env opts u bytes s, l, h.past, h.acts, ?_⟩
  intro v hv c hc
  obtain ⟨d, h1, h2⟩ := h.still v hv c hc
  refine ⟨⟨d, h1, h2.reader, h2.hash⟩, fun hn => ?_⟩
  rw [← h2.same hn]
  exact h1

set_option maxRecDepth 20000 in
/-- Client 2 sends a message before its handshake and is dropped; client 1 is served. -/
example : (run yardCfg yardEnv yardOpts (yardOpen ++ [.connected 2, .received 2 (shopFrame 3 1).bytes,
    .received 1 (shopFrame 3 10).bytes]) .new).2.past =
    [.respond 2 1 ['Q'] (.obj []) 10, .got 1 ⟨[['Q']], .obj []⟩ 10, .chunk 1, .error (some 2), .drop 2,
      .got 2 ⟨[['Q']], .obj []⟩ 1, .chunk 2, .event 1 "connected".toList, .opened 2] ++ yardPast := by
  rw [run_append yardOpen_run]
  rfl

/-! ### C86: all messages of a piece of data -/

set_option maxRecDepth 20000 in
/-- **C86** violated: a message that is in no workflow and a request arrive together; the request is
read, and left in the queue, though the strategy is only to log. -/
theorem C86_all_looked_at_violated : ∃ (cfg : Cfg) (env : Env) (opts : Server.Options)
    (is : List Input) (c : Consumer) (m : Msg) (seq : UInt32),
    opts.onError = .log ∧ (run cfg env opts is .new).1 = false ∧
    (run cfg env opts is .new).2.find 1 = some c ∧ c.reader.buffer = [] ∧
    c.reader.queue.map (fun x => (x.msg, x.header.sequence)) = [(m, seq)] ∧ IsA m ['Q'] ∧
    ∀ q, .got 1 m q ∉ (run cfg env opts is .new).2.past := by
  have h : run yardCfg yardEnv ⟨.disconnect, .log⟩ yardOpen .new = (false, yardReady) := rfl
  refine ⟨yardCfg, yardEnv, ⟨.disconnect, .log⟩,
    yardOpen ++ [.received 1 ((shopFrame 7 11).bytes ++ (shopFrame 3 12).bytes)],
    ⟨⟨[], [⟨(shopFrame 3 12).hdr, ⟨[['Q']], .obj []⟩⟩]⟩, some (.obj []), none, false, true⟩,
    ⟨[['Q']], .obj []⟩, 12, rfl, ?_⟩
  rw [run_append h]
  refine ⟨rfl, rfl, rfl, rfl, ⟨by simp, rfl⟩, fun q hq => ?_⟩
  have e : (run yardCfg yardEnv ⟨.disconnect, .log⟩
      [.received 1 ((shopFrame 7 11).bytes ++ (shopFrame 3 12).bytes)] yardReady).2.past =
      .got 1 ⟨[['X']], .obj []⟩ 11 :: .chunk 1 :: yardPast := rfl
  rw [e] at hq
  simp [yardPast, yardHash] at hq

/-- **C86** (partial) If the data of a client can be read, its messages are some self keys before the
hash was accepted, and then hash requests and messages of the workflow; user code does not throw and
handshake answers can be packed: then all messages are looked at, in order. The full property is
this for any messages. -/
theorem C86_all_looked_at_partial (cfg : Cfg) (env : Env) (opts : Server.Options) {u : Uuid}
    {s : State} {c : Consumer} {bytes : Bytes} {r : Rust.Reader Msg} {ks ms : List (Rust.Income Msg)}
    (hc : s.find u = some c) (hd : c.discredited = false)
    (hr : Ts.Chunk cfg.decoder c.reader bytes (.returned []) r) (hq : r.queue = ks ++ ms)
    (hk : ∀ m ∈ ks, c.hash = false ∧ ∃ k, Found m.msg cfg.selfKey k)
    (hm : ∀ m ∈ ms, (∃ b, Found m.msg "InternalServiceGroup.HashRequest".toList b) ∨
      (∃ r ∈ cfg.workflow.requests, ∃ ref b, r.request = some ref ∧ Found m.msg ref b) ∨
      ∃ x ∈ cfg.workflow.beacons, ∃ b, Found m.msg x.reference b)
    (ht : ∀ s a, env.throws s a = false) (hp : cfg.packs (.selfKey u) = true)
    (hp' : ∀ e, cfg.packs (.hash e) = true) :
    gots u (step cfg env opts (.received u bytes) s).2.past =
      (r.queue.map (fun m => (m.msg, m.header.sequence))).reverse ++ gots u s.past := by
  have e : step cfg env opts (.received u bytes) s =
      onMessages cfg env opts u r.queue ((s.push (.chunk u)).set u { c with reader := r }) := by
    show received cfg env opts u bytes s = _
    unfold received
    dsimp only
    rw [find_push, hc]
    dsimp only
    rw [hd, (readChunk_iff _ _ _ _ _).2 hr]
    rfl
  have hn := onMessages_next (cfg := cfg) (env := env) (opts := opts) (u := u) ⟨ht, hp, hp'⟩ ks ms
    ((s.push (.chunk u)).set u { c with reader := r }) { c with reader := r }
    (find_set_self (d := c) hc) hk hm
  rw [← hq] at hn
  rw [e, onMessages_gots _ _ hn]
  rfl

/-- The whole handshake and a request in one piece. -/
example : ∃ r, Ts.Chunk yardCfg.decoder .new ((shopFrame 1 0).bytes ++ ((shopFrame 2 1).bytes ++
    (shopFrame 3 10).bytes)) (.returned []) r ∧
    r.queue = [⟨(shopFrame 1 0).hdr, ⟨[['K']], .obj []⟩⟩] ++ [⟨(shopFrame 2 1).hdr, yardHash 'p'⟩,
      ⟨(shopFrame 3 10).hdr, ⟨[['Q']], .obj []⟩⟩] :=
  ⟨⟨[], _⟩, ⟨5, rfl⟩, rfl⟩

/-! ### C88: a client is served -/

/-- **C88** A client that connects and sends self key, hash request with the right hashes, and a
declared request, as three separate pieces of data, is answered twice and then its request reaches the
handler, whatever happens in between: any number of other clients may connect, disconnect and send
any data; user code may do anything but declare the client discredited. Provided the server does
not hang and the answers can be packed. -/
theorem C88_client_served (cfg : Cfg) (env : Env) (opts : Server.Options) {u : Uuid}
    {pre mid0 mid1 mid2 post : List Input} {f1 f2 f3 : Frame} {m1 m2 m3 : Msg} {k b : Js}
    {ps : List (Name × Js)} {ref : Ref} {r : Flow.Request}
    (off : ¬ Online u (run cfg env opts pre .new).2.past)
    (aside : ∀ x ∈ mid0 ++ mid1 ++ mid2,
      x ≠ .connected u ∧ x ≠ .disconnected u ∧ ∀ b, x ≠ .received u b)
    (ok : f1.Ok ∧ f2.Ok ∧ f3.Ok)
    (sig : f1.hdr.signature = cfg.decoder.signature ∧ f2.hdr.signature = cfg.decoder.signature ∧
      f3.hdr.signature = cfg.decoder.signature)
    (d1 : cfg.decoder.getMsg f1.hdr.id f1.body = .ok m1) (k1 : Found m1 cfg.selfKey k)
    (d2 : cfg.decoder.getMsg f2.hdr.id f2.body = .ok m2)
    (k2 : Found m2 "InternalServiceGroup.HashRequest".toList (.obj ps))
    (n2 : ∀ k, ¬ Found m2 cfg.selfKey k)
    (hp : ps.lookup "protocol".toList = some (.str cfg.protocolHash))
    (hw : ps.lookup "workflow".toList = some (.str cfg.workflowHash))
    (d3 : cfg.decoder.getMsg f3.hdr.id f3.body = .ok m3) (k3 : Found m3 ref b)
    (n3 : ∀ k, ¬ Found m3 "InternalServiceGroup.HashRequest".toList k)
    (hr : r ∈ cfg.workflow.requests) (hn : r.request = some ref)
    (only : ∀ r' ∈ cfg.workflow.requests, ∀ ref' b', r'.request = some ref' → Found m3 ref' b' →
      ref' = ref)
    (packs : cfg.packs (.selfKey u) = true ∧ cfg.packs (.hash false) = true)
    (runs : (run cfg env opts (pre ++ (.connected u :: (mid0 ++ (.received u f1.bytes :: (mid1 ++
      (.received u f2.bytes :: (mid2 ++ (.received u f3.bytes :: post)))))))) .new).1 = false)
    (kept : .discredited u ∉ (run cfg env opts (pre ++ (.connected u :: (mid0 ++ (.received u f1.bytes ::
      (mid1 ++ (.received u f2.bytes :: (mid2 ++ (.received u f3.bytes :: post)))))))) .new).2.past) :
    ∃ newer older t, (run cfg env opts (pre ++ (.connected u :: (mid0 ++ (.received u f1.bytes :: (mid1 ++
      (.received u f2.bytes :: (mid2 ++ (.received u f3.bytes :: post)))))))) .new).2.past =
        newer ++ .respond t u ref b f3.hdr.sequence :: older ∧
      .send .handshake u f1.hdr.sequence (.selfKey u) ∈ older ∧
      .send .handshake u f2.hdr.sequence (.hash false) ∈ older :=
  client_served off (fun x hx => by
      obtain ⟨h1, h2, h3⟩ := aside x hx
      intro e
      cases x with
      | connected v => exact h1 (by rw [Option.some.inj e])
      | disconnected v => exact h2 (by rw [Option.some.inj e])
      | received v b => exact h3 b (by rw [Option.some.inj e])
      | _ => cases e)
    ok sig d1 k1 d2 k2 n2 hp hw d3 k3 n3 hr hn only packs runs kept

/-- Another client is dropped in between. -/
def crossRun : List Input :=
  [.connected 2] ++ (.connected 1 :: ([] ++ (.received 1 (shopFrame 1 0).bytes ::
    ([.received 2 (shopFrame 3 0).bytes] ++ (.received 1 (shopFrame 2 1).bytes ::
      ([.disconnected 2] ++ (.received 1 (shopFrame 3 10).bytes :: [])))))))

/-- What happens up to the second piece of data. -/
def crossPast : List Act :=
  [.error (some 2), .drop 2, .got 2 ⟨[['Q']], .obj []⟩ 0, .chunk 2,
    .send .handshake 1 0 (.selfKey 1), .got 1 ⟨[['K']], .obj []⟩ 0, .chunk 1,
    .event 1 "connected".toList, .opened 1, .event 0 "connected".toList, .opened 2]

/-- The state then. -/
def crossMid : State :=
  ⟨[(2, .new), (1, ⟨⟨[], []⟩, some (.obj []), none, false, false⟩)],
    [(0, ⟨0, 0, .event ⟨some "connected".toList, [], [], .nothing, true⟩, .user⟩),
      (1, ⟨0, 0, .event ⟨some "connected".toList, [], [], .nothing, true⟩, .user⟩)], 2, crossPast⟩

set_option maxRecDepth 20000 in
theorem crossMid_run : run yardCfg yardEnv yardOpts [.connected 2, .connected 1,
    .received 1 (shopFrame 1 0).bytes, .received 2 (shopFrame 3 0).bytes] .new = (false, crossMid) := by
  rfl

set_option maxRecDepth 20000 in
theorem crossRun_past : ∃ s, run yardCfg yardEnv yardOpts crossRun .new = (false, s) ∧ s.past =
    [.respond 3 1 ['Q'] (.obj []) 10, .got 1 ⟨[['Q']], .obj []⟩ 10, .chunk 1,
      .event 2 "disconnected".toList, .closed 2, .send .handshake 1 1 (.hash false),
      .got 1 (yardHash 'p') 1, .chunk 1] ++ crossPast := by
  have e : crossRun = [.connected 2, .connected 1,
    .received 1 (shopFrame 1 0).bytes, .received 2 (shopFrame 3 0).bytes] ++
      [.received 1 (shopFrame 2 1).bytes, .disconnected 2, .received 1 (shopFrame 3 10).bytes] := rfl
  rw [e, run_append crossMid_run]
  exact ⟨_, rfl, rfl⟩

example : ∃ newer older t, (run yardCfg yardEnv yardOpts crossRun .new).2.past =
        newer ++ .respond t 1 ['Q'] (.obj []) 10 :: older ∧
      .send .handshake 1 0 (.selfKey 1) ∈ older ∧ .send .handshake 1 1 (.hash false) ∈ older := by
  have no : ∀ {m : Msg} {ref : Ref}, m.extract ref = none → ∀ k, ¬ Found m ref k := by
    intro m ref h k hk
    rw [(extract_iff _ _ _).2 hk] at h
    cases h
  unfold crossRun
  refine C88_client_served yardCfg yardEnv yardOpts (u := 1) (pre := [.connected 2]) (mid0 := [])
    (mid1 := [.received 2 (shopFrame 3 0).bytes]) (mid2 := [.disconnected 2]) (post := []) (f1 := shopFrame 1 0)
    (f2 := shopFrame 2 1) (f3 := shopFrame 3 10) (r := shopRequest) (m1 := ⟨[['K']], .obj []⟩)
    (m2 := yardHash 'p') (m3 := ⟨[['Q']], .obj []⟩) (k := .obj []) (b := .obj [])
    ?_ ?_ ?_ ⟨rfl, rfl, rfl⟩ rfl ((extract_iff _ _ _).1 rfl) rfl ((extract_iff _ _ _).1 rfl) (no rfl)
    rfl rfl rfl ((extract_iff _ _ _).1 rfl) (no rfl) List.mem_cons_self rfl ?_ ⟨rfl, rfl⟩ ?_ ?_
  · rintro ⟨h, _⟩
    have e : (run yardCfg yardEnv yardOpts [.connected 2] .new).2.past =
      [.event 0 "connected".toList, .opened 2] := rfl
    rw [e] at h
    simp at h
  · intro x hx
    simp only [List.nil_append, List.cons_append, List.mem_cons, List.not_mem_nil, or_false] at hx
    rcases hx with rfl | rfl
    · exact ⟨by simp, by simp, by simp⟩
    · exact ⟨by simp, by simp, by simp⟩
  · exact ⟨⟨rfl, by decide⟩, ⟨rfl, by decide⟩, ⟨rfl, by decide⟩⟩
  · intro r' hr' ref' b' h1 h2
    have h2 := (extract_iff _ _ _).2 h2
    simp only [yardCfg, List.mem_cons, List.not_mem_nil, or_false] at hr'
    rcases hr' with rfl | rfl | rfl
    · cases h1; rfl
    · cases h1; cases h2
    · cases h1; cases h2
  · obtain ⟨s, h, _⟩ := crossRun_past
    unfold crossRun at h
    rw [h]
  · obtain ⟨s, h, e⟩ := crossRun_past
    unfold crossRun at h
    rw [h, e]
    simp [crossPast]

/-! ### C91–C93: errors -/

/-- **C91** What the server does about an error of a client is exactly what the strategy says, for all
causes: data of a client that counts as discredited, data that cannot be read (and is reported as
such), a message that is in no workflow, a handler whose promise is rejected, an answer that cannot be
sent. For data of an unknown client nobody is dropped. -/
theorem C91_error_strategies (cfg : Cfg) (env : Env) (opts : Server.Options) {u : Uuid} {s : State} :
    (∀ c bytes, s.find u = some c → c.discredited = true →
      Reacts opts.onError u (.chunk u :: s.past) (step cfg env opts (.received u bytes) s).2.past) ∧
    (∀ c bytes e es r, s.find u = some c → c.discredited = false →
      Ts.Chunk cfg.decoder c.reader bytes (.returned (e :: es)) r →
      Reacts opts.onError u (.chunk u :: s.past) (step cfg env opts (.received u bytes) s).2.past) ∧
    (∀ c (f : Frame) m, s.find u = some c → c.discredited = false → c.reader = ⟨[], []⟩ →
      c.hash = true → c.key ≠ none → f.Ok → f.hdr.signature = cfg.decoder.signature →
      cfg.decoder.getMsg f.hdr.id f.body = .ok m → ¬ (∃ ref b, Found m ref b ∧
        (ref = "InternalServiceGroup.HashRequest".toList ∨
          (∃ r ∈ cfg.workflow.requests, r.request = some ref) ∨
          ∃ x ∈ cfg.workflow.beacons, x.reference = ref)) →
      Reacts opts.onError u (.got u m f.hdr.sequence :: .chunk u :: s.past)
        (step cfg env opts (.received u f.bytes) s).2.past) ∧
    (∀ t seq job, (∀ e, job ≠ .event e) → s.tasks.lookup t = some ⟨u, seq, job, .user⟩ →
      Reacts opts.onError u s.past (step cfg env opts (.settled t .rejected) s).2.past) ∧
    (∀ t seq job casts, (∀ e, job ≠ .event e) →
      s.tasks.lookup t = some ⟨u, seq, job, .sending casts⟩ →
      Reacts opts.onError u s.past (step cfg env opts (.settled t (.sent false)) s).2.past) ∧
    (∀ bytes, s.find u = none → ∃ l, (∀ a ∈ l, ∃ v, Changes v a) ∧
      (opts.onError = .log ∨ opts.onError = .disconnect →
        (step cfg env opts (.received u bytes) s).2.past = .chunk u :: s.past) ∧
      (opts.onError = .emitError ∨ opts.onError = .emitErrorAndDisconnect →
        (step cfg env opts (.received u bytes) s).2.past = l ++ .error none :: .chunk u :: s.past)) := by
  refine ⟨?_, ?_, ?_, ?_, ?_, ?_⟩
  · intro c bytes hc hd
    have e : (step cfg env opts (.received u bytes) s).2 =
        (receivingErr cfg env opts u true (s.push (.chunk u))).2 := by
      show (received cfg env opts u bytes s).2 = _
      unfold received
      dsimp only
      rw [find_push, hc]
      dsimp only
      rw [if_pos hd]
    rw [e]
    exact reacts_receivingErr _
  · intro c bytes e es r hc hd hr
    have e : (step cfg env opts (.received u bytes) s).2 =
        (receivingErr cfg env opts u true ((s.push (.chunk u)).set u { c with reader := r })).2 := by
      show (received cfg env opts u bytes s).2 = _
      unfold received
      dsimp only
      rw [find_push, hc]
      dsimp only
      rw [if_neg (by simp [hd]), (readChunk_iff _ _ _ _ _).2 hr]
    rw [e]
    exact reacts_receivingErr _
  · intro c f m hc h1 h2 h3 h4 hf hs hm hn
    refine serve_unknown (cfg := cfg) (env := env) (opts := opts)
      ⟨c, hc, h2, h1, fun _ => ?_, h3⟩ hf hs hm ?_ ?_ ?_
    · cases hk : c.key with
      | none => exact absurd hk h4
      | some _ => rfl
    · exact fun k hk => hn ⟨_, k, hk, .inl rfl⟩
    · exact fun r hr ref b h hb => hn ⟨ref, b, hb, .inr (.inl ⟨r, hr, h⟩)⟩
    · exact fun x hx b hb => hn ⟨_, b, hb, .inr (.inr ⟨x, hx, rfl⟩)⟩
  · intro t seq job hj hl
    have e : (step cfg env opts (.settled t .rejected) s).2 =
        (receivingErr cfg env opts u true (s.drop t)).2 := by
      simp only [step, hl]
      cases job with
      | event e => exact absurd rfl (hj e)
      | request r => rfl
      | beacon => rfl
    rw [e]
    exact reacts_receivingErr _
  · intro t seq job casts hj hl
    have e : (step cfg env opts (.settled t (.sent false)) s).2 =
        (receivingErr cfg env opts u true (s.drop t)).2 := by
      simp only [step, hl]
      cases job with
      | event e => exact absurd rfl (hj e)
      | request r => rfl
      | beacon => rfl
    rw [e]
    exact reacts_receivingErr _
  · intro bytes hc
    have e : (step cfg env opts (.received u bytes) s).2 =
        (receivingErr cfg env opts u false (s.push (.chunk u))).2 := by
      show (received cfg env opts u bytes s).2 = _
      unfold received
      dsimp only
      rw [find_push, hc]
    obtain ⟨l, h1, h2⟩ := enter_past cfg env (.error none) (s.push (.chunk u))
    refine ⟨l, h2, fun h => ?_, fun h => ?_⟩
    · rw [e]
      rcases h with h | h <;> simp [receivingErr, h, Proc.andThen, Proc.skip]
    · rw [e]
      rw [past_push] at h1
      rw [← h1]
      rcases h with h | h <;> simp [receivingErr, h, Proc.andThen, Proc.skip, callUser]

set_option maxRecDepth 20000 in
/-- An unknown client, and a message that is in no workflow. -/
example : (run yardCfg yardEnv yardOpts (yardOpen ++ [.received 5 [], .received 1 (shopFrame 7 3).bytes])
    .new).2.past = [.error (some 1), .drop 1, .got 1 ⟨[['X']], .obj []⟩ 3, .chunk 1, .error none,
      .chunk 5] ++ yardPast := by
  rw [run_append yardOpen_run]
  rfl

set_option maxRecDepth 20000 in
/-- **C92** violated: a self key sent again after the hash was accepted gets no answer; the client is
dropped, as for a message that is in no workflow. -/
theorem C92_self_key_answered_violated :
    (run yardCfg yardEnv yardOpts (yardOpen ++ [.received 1 (shopFrame 1 20).bytes]) .new).2.past =
      [.error (some 1), .drop 1, .got 1 ⟨[['K']], .obj []⟩ 20, .chunk 1] ++ yardPast := by
  rw [run_append yardOpen_run]
  rfl

/-- **C92** (partial) Before the hash is accepted every self key is answered, the first one and repeated
ones, and becomes the key of the client. The full property has no such condition. -/
theorem C92_self_key_answered_partial (cfg : Cfg) (env : Env) (opts : Server.Options) {u : Uuid}
    {s : State} {c : Consumer} (hc : s.find u = some c) (h1 : c.discredited = false)
    (h2 : c.reader = ⟨[], []⟩) (h3 : c.hash = false) {f : Frame} {m : Msg} {k : Js} (hf : f.Ok)
    (hs : f.hdr.signature = cfg.decoder.signature)
    (hm : cfg.decoder.getMsg f.hdr.id f.body = .ok m) (hk : Found m cfg.selfKey k)
    (hp : cfg.packs (.selfKey u) = true) :
    let s' := (step cfg env opts (.received u f.bytes) s).2
    s'.past = .send .handshake u f.hdr.sequence (.selfKey u) :: .got u m f.hdr.sequence ::
      .chunk u :: s.past ∧ s'.find u = some { c with key := some k } := by
  intro s'
  have e : s' = (((((s.push (.chunk u)).set u { c with reader := ⟨[], [⟨f.hdr, m⟩]⟩ }).set u
      { c with reader := ⟨[], []⟩ }).push (.got u m f.hdr.sequence)).set u
        (({ c with reader := ⟨[], []⟩ } : Consumer).setKey cfg.keyFields k true)).push
          (.send .handshake u f.hdr.sequence (.selfKey u)) := by
    show (received cfg env opts u f.bytes s).2 = _
    unfold received
    dsimp only
    rw [find_push, hc]
    dsimp only
    rw [h1, h2, read_frame hf hs hm]
    simp only [Bool.false_eq_true, if_false]
    rw [onMessages_one (find_set_self (s := s.push (.chunk u)) hc)]
    unfold onMessage
    rw [(extract_iff _ _ _).2 hk]
    dsimp only
    rw [h3]
    dsimp only
    unfold onSelfKey post
    rw [if_pos hp]
  refine ⟨by rw [e]; rfl, ?_⟩
  rw [e, find_push]
  refine (find_set_self (d := { c with reader := ⟨[], []⟩ })
    (find_set_self (d := { c with reader := ⟨[], [⟨f.hdr, m⟩]⟩ }) (find_set_self (d := c) hc))).trans ?_
  unfold Consumer.setKey
  cases hk : c.key <;> simp [h2]

example : Found ⟨[['K']], .obj []⟩ yardCfg.selfKey (.obj []) ∧
    yardCfg.decoder.getMsg (shopFrame 1 0).hdr.id [] = .ok ⟨[['K']], .obj []⟩ :=
  ⟨(extract_iff _ _ _).1 rfl, rfl⟩

set_option maxRecDepth 20000 in
/-- **C93** violated: a frame with an unknown id. The strategy says to drop the client and to raise an
error; nothing of this happens, and a request in the next piece of data is not looked at. -/
theorem C93_unreadable_violated :
    yardOpts.onError = .emitErrorAndDisconnect ∧
    (run yardCfg yardEnv yardOpts (yardOpen ++ [.received 1 (shopFrame 99 20).bytes,
      .received 1 (shopFrame 3 21).bytes]) .new).2.past = [.chunk 1, .chunk 1] ++ yardPast := by
  refine ⟨rfl, ?_⟩
  rw [run_append yardOpen_run]
  rfl

/-- **C93** (partial) If the body of some frame of a piece of data is reported as undecodable, and all
frames are good or of this kind, the server does exactly what the strategy says. The full property
is this for all frames that are not good. -/
theorem C93_unreadable_partial (cfg : Cfg) (env : Env) (opts : Server.Options) {u : Uuid} {s : State}
    {c : Consumer} {bytes : Bytes} {fs : List Frame} (hc : s.find u = some c)
    (hd : c.discredited = false) (hb : c.reader.buffer ++ bytes = stream fs)
    (hfs : ∀ f ∈ fs, Good cfg.decoder f ∨ Undecodable cfg.decoder f)
    (hbad : ∃ f ∈ fs, Undecodable cfg.decoder f) :
    Reacts opts.onError u (.chunk u :: s.past) (step cfg env opts (.received u bytes) s).2.past := by
  obtain ⟨errors, h1, h2⟩ := C17_ts_undecodable_partial cfg.decoder c.reader bytes fs hfs hb
  cases errors with
  | nil =>
    exfalso
    obtain ⟨f, hf, hu⟩ := hbad
    have : f ∈ fs.filter (fun f => (delivered cfg.decoder f).isNone) := by
      rw [List.mem_filter]
      exact ⟨hf, by simp [delivered, hu.2.1, hu.2.2]⟩
    rw [List.length_nil, eq_comm, List.length_eq_zero_iff] at h2
    rw [h2] at this
    cases this
  | cons e es => exact (C91_error_strategies cfg env opts).2.1 c bytes e es _ hc hd h1

/-- A decoder for which such frames exist. -/
example : Undecodable tsDemoDecoder brokenFrame := tsDemo_undecodable

end Verif.Props
