import Verif.Proofs.TsServerServe
import Verif.Props.RustServerMore
set_option autoImplicit false
/-!
Property theorems about the generated TypeScript server: C37, C38, C81, C82, C87, C89, C90.
-/
namespace Verif.Props

open Verif Verif.Spec Verif.TsServer

/-! ### A server for witnesses -/

/-- Messages: 1 self key, 2 right hash, 3 request `Q`, 4 wrong hash, 5 beacon `B`, 6 a message `A` with
an object in field `b`, 7 a message that is in no workflow, 8 request `O`; other ids throw. -/
def yardDecoder : Rust.Decoder Msg where
  signature := 7
  getMsg id _ :=
    if id = 1 then .ok ⟨[['K']], .obj []⟩
    else if id = 2 then .ok ⟨["InternalServiceGroup".toList, "HashRequest".toList],
      .obj [("protocol".toList, .str ['p']), ("workflow".toList, .str ['w'])]⟩
    else if id = 3 then .ok ⟨[['Q']], .obj []⟩
    else if id = 4 then .ok ⟨["InternalServiceGroup".toList, "HashRequest".toList],
      .obj [("protocol".toList, .str ['x']), ("workflow".toList, .str ['w'])]⟩
    else if id = 5 then .ok ⟨[['B']], .obj []⟩
    else if id = 6 then .ok ⟨[['A']], .obj [(['b'], .obj [])]⟩
    else if id = 7 then .ok ⟨[['X']], .obj []⟩
    else if id = 8 then .ok ⟨[['O']], .obj []⟩
    else .panic

/-- A request that is in a group. -/
def yardInner : Flow.Request :=
  ⟨some ['A', '.', 'b'], some ['E'], [⟨some ['Y'], some ['R'], [], [], false⟩], [], [], .nothing, true⟩

def yardCfg : Cfg where
  decoder := yardDecoder
  workflow := ⟨[], [shopRequest, soleRequest, yardInner], [⟨['B'], false⟩], none⟩
  selfKey := ['K']
  protocolHash := ['p']
  workflowHash := ['w']
  packs _ := true
  keyFields := [['i']]
  assignedFields := [['n']]

/-- User code changes nothing and does not throw. -/
def yardEnv : Env := ⟨fun _ _ => [], fun _ _ => false⟩

/-- The hash message of the witness. -/
def yardHash (p : Char) : Msg := ⟨["InternalServiceGroup".toList, "HashRequest".toList],
  .obj [("protocol".toList, .str [p]), ("workflow".toList, .str ['w'])]⟩

/-- Client 1 connects and does the handshake. -/
def yardOpen : List Input :=
  [.connected 1, .received 1 (shopFrame 1 0).bytes, .received 1 (shopFrame 2 1).bytes]

/-- What happened then, newest first. -/
def yardPast : List Act :=
  [.send .handshake 1 1 (.hash false), .got 1 (yardHash 'p') 1, .chunk 1,
    .send .handshake 1 0 (.selfKey 1), .got 1 ⟨[['K']], .obj []⟩ 0, .chunk 1,
    .event 0 "connected".toList, .opened 1]

def yardReady : State :=
  ⟨[(1, ⟨⟨[], []⟩, some (.obj []), none, false, true⟩)],
    [(0, ⟨0, 0, .event ⟨some "connected".toList, [], [], .nothing, true⟩, .user⟩)], 1, yardPast⟩

/-- Strict options. -/
def yardOpts : Server.Options := ⟨.disconnect, .emitErrorAndDisconnect⟩

set_option maxRecDepth 20000 in
set_option maxHeartbeats 1000000 in
theorem yardOpen_run : run yardCfg yardEnv yardOpts yardOpen .new = (false, yardReady) := by
  rfl

/-- The request, answered with the first conclusion; the required broadcast goes to clients 1, 2. -/
def yardServe : List Input :=
  [.received 1 (shopFrame 3 10).bytes, .settled 1 (.answer ['R'] .other [⟨[1, 2], ['U'], .other⟩]),
    .settled 1 (.sent true), .settled 1 .cast]

set_option maxRecDepth 20000 in
/-- What happens then (newest first). -/
theorem yardServe_past : run yardCfg yardEnv yardOpts (yardOpen ++ yardServe) .new =
    (false, { yardReady with
      next := 2
      past := [.deferred 1, .send (.cast 1) 2 0 (.msg ['U'] .other),
        .send (.cast 1) 1 0 (.msg ['U'] .other), .send (.answer 1) 1 10 (.msg ['R'] .other),
        .respond 1 1 ['Q'] (.obj []) 10, .got 1 ⟨[['Q']], .obj []⟩ 10, .chunk 1] ++ yardPast }) := by
  rw [run_append yardOpen_run]
  rfl

/-! ### C37, C38: clients that must not be served -/

/-- Code for a request or beacon of `u` starts. -/
def Starts (u : Uuid) (a : Act) : Prop :=
  (∃ t ref b seq, a = .respond t u ref b seq) ∨ ∃ t ref b seq, a = .beacon t u ref b seq

/-- **C37** violated: under a strict strategy a request is handled, and the client never had an
assigned key. -/
theorem C37_assigned_key_violated : ∃ (cfg : Cfg) (env : Env) (opts : Server.Options)
    (is : List Input) (newer older : List Act) (u : Uuid) (a : Act), Strict opts.identification ∧
      Starts u a ∧ (run cfg env opts is .new).2.past = newer ++ a :: older ∧ .assignment u ∉ older := by
  refine ⟨yardCfg, yardEnv, yardOpts, yardOpen ++ yardServe,
    [.deferred 1, .send (.cast 1) 2 0 (.msg ['U'] .other),
        .send (.cast 1) 1 0 (.msg ['U'] .other), .send (.answer 1) 1 10 (.msg ['R'] .other)],
    [.got 1 ⟨[['Q']], .obj []⟩ 10, .chunk 1] ++ yardPast, 1, .respond 1 1 ['Q'] (.obj []) 10,
    .inr (.inl rfl), .inl ⟨_, _, _, _, rfl⟩, by rw [yardServe_past]; rfl, ?_⟩
  simp [yardPast]

/-- **C37**, how far this goes: the strategy has no effect whatever. -/
theorem C37_strategy_ignored_violated (cfg : Cfg) (env : Env) (opts : Server.Options)
    (strategy : Server.Strategy) (is : List Input) (s : State) :
    run cfg env opts is s = run cfg env ⟨strategy, opts.onError⟩ is s :=
  run_options (o := opts) (o' := ⟨strategy, opts.onError⟩) rfl is s

/-- **C37** (partial) In every run (any user code, any order of calls and promises): when code for a
request or beacon of `u` starts, the present connection of `u` is open, showed the right hashes and
has a self key. The full property has also an assigned key under the strict strategies. -/
theorem C37_handler_after_handshake_partial (cfg : Cfg) (env : Env) (opts : Server.Options)
    (is : List Input) {newer older : List Act} {u : Uuid} {a : Act} (ha : Starts u a)
    (h : (run cfg env opts is .new).2.past = newer ++ a :: older) : Handshake cfg u older := by
  have f := (run_inv cfg env opts is).fine
  rw [h] at f
  rcases ha with ⟨_, _, _, _, rfl⟩ | ⟨_, _, _, _, rfl⟩ <;> exact (allFine_at f).1.1

/-- The request of the witness. -/
example : Handshake yardCfg 1 ([.got 1 ⟨[['Q']], .obj []⟩ 10, .chunk 1] ++ yardPast) :=
  C37_handler_after_handshake_partial yardCfg yardEnv yardOpts (yardOpen ++ yardServe)
    (newer := [.deferred 1, .send (.cast 1) 2 0 (.msg ['U'] .other),
        .send (.cast 1) 1 0 (.msg ['U'] .other), .send (.answer 1) 1 10 (.msg ['R'] .other)])
    (.inl ⟨_, _, _, _, rfl⟩) (by rw [yardServe_past]; rfl)

/-- A wrong hash request, then a request in the next piece of data. -/
def yardKicked : List Input := [.received 1 (shopFrame 4 11).bytes, .received 1 (shopFrame 3 12).bytes]

set_option maxRecDepth 20000 in
theorem yardKicked_past : (run yardCfg yardEnv yardOpts (yardOpen ++ yardKicked) .new).2.past =
    .respond 1 1 ['Q'] (.obj []) 12 :: [.got 1 ⟨[['Q']], .obj []⟩ 12, .chunk 1, .error (some 1), .drop 1,
      .send .handshake 1 11 (.hash true), .got 1 (yardHash 'x') 11, .chunk 1] ++ yardPast := by
  rw [run_append yardOpen_run]
  rfl

/-- **C38** violated: the client is kicked for a wrong hash, and a request that arrives afterwards, in
a piece of data of its own, is handled. -/
theorem C38_kicked_violated : ∃ (cfg : Cfg) (env : Env) (opts : Server.Options) (is : List Input)
    (newer later older : List Act) (u : Uuid) (a : Act), Starts u a ∧ .chunk u ∈ later ∧
      Kicked u (later ++ .drop u :: older) ∧
      (run cfg env opts is .new).2.past = newer ++ a :: (later ++ .drop u :: older) := by
  refine ⟨yardCfg, yardEnv, yardOpts, yardOpen ++ yardKicked, [],
    [.got 1 ⟨[['Q']], .obj []⟩ 12, .chunk 1, .error (some 1)], _, 1, _, .inl ⟨_, _, _, _, rfl⟩,
    ?_, ?_, yardKicked_past⟩
  · simp
  · simp [Kicked, since]

/-- **C38** (partial) Messages are looked at, and so handlers started, only for clients that are
connected and that user code had not declared discredited when the data arrived. The full property
also excludes clients the server itself decided to drop; it never declares them discredited. -/
theorem C38_kicked_partial (cfg : Cfg) (env : Env) (opts : Server.Options) (is : List Input)
    {newer older : List Act} {u : Uuid} {a : Act} (ha : Starts u a ∨ ∃ m seq, a = .got u m seq)
    (h : (run cfg env opts is .new).2.past = newer ++ a :: older) : Online u older ∧ Trusted u older := by
  have f := (run_inv cfg env opts is).fine
  rw [h] at f
  rcases ha with (⟨_, _, _, _, rfl⟩ | ⟨_, _, _, _, rfl⟩) | ⟨_, _, rfl⟩
  · exact ⟨(allFine_at f).1.1.online, (allFine_at f).1.2.1⟩
  · exact ⟨(allFine_at f).1.1.online, (allFine_at f).1.2.1⟩
  · exact allFine_at f

set_option maxRecDepth 20000 in
/-- A client that user code declared discredited: it is dropped again, nothing is looked at. -/
example : (run yardCfg yardEnv yardOpts
    (yardOpen ++ [.user (.discredit 1), .received 1 (shopFrame 3 12).bytes]) .new).2.past =
      .error (some 1) :: .drop 1 :: .chunk 1 :: .discredited 1 :: yardPast := by
  rw [run_append yardOpen_run]
  rfl

/-! ### C81, C82: messages and their handlers -/

set_option maxRecDepth 20000 in
/-- **C81** violated: a message of type `A` whose field `b` is an object reaches the handler of the
request `A.b`. -/
theorem C81_own_handler_violated : ∃ (cfg : Cfg) (env : Env) (opts : Server.Options) (is : List Input)
    (newer older : List Act) (t : Nat) (u : Uuid) (ref : Ref) (b : Js) (seq : UInt32) (m : Msg),
      (run cfg env opts is .new).2.past = newer ++ .respond t u ref b seq :: .got u m seq :: older ∧
      ¬ IsA m ref := by
  refine ⟨yardCfg, yardEnv, yardOpts, yardOpen ++ [.received 1 (shopFrame 6 10).bytes],
    [], .chunk 1 :: yardPast, 1, 1, ['A', '.', 'b'], .obj [], 10, ⟨[['A']], .obj [(['b'], .obj [])]⟩, ?_, ?_⟩
  · rw [run_append yardOpen_run]
    rfl
  · rintro ⟨_, h⟩
    cases h

/-- **C81** (partial) A handler starts right after its message was looked at, with the sequence of the
message and an object found in it under the declared name. If no proper prefix of the declared name
is the name of a message and vice versa, the message has the declared type, and the handler gets
the message itself. The full property has no such condition. -/
theorem C81_own_handler_partial (cfg : Cfg) (env : Env) (opts : Server.Options) (is : List Input)
    {newer older : List Act} {t : Nat} {u : Uuid} {ref : Ref} {b : Js} {seq : UInt32} {a : Act}
    (h : (run cfg env opts is .new).2.past = newer ++ a :: older)
    (ha : (a = .respond t u ref b seq ∨ a = .beacon t u ref b seq)) :
    ((a = .respond t u ref b seq ∧ ∃ r ∈ cfg.workflow.requests, r.request = some ref) ∨
      (a = .beacon t u ref b seq ∧ ∃ x ∈ cfg.workflow.beacons, x.reference = ref)) ∧
    ∃ m older', older = .got u m seq :: older' ∧ Found m ref b ∧
      ((∀ ns, Spells ns ref → (m.path <+: ns ∨ ns <+: m.path) → m.path = ns) →
        IsA m ref ∧ b = m.body) := by
  have f := (run_inv cfg env opts is).fine
  rw [h] at f
  rcases ha with rfl | rfl
  · obtain ⟨⟨_, _, _, m, o, e, hf⟩, h2⟩ := allFine_at f
    exact ⟨.inl ⟨rfl, h2⟩, m, o, e, hf, found_exact hf⟩
  · obtain ⟨⟨_, _, _, m, o, e, hf⟩, h2⟩ := allFine_at f
    exact ⟨.inr ⟨rfl, h2⟩, m, o, e, hf, found_exact hf⟩

/-- The condition holds for the request of the witness. -/
example : ∀ ns, Spells ns ['Q'] → ([['Q']] <+: ns ∨ ns <+: [['Q']]) → [['Q']] = ns := by
  intro ns h _
  rw [spells_unique h]
  rfl

/-- **C82** In every run (any user code, any order of calls and promises): the numbers of handlers are
unique; a handler answers at most once, to its client, with the sequence of the message, with a
message declared for that; its broadcasts have sequence 0 and come after the answer, or belong to an
event; its deferred code runs at most once, after the answer. -/
theorem C82_answers (cfg : Cfg) (env : Env) (opts : Server.Options) (is : List Input)
    {newer older : List Act} {a : Act}
    (h : (run cfg env opts is .new).2.past = newer ++ a :: older) :
    (∀ t u ref b seq, a = .respond t u ref b seq ∨ a = .beacon t u ref b seq →
      ∀ x ∈ older, taskOf x ≠ some t) ∧
    (∀ t u seq o, a = .send (.answer t) u seq o → Started cfg t u seq o older ∧
      ∀ v q x, .send (.answer t) v q x ∉ newer ++ older) ∧
    (∀ t u seq o, a = .send (.cast t) u seq o → seq = 0 ∧
      ((∃ v q x, .send (.answer t) v q x ∈ older) ∨ ∃ ref, .event t ref ∈ older)) ∧
    (∀ t, a = .deferred t → (∃ v q x, .send (.answer t) v q x ∈ older) ∧
      .deferred t ∉ newer ++ older) := by
  have f := (run_inv cfg env opts is).fine
  rw [h] at f
  refine ⟨?_, ?_, ?_, ?_⟩
  · rintro t u ref b seq (rfl | rfl) <;> exact (allFine_at f).1.2.2.1
  · rintro t u seq o rfl
    have g := allFine_at f
    refine ⟨g.1, ?_⟩
    intro v q x hx
    rcases List.mem_append.1 hx with hx | hx
    · obtain ⟨n1, n2, rfl⟩ := List.append_of_mem hx
      rw [List.append_assoc, List.cons_append] at f
      exact (allFine_at f).2 u seq o (by simp)
    · exact g.2 v q x hx
  · rintro t u seq o rfl
    exact allFine_at f
  · rintro t rfl
    have g := allFine_at f
    refine ⟨g.1, ?_⟩
    intro hx
    rcases List.mem_append.1 hx with hx | hx
    · obtain ⟨n1, n2, rfl⟩ := List.append_of_mem hx
      rw [List.append_assoc, List.cons_append] at f
      exact (allFine_at f).2 (by simp)
    · exact g.2 hx

/-- All four kinds occur in the witness. -/
example : ∃ s, run yardCfg yardEnv yardOpts (yardOpen ++ yardServe) .new = (false, s) ∧
    .respond 1 1 ['Q'] (.obj []) 10 ∈ s.past ∧ .send (.answer 1) 1 10 (.msg ['R'] .other) ∈ s.past ∧
    .send (.cast 1) 2 0 (.msg ['U'] .other) ∈ s.past ∧ .deferred 1 ∈ s.past :=
  ⟨_, yardServe_past, by simp, by simp, by simp, by simp⟩

/-- **C82** In every run: what a handler answers is what user code decided on: its promise was settled with
this response, or the beacon was taken. -/
theorem C82_answer_decided (cfg : Cfg) (env : Env) (opts : Server.Options) (is : List Input)
    {t : Nat} {u : Uuid} {seq : UInt32} {o : Out}
    (h : .send (.answer t) u seq o ∈ (run cfg env opts is .new).2.past) :
    ∃ x, .settled t x ∈ is ∧ Decided x o := by
  suffices hs : ∀ (is : List Input) (s : State), .send (.answer t) u seq o ∈ (run cfg env opts is s).2.past →
      .send (.answer t) u seq o ∈ s.past ∨ ∃ x, .settled t x ∈ is ∧ Decided x o by
    rcases hs is .new h with k | k
    · cases k
    · exact k
  intro is
  induction is with
  | nil => intro s k; exact .inl k
  | cons i is ih =>
    intro s k
    have one : .send (.answer t) u seq o ∈ (step cfg env opts i s).2.past →
        .send (.answer t) u seq o ∈ s.past ∨ ∃ x, .settled t x ∈ i :: is ∧ Decided x o := by
      intro k
      obtain ⟨l, hl⟩ := frames_step (cfg := cfg) (env := env) (opts := opts) i s
      rw [hl.past] at k
      rcases List.mem_append.1 k with k | k
      · rcases hl.acts _ k with k | ⟨v, k⟩
        · obtain ⟨x, rfl, k2⟩ := k.2 _ _ _ _ rfl
          exact .inr ⟨x, List.mem_cons_self, k2⟩
        · rcases k with k | k | k <;> cases k
      · exact .inl k
    unfold run at k
    split at k
    · rename_i s' e
      rw [e] at one
      exact one k
    · rename_i s' _ e
      rcases ih _ k with k | ⟨x, k1, k2⟩
      · rw [e] at one
        exact one k
      · exact .inr ⟨x, List.mem_cons_of_mem _ k1, k2⟩

/-- The answer of the witness is the one user code gave. -/
example : ∃ s, run yardCfg yardEnv yardOpts (yardOpen ++ yardServe) .new = (false, s) ∧
    .send (.answer 1) 1 10 (.msg ['R'] .other) ∈ s.past :=
  ⟨_, yardServe_past, by simp⟩

/-! ### C87: filters -/

/-- **C87** After any run: the filters contain no client twice; `all` is the connected clients;
`except` and `exclude` leave out exactly their arguments; `filter` selects by the record. -/
theorem C87_filters (cfg : Cfg) (env : Env) (opts : Server.Options) (is : List Input) :
    let s := (run cfg env opts is .new).2
    (∀ v, v ∈ filterAll s ↔ Online v s.past) ∧ (filterAll s).Nodup ∧
    (∀ u, (∀ v, v ∈ filterExcept s u ↔ Online v s.past ∧ v ≠ u) ∧ (filterExcept s u).Nodup) ∧
    (∀ us, (∀ v, v ∈ filterExclude s us ↔ Online v s.past ∧ v ∉ us) ∧ (filterExclude s us).Nodup) ∧
    (∀ cb, (∀ v, v ∈ filterBy s cb ↔ ∃ c, s.find v = some c ∧ Online v s.past ∧ cb v c = true) ∧
      (filterBy s cb).Nodup) := by
  intro s
  have inv : Inv cfg none none s := run_inv cfg env opts is
  have hd := inv.distinct
  have hall : ∀ v, v ∈ s.consumers.map Prod.fst ↔ Online v s.past := by
    intro v
    cases h : s.find v with
    | none =>
      have h1 := (lookup_none_iff _ _).1 h
      exact ⟨fun h2 => absurd h2 h1, fun h2 => absurd h2 (inv.gone v h)⟩
    | some c =>
      refine ⟨fun _ => (inv.known v c h).online, fun _ => ?_⟩
      exact List.mem_map.2 ⟨_, lookup_mem h, rfl⟩
  refine ⟨hall, hd, fun u => ⟨fun v => ?_, hd.filter _⟩, fun us => ⟨fun v => ?_, hd.filter _⟩,
    fun cb => ⟨fun v => ?_, nodup_filter_keys _ _ hd⟩⟩
  · simp only [filterExcept, List.mem_filter, hall, decide_eq_true_eq]
  · unfold filterExclude
    rw [List.mem_filter, hall]
    refine and_congr_right fun _ => ?_
    simp only [Bool.not_eq_true', List.any_eq_false, decide_eq_true_eq]
    exact ⟨fun h hv => h v hv rfl, fun h x hx e => h (e ▸ hx)⟩
  · unfold filterBy
    rw [List.mem_map]
    constructor
    · rintro ⟨⟨w, c⟩, h1, rfl⟩
      rw [List.mem_filter] at h1
      have hf : s.find w = some c := lookup_of_mem hd h1.1
      exact ⟨c, hf, (inv.known w c hf).online, h1.2⟩
    · rintro ⟨c, h1, _, h2⟩
      exact ⟨(v, c), List.mem_filter.2 ⟨lookup_mem h1, h2⟩, rfl⟩

set_option maxRecDepth 20000 in
/-- Two clients, one of them with a hash. -/
example : let s := (run yardCfg yardEnv yardOpts (yardOpen ++ [.connected 2]) .new).2
    filterAll s = [1, 2] ∧ filterExcept s 1 = [2] ∧ filterBy s (fun _ c => c.hash) = [1] := by
  rw [run_append yardOpen_run]
  exact ⟨rfl, rfl, rfl⟩

/-! ### C89: hashes -/

/-- **C89** In every run: a connected client counts as accepted only if it sent both hashes of the
server on its present connection. Every answer to a hash comes right after the hash request was
looked at, goes to its sender with its sequence, and has no error exactly if both hashes are right. -/
theorem C89_hash_check (cfg : Cfg) (env : Env) (opts : Server.Options) (is : List Input) :
    let s := (run cfg env opts is .new).2
    (∀ u c, s.find u = some c → c.hash = true → HashShown cfg u s.past) ∧
    ∀ newer older u seq e, s.past = newer ++ .send .handshake u seq (.hash e) :: older →
      ∃ m older' b, older = .got u m seq :: older' ∧
        Found m "InternalServiceGroup.HashRequest".toList b ∧
        (e = false ↔ ∃ ps, b = .obj ps ∧ ps.lookup "protocol".toList = some (.str cfg.protocolHash) ∧
          ps.lookup "workflow".toList = some (.str cfg.workflowHash)) := by
  have inv := run_inv cfg env opts is
  refine ⟨fun u c h => (inv.known u c h).hash, ?_⟩
  intro newer older u seq e h
  have f := inv.fine
  rw [h] at f
  obtain ⟨m, o, e1, h1⟩ := allFine_at f
  rcases h1 with ⟨_, _, h2⟩ | ⟨b, e', h2, h3, h4⟩
  · cases h2
  · cases h3
    exact ⟨m, o, b, e1, h2, h4⟩

/-- **C89**, second part: the answers do come. A client with an empty reader that sends a hash request
gets its answer; if a hash is wrong, the client is then dropped and an error is raised. What follows
are changes by user code. -/
theorem C89_hash_answered (cfg : Cfg) (env : Env) (opts : Server.Options) {u : Uuid} {s : State}
    {c : Consumer} (hc : s.find u = some c) (h1 : c.discredited = false) (h2 : c.reader = ⟨[], []⟩)
    {f : Frame} {m : Msg} {ps : List (Name × Js)} (hf : f.Ok)
    (hs : f.hdr.signature = cfg.decoder.signature)
    (hm : cfg.decoder.getMsg f.hdr.id f.body = .ok m)
    (hn : ∀ k, ¬ Found m cfg.selfKey k)
    (hb : Found m "InternalServiceGroup.HashRequest".toList (.obj ps))
    (hp : ∀ e, cfg.packs (.hash e) = true) :
    let s' := (step cfg env opts (.received u f.bytes) s).2
    let right := ps.lookup "protocol".toList = some (.str cfg.protocolHash) ∧
      ps.lookup "workflow".toList = some (.str cfg.workflowHash)
    (right → (∃ d, s'.find u = some d ∧ d.hash = true) ∧
      s'.past = .send .handshake u f.hdr.sequence (.hash false) :: .got u m f.hdr.sequence ::
        .chunk u :: s.past) ∧
    (¬ right → ∃ l, s'.past = l ++ .error (some u) :: .drop u ::
      .send .handshake u f.hdr.sequence (.hash true) :: .got u m f.hdr.sequence :: .chunk u :: s.past ∧
      ∀ a ∈ l, ∃ v, Changes v a) := by
  intro s' right
  have st : Stage u c.key.isSome c.hash s := ⟨c, hc, h2, h1, fun h => h, rfl⟩
  constructor
  · rintro ⟨r1, r2⟩
    obtain ⟨⟨d, d1, _, _, _, d2⟩, e⟩ :=
      serve_hash (env := env) (opts := opts) st hf hs hm hn hb r1 r2 (hp false)
    exact ⟨⟨d, d1, d2⟩, e⟩
  · intro hw
    exact serve_wrong_hash (env := env) (opts := opts) st hf hs hm hn hb hw (hp true)

/-- The wrong hash of the witness. -/
example : (∀ k, ¬ Found (yardHash 'x') yardCfg.selfKey k) ∧
    Found (yardHash 'x') "InternalServiceGroup.HashRequest".toList (yardHash 'x').body ∧
    (shopFrame 4 11).Ok ∧ yardCfg.decoder.getMsg (shopFrame 4 11).hdr.id [] = .ok (yardHash 'x') := by
  refine ⟨fun k h => ?_, (extract_iff _ _ _).1 rfl, ⟨rfl, by decide⟩, rfl⟩
  have := (extract_iff _ _ _).2 h
  cases this

/-! ### C90: keys -/

/-- **C90** User code sets a key of a connected client: the first one is taken as it is, as is one with
`overwrite`; otherwise exactly the declared fields that the new key has are replaced and everything
else of the old key stays. No other client and no other part of the record changes. -/
theorem C90_keys (cfg : Cfg) (env : Env) (opts : Server.Options) {u : Uuid} {k : Js}
    {overwrite : Bool} {s : State} {c : Consumer} (hc : s.find u = some c) :
    (∃ x, (step cfg env opts (.user (.key u k overwrite)) s).2.find u = some { c with key := some x } ∧
      (c.key = none ∨ overwrite = true → x = k) ∧
      (∀ ps, c.key = some (.obj ps) → overwrite = false → ∃ qs, x = .obj qs ∧ ∀ f,
        (∀ v, f ∈ cfg.keyFields → k.prop f = some v → qs.lookup f = some v) ∧
        (f ∉ cfg.keyFields ∨ k.prop f = none → qs.lookup f = ps.lookup f))) ∧
    (∃ x, (step cfg env opts (.user (.assign u k overwrite)) s).2.find u =
        some { c with assigned := some x } ∧
      (c.assigned = none ∨ overwrite = true → x = k) ∧
      (∀ ps, c.assigned = some (.obj ps) → overwrite = false → ∃ qs, x = .obj qs ∧ ∀ f,
        (∀ v, f ∈ cfg.assignedFields → k.prop f = some v → qs.lookup f = some v) ∧
        (f ∉ cfg.assignedFields ∨ k.prop f = none → qs.lookup f = ps.lookup f))) ∧
    (∀ v, v ≠ u → (step cfg env opts (.user (.key u k overwrite)) s).2.find v = s.find v ∧
      (step cfg env opts (.user (.assign u k overwrite)) s).2.find v = s.find v) := by
  have hmerge : ∀ fs ps, ∃ qs, merge fs (.obj ps) k = .obj qs ∧ ∀ f,
      (∀ v, f ∈ fs → k.prop f = some v → qs.lookup f = some v) ∧
      (f ∉ fs ∨ k.prop f = none → qs.lookup f = ps.lookup f) := by
    intro fs ps
    obtain ⟨qs, h1, h2⟩ := merge_prop fs ps k
    refine ⟨qs, h1, fun f => ⟨fun v hf hv => ?_, fun h => ?_⟩⟩
    · rw [h2, if_pos hf, hv]
    · rw [h2]
      rcases h with h | h
      · rw [if_neg h]
      · split
        · rw [h]
        · rfl
  refine ⟨?_, ?_, ?_⟩
  · have e : (step cfg env opts (.user (.key u k overwrite)) s).2.find u =
        some (c.setKey cfg.keyFields k overwrite) := by
      simp only [step, change, hc]
      exact find_set_self hc
    rw [e]
    unfold Consumer.setKey
    cases hk : c.key with
    | none => exact ⟨k, rfl, fun _ => rfl, fun _ h => (nomatch h)⟩
    | some old =>
      refine ⟨_, rfl, ?_, ?_⟩
      · rintro (h | h)
        · cases h
        · rw [if_pos h]
      · intro ps h1 h2
        cases h1
        rw [h2]
        exact hmerge _ _
  · have e : (step cfg env opts (.user (.assign u k overwrite)) s).2.find u =
        some (c.assign cfg.assignedFields k overwrite) := by
      simp only [step, change, hc]
      exact find_set_self hc
    rw [e]
    unfold Consumer.assign
    cases hk : c.assigned with
    | none => exact ⟨k, rfl, fun _ => rfl, fun _ h => (nomatch h)⟩
    | some old =>
      refine ⟨_, rfl, ?_, ?_⟩
      · rintro (h | h)
        · cases h
        · rw [if_pos h]
      · intro ps h1 h2
        cases h1
        rw [h2]
        exact hmerge _ _
  · intro v hv
    simp only [step, change, hc]
    exact ⟨find_set_other hv, find_set_other hv⟩

/-- A field is replaced, an undeclared one is not added. -/
example : merge [['i']] (.obj [(['i'], .str ['1']), (['j'], .other)])
    (.obj [(['i'], .str ['2']), (['k'], .other)]) = .obj [(['i'], .str ['2']), (['j'], .other)] := by
  rfl

end Verif.Props
