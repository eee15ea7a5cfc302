import Verif.Proofs.TsClientDead
import Verif.Props.RustClient
set_option autoImplicit false
/-!
Property theorems about the generated TypeScript client: C44, C45 and C102–C112. A run is any list of
inputs, see `TsClient.Input`. What happened is kept newest first.
-/
namespace Verif.Props

open Verif Verif.Spec Verif.TsClient

/-! ### A client for witnesses -/

def serviceMsg (name : String) (ps : List (Name × Js)) : Msg := ⟨["InternalServiceGroup".toList, name.toList], .obj ps⟩

/-- Messages: 1 self key, 2 hash, 3 hash with error, 4 confirmed beacon, 5 beacon with error, 6 response
`R`, 7 broadcast `U`, 8 error `E`, 9 response `G.R`, 10 response `S`; 20 is unknown, other ids throw. -/
def pierDecoder : Rust.Decoder Msg where
  signature := 7
  getMsg id _ :=
    if id = 1 then .ok (serviceMsg "SelfKeyResponse" [("uuid".toList, .str ['u'])])
    else if id = 2 then .ok (serviceMsg "HashResponse" [])
    else if id = 3 then .ok (serviceMsg "HashResponse" [("error".toList, .str ['x'])])
    else if id = 4 then .ok (serviceMsg "BeaconConfirmation" [])
    else if id = 5 then .ok (serviceMsg "BeaconConfirmation" [("error".toList, .str ['x'])])
    else if id = 6 then .ok ⟨[['R']], .obj []⟩
    else if id = 7 then .ok ⟨[['U']], .obj []⟩
    else if id = 8 then .ok ⟨[['E']], .obj []⟩
    else if id = 9 then .ok ⟨[['G'], ['R']], .obj []⟩
    else if id = 10 then .ok ⟨[['S']], .obj []⟩
    else if id = 20 then .err
    else .panic

/-- The request of the witness is that of the Rust client. -/
def pierCfg : Cfg where
  decoder := pierDecoder
  workflow := ⟨[], [cafeRequest], [⟨['B'], false⟩], none⟩
  packs _ := true

/-- User code does nothing, and everything can be sent. -/
def pierEnv : Env := ⟨fun _ _ => [], fun _ _ => false, fun _ _ => true⟩

/-- A handshake. -/
def pierOpen : List Input :=
  [.connected, .received (cafeFrame 1 1).bytes, .work 0, .work 0, .received (cafeFrame 2 2).bytes, .work 0]

def pierPast : List Act :=
  [.emitted (.ready (.str ['u'])), .shakeEnded 0 true,
    .delivered (.hash 0 (.str ['u'])) 2 (serviceMsg "HashResponse" []),
    .got 2 (serviceMsg "HashResponse" []), .chunk (cafeFrame 2 2).bytes,
    .sent (.hash 0 (.str ['u'])) 2 .hash, .assignEnded 0 (some (.str ['u'])),
    .delivered (.assign 0 true) 1 (serviceMsg "SelfKeyResponse" [("uuid".toList, .str ['u'])]),
    .got 1 (serviceMsg "SelfKeyResponse" [("uuid".toList, .str ['u'])]), .chunk (cafeFrame 1 1).bytes,
    .emitted .connected, .sent (.assign 0 true) 1 .selfKey, .assigning 0 true, .opened]

/-- The state then. -/
def pierReady : State := ⟨.new, [], some ['u'], 3, [], [], 1, pierPast⟩

set_option maxRecDepth 20000 in
set_option maxHeartbeats 1000000 in
theorem pierOpen_run : run pierCfg pierEnv pierOpen .new = (false, pierReady) := by rfl

/-- A request, with a handler, is made and sent. -/
def pierCall : List Input := [.user (.create (.request cafeRequest) (.obj [])), .user (.on 1 ['y']), .user (.send 1)]

/-- Then it is answered. -/
def pierAnswer : List Input := [.received (cafeFrame 6 3).bytes, .work 0]

def pierCalled : List Act :=
  [.sent (.call 2 1) 3 (.msg ['Q'] (.obj [])), .called 2 1, .created 1 (.request cafeRequest) (.obj [])] ++ pierPast

def pierWaiting : State :=
  ⟨.new, [(3, .call 2 1)], some ['u'], 4, [(1, ⟨.request cafeRequest, .obj [], .pending, [['y']]⟩)], [], 3, pierCalled⟩

theorem pierCall_run : run pierCfg pierEnv (pierOpen ++ pierCall) .new = (false, pierWaiting) := by
  rw [run_append_false (by rw [pierOpen_run]), pierOpen_run]
  rfl

def pierAnswered : List Act :=
  [.ended 2 (.resolved ['R'] (.obj [])), .handled 2 ['y'] (some (.obj [])), .delivered (.call 2 1) 3 ⟨[['R']], .obj []⟩,
    .got 3 ⟨[['R']], .obj []⟩, .chunk (cafeFrame 6 3).bytes] ++ pierCalled

set_option maxRecDepth 20000 in
theorem pierAnswer_run : run pierCfg pierEnv (pierOpen ++ pierCall ++ pierAnswer) .new =
    (false, ⟨.new, [], some ['u'], 4, [(1, ⟨.request cafeRequest, .obj [], .ready, [['y']]⟩)], [], 3, pierAnswered⟩) := by
  rw [run_append_false (by rw [pierCall_run]), pierCall_run]
  rfl

/-! ### C44 -/

/-- **C44** In every run: a message settles a promise only if its owner sent a request with the number of
the message and no message with this number settled anything before; it is the message looked at
last. Nobody else ever sends with this number, and the owner gets no other answer. -/
theorem C44_answer_to_its_request (cfg : Cfg) (env : Env) (is : List Input) {newer older : List Act} {w : Waiter}
    {q : UInt32} {m : Msg} (h : (run cfg env is .new).2.past = newer ++ .delivered w q m :: older) :
    (∃ out, .sent w q.toNat out ∈ older) ∧ (∀ w m, .delivered w q m ∉ older) ∧ (∃ h', older = .got q m :: h') ∧
    (∀ w' out, .sent w' q.toNat out ∈ (run cfg env is .new).2.past → w' = w) ∧
    ∀ q' m', .delivered w q' m' ∈ (run cfg env is .new).2.past → q' = q ∧ m' = m := by
  have hl := lawful_run cfg env is
  have hl' := hl
  rw [h] at hl'
  obtain ⟨⟨out, h1⟩, h2, h3⟩ := hl'.at
  have hs : .sent w q.toNat out ∈ (run cfg env is .new).2.past := by rw [h]; simp [h1]
  have hd : .delivered w q m ∈ (run cfg env is .new).2.past := by rw [h]; simp
  exact ⟨⟨out, h1⟩, h2, h3, fun w' out' k => (law_sent_number hl k hs).1, fun q' m' k => law_answer_unique hl k hd⟩

/-- **C44** In every run: whatever message is looked at, what happens next is that it settles a promise, or
it is raised as broadcast, or dropped. If somebody sent a request with its number and has no answer, it
settles the promise of this one. Otherwise it is raised if its type is a broadcast of the
workflow, and dropped if not. -/
theorem C44_every_message_treated (cfg : Cfg) (env : Env) (is : List Input) {newer older : List Act}
    {q : UInt32} {m : Msg} (h : (run cfg env is .new).2.past = newer ++ .got q m :: older) :
    (∃ newer' a, newer = newer' ++ [a] ∧
      ((∃ w, a = .delivered w q m) ∨ (∃ ref, a = .emitted (.broadcast ref m.body) ∧ IsA m ref) ∨ a = .ignored q m)) ∧
    (∀ w out, .sent w q.toNat out ∈ older → (∀ m, .delivered w q m ∉ older) →
      ∃ newer', newer = newer' ++ [.delivered w q m]) ∧
    ((∀ w out, .sent w q.toNat out ∈ older → ∃ m, .delivered w q m ∈ older) →
      ((∃ ref, Broadcasts cfg.workflow ref ∧ IsA m ref) →
        ∃ newer' ref, newer = newer' ++ [.emitted (.broadcast ref m.body)] ∧ IsA m ref ∧ Broadcasts cfg.workflow ref) ∧
      ((∀ ref, Broadcasts cfg.workflow ref → ¬ IsA m ref) → ∃ newer', newer = newer' ++ [.ignored q m])) := by
  have hl := lawful_run cfg env is
  obtain ⟨newer', a, e, ht⟩ := treated_run cfg env is newer q m older h
  have h2 : (run cfg env is .new).2.past = newer' ++ a :: (.got q m :: older) := by rw [h, e]; simp
  have hl2 := hl
  rw [h2] at hl2
  have ha := hl2.at
  have hb : ∀ ref, a = .emitted (.broadcast ref m.body) → IsA m ref ∧ Broadcasts cfg.workflow ref ∧ Unmatched q older := by
    rintro ref rfl
    obtain ⟨q', m', h', k1, k2, k3, k4, k5⟩ := ha
    cases k1
    exact ⟨k2, k4, k5⟩
  have hg : a = .ignored q m → (∀ ref, Broadcasts cfg.workflow ref → ¬ IsA m ref) ∧ Unmatched q older := by
    rintro rfl
    obtain ⟨h', k1, k2, k3⟩ := ha
    cases k1
    exact ⟨k2, k3⟩
  have hd : ∀ w, a = .delivered w q m → (∃ out, .sent w q.toNat out ∈ older) ∧ ∀ w' m', .delivered w' q m' ∉ older := by
    rintro w rfl
    obtain ⟨⟨out, k1⟩, k2, _⟩ := ha
    refine ⟨⟨out, ?_⟩, fun w' m' k => k2 w' m' (List.mem_cons_of_mem _ k)⟩
    rcases List.mem_cons.1 k1 with k1 | k1
    · cases k1
    · exact k1
  refine ⟨⟨newer', a, e, ?_⟩, ?_, ?_⟩
  · rcases ht with ⟨w, k⟩ | ⟨ref, k⟩ | k
    · exact .inl ⟨w, k⟩
    · exact .inr (.inl ⟨ref, k, (hb ref k).1⟩)
    · exact .inr (.inr k)
  · intro w out k1 k2
    rcases ht with ⟨w', k⟩ | ⟨ref, k⟩ | k
    · obtain ⟨⟨out', g1⟩, _⟩ := hd w' k
      have mono : ∀ z ∈ older, z ∈ (run cfg env is .new).2.past := fun z hz => by rw [h]; simp [hz]
      have := (law_sent_number hl (mono _ k1) (mono _ g1)).1
      subst this
      exact ⟨newer', by rw [e, k]⟩
    · obtain ⟨m', g⟩ := (hb ref k).2.2 w out k1
      exact absurd g (k2 m')
    · obtain ⟨m', g⟩ := (hg k).2 w out k1
      exact absurd g (k2 m')
  · intro hu
    have hnd : ∀ w, a ≠ .delivered w q m := by
      intro w k
      obtain ⟨⟨out, g1⟩, g2⟩ := hd w k
      obtain ⟨m', g3⟩ := hu w out g1
      exact g2 w m' g3
    refine ⟨?_, ?_⟩
    · rintro ⟨ref, r1, r2⟩
      rcases ht with ⟨w', k⟩ | ⟨ref', k⟩ | k
      · exact absurd k (hnd w')
      · exact ⟨newer', ref', by rw [e, k], (hb ref' k).1, (hb ref' k).2.1⟩
      · exact absurd r2 ((hg k).1 ref r1)
    · intro hr
      rcases ht with ⟨w', k⟩ | ⟨ref', k⟩ | k
      · exact absurd k (hnd w')
      · exact absurd (hb ref' k).1 (hr ref' (hb ref' k).2.1)
      · exact ⟨newer', by rw [e, k]⟩

/-- **C44** In every run: the promise of a call settles at most once, and a handler is called at most once
for it and before. If the message was sent, both happen only after the answer to this call has come;
unless the object was destroyed or the handler threw, the result is what the answer says. -/
theorem C44_result_from_answer (cfg : Cfg) (env : Env) (is : List Input) {newer older : List Act} {n : Nat} {r : Result}
    (h : (run cfg env is .new).2.past = newer ++ .ended n r :: older) :
    (∀ r', .ended n r' ∉ newer ++ older) ∧ (∀ name v, .handled n name v ∉ newer) ∧
    ∃ o k b, .called n o ∈ older ∧ .created o k b ∈ older ∧
      (∀ q out, .sent (.call n o) q out ∈ (run cfg env is .new).2.past → ∃ q m, .delivered (.call n o) q m ∈ older) ∧
      ∀ q m, .delivered (.call n o) q m ∈ older →
        (r = .gone ∧ .destroyed o ∈ older) ∨ (r = .threw ∧ ∃ name v, .handled n name v ∈ older ∧ Handles k m name v) ∨
        Reports k m r := by
  have hl := lawful_run cfg env is
  have hl1 := hl
  rw [h] at hl1
  obtain ⟨h1, o, k, b, h2, h3, h4⟩ := hl1.at
  have hl0 : Lawful cfg older := (Lawful.tail hl1).2
  have mono : ∀ z ∈ older, z ∈ (run cfg env is .new).2.past := fun z hz => by rw [h]; simp [hz]
  have hlate : ∀ (a : Act), (∀ h', Allowed cfg h' a → .ended n r ∉ h') → a ∉ newer := by
    intro a ha hm
    obtain ⟨l1, l2, e⟩ := List.append_of_mem hm
    have hl2 := hl1
    rw [e, List.append_assoc] at hl2
    exact ha _ hl2.at (by simp)
  refine ⟨?_, fun name v => hlate _ (fun h' ha => ha.1 r), o, k, b, h2, h3, ?_, ?_⟩
  · intro r' hm
    rcases List.mem_append.1 hm with hm | hm
    · exact hlate (.ended n r') (fun h' ha => ha.1 r) hm
    · exact h1 r' hm
  · intro q out hs
    have hs2 : .sent (.call n o) q out ∈ older := by
      rw [h] at hs
      rcases List.mem_append.1 hs with hs | hs
      · exact absurd hs (hlate _ (fun h' ha => ha.2.2.2.2.2.1 r))
      · rcases List.mem_cons.1 hs with hs | hs
        · cases hs
        · exact hs
    obtain ⟨q', m, hd⟩ := law_not_ended (cfg := cfg) (h := .ended n r :: older) ⟨⟨h1, o, k, b, h2, h3, h4⟩, hl0⟩
      (List.mem_cons_of_mem _ hs2) List.mem_cons_self
    rcases List.mem_cons.1 hd with hd | hd
    · cases hd
    · exact ⟨q', m, hd⟩
  · intro q m hd
    have hs : ∃ out, .sent (.call n o) q.toNat out ∈ older := by
      obtain ⟨l1, l2, e⟩ := List.append_of_mem hd
      rw [e] at hl0
      obtain ⟨⟨out, g⟩, _⟩ := hl0.at
      exact ⟨out, by rw [e]; simp [g]⟩
    obtain ⟨out, hs⟩ := hs
    have hu : ∀ q' m', .delivered (.call n o) q' m' ∈ older → m' = m := fun q' m' k => (law_answer_unique hl0 k hd).2
    cases r with
    | busy => exact absurd hs (h4.2 _ _)
    | gone => exact .inl ⟨rfl, h4.1⟩
    | failed => exact absurd hs (h4 _ _)
    | threw =>
      obtain ⟨name, v, g⟩ := h4
      refine .inr (.inl ⟨rfl, name, v, g, ?_⟩)
      obtain ⟨l1, l2, e⟩ := List.append_of_mem g
      have hl2 := hl0
      rw [e] at hl2
      obtain ⟨_, _, o', k', b', q', m', g1, g2, g3, g4⟩ := hl2.at
      have mono2 : ∀ z ∈ l2, z ∈ older := fun z hz => by rw [e]; simp [hz]
      have := law_called_unique hl0 h2 (mono2 _ g1)
      subst this
      obtain ⟨rfl, _⟩ := law_created_unique hl0 h3 (mono2 _ g2)
      rw [← hu q' m' (mono2 _ g3)]
      exact g4
    | resolved ref v => obtain ⟨q', m', g1, g2⟩ := h4; rw [hu q' m' g1] at g2; exact .inr (.inr g2)
    | confirmed => obtain ⟨q', m', g1, g2⟩ := h4; rw [hu q' m' g1] at g2; exact .inr (.inr g2)
    | refused => obtain ⟨q', m', g1, g2⟩ := h4; rw [hu q' m' g1] at g2; exact .inr (.inr g2)
    | unexpected => obtain ⟨q', m', g1, g2⟩ := h4; rw [hu q' m' g1] at g2; exact .inr (.inr g2)

/-- **C44** In every run: a handler of a request object is called only for a call of this object, before the call
ends, at most once, with the value from the answer to this call, and it is the one for this answer. -/
theorem C44_handler_from_answer (cfg : Cfg) (env : Env) (is : List Input) {newer older : List Act} {n : Nat}
    {name : Name} {v : Option Js} (h : (run cfg env is .new).2.past = newer ++ .handled n name v :: older) :
    (∀ r, .ended n r ∉ older) ∧ (∀ name v, .handled n name v ∉ newer ++ older) ∧
    ∃ o k b q m, .called n o ∈ older ∧ .created o k b ∈ older ∧ .delivered (.call n o) q m ∈ older ∧ Handles k m name v := by
  have hl := lawful_run cfg env is
  rw [h] at hl
  obtain ⟨h1, h2, h3⟩ := hl.at
  refine ⟨h1, ?_, h3⟩
  intro name' v' hm
  rcases List.mem_append.1 hm with hm | hm
  · obtain ⟨l1, l2, e⟩ := List.append_of_mem hm
    rw [e, List.append_assoc] at hl
    exact (hl.at).2.1 name v (by simp)
  · exact h2 name' v' hm

/-- **C44** When the answer to a call is worked on, the call ends; and if the object waits for it and user code set the
handler for this answer, the handler is called. -/
theorem C44_answer_reported (cfg : Cfg) (env : Env) (is : List Input) {s : State} (hs : s = (run cfg env is .new).2)
    {i n o : Nat} {m : Msg} (hi : s.tasks[i]? = some (.answered (.call n o) m)) :
    ∃ s' r, step cfg env s (.work i) = some s' ∧ .ended n r ∈ s'.past ∧
      ∀ x name v, s.objs.lookup o = some x → x.state = .pending → name ∈ x.handlers → Handles x.kind m name v →
        .handled n name v ∈ s'.past := by
  subst hs
  obtain ⟨s', r, h1, h2⟩ := job_ends (env := env) (inv_run cfg env is) hi (.inl ⟨m, rfl⟩)
  refine ⟨s', r, h1, h2, ?_⟩
  intro x name v hx hp hn hh
  simp only [step, hi] at h1
  cases h1
  exact onAnswer_handles (s := { (run cfg env is .new).2 with tasks := _ }) hx hp hn hh

/-- The witness: the answer with the number 3 settles the promise of call 2, whose handler is called. -/
example : (run pierCfg pierEnv (pierOpen ++ pierCall ++ pierAnswer) .new).2.past =
      .ended 2 (.resolved ['R'] (.obj [])) :: .handled 2 ['y'] (some (.obj [])) ::
      .delivered (.call 2 1) 3 ⟨[['R']], .obj []⟩ :: .got 3 ⟨[['R']], .obj []⟩ :: .chunk (cafeFrame 6 3).bytes :: pierCalled ∧
    .called 2 1 ∈ pierCalled ∧ .created 1 (.request cafeRequest) (.obj []) ∈ pierCalled := by
  rw [pierAnswer_run]
  exact ⟨rfl, by simp [pierCalled], by simp [pierCalled]⟩

/-- The same response again is dropped, a broadcast is raised. -/
example : ∃ s, run pierCfg pierEnv (pierOpen ++ pierCall ++ pierAnswer ++ [.received ((cafeFrame 6 3).bytes ++ (cafeFrame 7 0).bytes)])
      .new = (false, s) ∧ s.past = .emitted (.broadcast ['U'] (.obj [])) :: .got 0 ⟨[['U']], .obj []⟩ ::
        .ignored 3 ⟨[['R']], .obj []⟩ :: .got 3 ⟨[['R']], .obj []⟩ ::
        .chunk ((cafeFrame 6 3).bytes ++ (cafeFrame 7 0).bytes) :: pierAnswered := by
  rw [run_append_false (by rw [pierAnswer_run]), pierAnswer_run]
  exact ⟨_, rfl, rfl⟩

/-! ### C45 -/

set_option maxRecDepth 20000 in
/-- **C45** violated: a good message and one that cannot be decoded arrive together; the good one is not looked
at, though the client goes on. -/
theorem C45_not_held_back_violated : ∃ (cfg : Cfg) (env : Env) (good bad : Frame), Good cfg.decoder good ∧
    Undecodable cfg.decoder bad ∧ ∃ s, run cfg env [.connected, .received (stream [good, bad])] .new = (false, s) ∧
      looked s.past = [] ∧ s.reader.queue.length = 1 :=
  ⟨pierCfg, pierEnv, cafeFrame 7 0, cafeFrame 20 0, ⟨⟨rfl, by decide⟩, rfl, _, rfl⟩, ⟨⟨rfl, by decide⟩, rfl, rfl⟩, _, rfl,
    rfl, rfl⟩

/-- **C45** (partial) Whatever arrived before, as long as it is complete frames of this protocol on which the decoder
does not throw and the beginning of one more, good or not: if all frames a chunk completes are good and user code throws no
exceptions, then all good messages that arrived since the beginning have been looked at when the chunk is processed, and
nothing is left over but the beginning of a frame. The full property is this for chunks with any frames. -/
theorem C45_not_held_back_partial (cfg : Cfg) (env : Env) (is : List Input) {bytes rest0 rest1 : Bytes}
    {fs0 fs1 : List Frame} (hr : (run cfg env is .new).1 = false)
    (he : ∀ s a, env.throws s a = false)
    (h0 : arrived (run cfg env is .new).2.past = stream fs0 ++ rest0) (hr0 : ∀ f ∈ fs0, Readable cfg.decoder f)
    (hn0 : NoFrame rest0) (h1 : rest0 ++ bytes = stream fs1 ++ rest1) (hr1 : ∀ f ∈ fs1, Good cfg.decoder f)
    (hn1 : NoFrame rest1) (hlen : (arrived (run cfg env is .new).2.past ++ bytes).length < 2 ^ 64) :
    ∃ s, run cfg env (is ++ [.received bytes]) .new = (false, s) ∧ looked s.past = messages cfg.decoder (fs0 ++ fs1) ∧
      s.reader.queue = [] ∧ s.reader.buffer = rest1 := by
  obtain ⟨s', k1, k2, k3⟩ := received_good (env := env) (reading_run cfg env is) he hlen h0 hr0 hn0 h1 hr1 hn1
  refine ⟨s', ?_, k2, by rw [k3], by rw [k3]⟩
  rw [run_append_false hr, run_cons_some (show step cfg env _ (.received bytes) = some s' from k1)]
  rfl

/-- The witness: the message that was held back is looked at with the next good chunk. -/
example : (∀ f ∈ [cafeFrame 7 0, cafeFrame 20 0], Readable pierCfg.decoder f) ∧ Good pierCfg.decoder (cafeFrame 7 5) ∧
    looked (run pierCfg pierEnv [.connected, .received (stream [cafeFrame 7 0, cafeFrame 20 0]), .received (cafeFrame 7 5).bytes]
      .new).2.past = [(0, ⟨[['U']], .obj []⟩), (5, ⟨[['U']], .obj []⟩)] := by
  refine ⟨?_, ⟨⟨rfl, by decide⟩, rfl, _, rfl⟩, rfl⟩
  intro f hf
  simp only [List.mem_cons, List.not_mem_nil, or_false] at hf
  rcases hf with rfl | rfl
  · exact .inl ⟨⟨rfl, by decide⟩, rfl, _, rfl⟩
  · exact .inr ⟨⟨rfl, by decide⟩, rfl, rfl⟩

/-! ### C102 -/

/-- **C102** In every run: the messages looked at are, in order and each once, the first ones of the messages in the
frames of the stream of bytes; those not looked at are in the queue, in order; the frames are of this protocol, and what is left of the stream is
in the buffer: the beginning of a frame, or a frame on which the decoder throws and what follows. -/
theorem C102_messages_in_order (cfg : Cfg) (env : Env) (is : List Input)
    (hlen : (arrived (run cfg env is .new).2.past).length < 2 ^ 64) :
    let s := (run cfg env is .new).2
    ∃ fs, (∀ f ∈ fs, Readable cfg.decoder f) ∧ arrived s.past = stream fs ++ s.reader.buffer ∧
      messages cfg.decoder fs = looked s.past ++ s.reader.queue.map (fun x => (x.header.sequence, x.msg)) ∧
      (NoFrame s.reader.buffer ∨ ∃ f rest, Throwing cfg.decoder f ∧ s.reader.buffer = f.bytes ++ rest) :=
  reading_run cfg env is hlen

example : arrived pierAnswered = stream [cafeFrame 1 1, cafeFrame 2 2, cafeFrame 6 3] ∧
    looked pierAnswered = messages pierDecoder [cafeFrame 1 1, cafeFrame 2 2, cafeFrame 6 3] :=
  ⟨rfl, rfl⟩

/-! ### C103 -/

/-- **C103** In every run: before `ready` is raised with an id, there was a handshake: the connection was opened and a self
key sent, then the answer with this id came, then the hashes were sent, then they were accepted, each answer with the
number of what was sent; and nothing happened between the end of the handshake and `ready`. -/
theorem C103_ready_after_handshake (cfg : Cfg) (env : Env) (is : List Input) {newer older : List Act} {v : Js}
    (h : (run cfg env is .new).2.past = newer ++ .emitted (.ready v) :: older) :
    ∃ n q1 q2 m1 m2 a b c d e f, older = .shakeEnded n true :: a ++ .delivered (.hash n v) q2 m2 :: b ++
        .sent (.hash n v) q2.toNat .hash :: c ++ .delivered (.assign n true) q1 m1 :: d ++
        .sent (.assign n true) q1.toNat .selfKey :: e ++ .assigning n true :: .opened :: f ∧
      GivesKey m1 v ∧ AcceptsHash m2 := by
  have hl := lawful_run cfg env is
  rw [h] at hl
  obtain ⟨n, h', q2, m2, e1, k1, hm2⟩ := hl.at
  have hl := (Lawful.tail hl).2
  subst e1
  have k1 : .delivered (.hash n v) q2 m2 ∈ h' := by
    rcases List.mem_cons.1 k1 with k1 | k1
    · cases k1
    · exact k1
  obtain ⟨a, h2, e2⟩ := List.append_of_mem k1
  have hl := hl.2
  rw [e2] at hl
  obtain ⟨⟨out2, k2⟩, _, _⟩ := hl.at
  have hl := (Lawful.tail hl).2
  obtain ⟨b, h3, e3⟩ := List.append_of_mem k2
  rw [e3] at hl
  obtain ⟨_, _, _, _, _, ⟨q1, m1, k3, hm1⟩, rfl⟩ := hl.at
  have hl := (Lawful.tail hl).2
  obtain ⟨c, h4, e4⟩ := List.append_of_mem k3
  rw [e4] at hl
  obtain ⟨⟨out1, k4⟩, _, _⟩ := hl.at
  have hl := (Lawful.tail hl).2
  obtain ⟨d, h5, e5⟩ := List.append_of_mem k4
  rw [e5] at hl
  obtain ⟨_, _, _, _, k5, rfl⟩ := hl.at
  have hl := (Lawful.tail hl).2
  obtain ⟨e, h6, e6⟩ := List.append_of_mem k5
  rw [e6] at hl
  obtain ⟨f, e7⟩ := (hl.at).2.2 rfl
  refine ⟨n, q1, q2, m1, m2, a, b, c, d, e, f, ?_, hm1, hm2⟩
  rw [e2, e3, e4, e5, e6, e7]
  simp

/-- **C103** In every run `connected`, `disconnected` and `error` are raised once for every connection that is opened, lost or has
an error, and `ready` at most once for every connection that is opened. -/
theorem C103_events_once (cfg : Cfg) (env : Env) (is : List Input) :
    let past := (run cfg env is .new).2.past
    times Act.isConnected past = times Act.isOpened past ∧ times Act.isDisconnected past = times Act.isClosed past ∧
      times Act.isError past = times Act.isTrouble past ∧ times Act.isReady past ≤ times Act.isOpened past := by
  obtain ⟨h1, h2, h3⟩ := even_run_from (cfg := cfg) (env := env) is (s := .new) ⟨rfl, rfl, rfl⟩
  exact ⟨h1, h2, h3, ready_le_opened (lawful_run cfg env is)⟩

/-- **C103** After any run: a connection that is opened makes the client send a self key. An answer with an id that is
not blank is followed by the hashes, and when these are accepted `ready` is raised with the id. Provided messages can
be packed and sent, and the numbers are not used up. -/
theorem C103_handshake_goes_on (cfg : Cfg) (env : Env) (is : List Input) {s : State} (hs : s = (run cfg env is .new).2)
    (hp : cfg.packs .selfKey = true ∧ cfg.packs .hash = true) (hq : s.sequence < 4294967296)
    (hx : ∀ s out, env.sends s out = true) :
    (∃ s' n, step cfg env s .connected = some s' ∧
      [.emitted .connected, .sent (.assign n true) s.sequence .selfKey, .assigning n true, .opened] ++ s.past <:+ s'.past) ∧
    (∀ (i n : Nat) (m : Msg) (u : List Char), s.tasks[i]? = some (.answered (.assign n true) m) → GivesKey m (.str u) →
      u.all jsSpace = false → ∃ s', step cfg env s (.work i) = some s' ∧ .assigned n (.str u) ∈ s'.tasks) ∧
    (∀ (i n : Nat) (v : Js), s.tasks[i]? = some (.assigned n v) →
      ∃ s', step cfg env s (.work i) = some s' ∧ s'.past = .sent (.hash n v) s.sequence .hash :: s.past) ∧
    (∀ (i n : Nat) (v : Js) (m : Msg), s.tasks[i]? = some (.answered (.hash n v) m) → AcceptsHash m →
      ∃ s', step cfg env s (.work i) = some s' ∧ .emitted (.ready v) :: .shakeEnded n true :: s.past <:+ s'.past) := by
  subst hs
  refine ⟨connected_asks (inv_run cfg env is) hp.1 hq hx, ?_, ?_, ?_⟩
  · intro i n m u h1 h2 h3
    obtain ⟨s', k1, k2, _⟩ := key_goes_on (cfg := cfg) (env := env) h1 h2 h3
    exact ⟨s', k1, k2⟩
  · intro i n v h1
    exact assigned_asks (inv_run cfg env is) h1 hp.2 hq hx
  · intro i n v m h1 h2
    exact hash_ready h1 h2

/-- The witness: a handshake. -/
example : ∃ s, run pierCfg pierEnv pierOpen .new = (false, s) ∧ s.past = [] ++ .emitted (.ready (.str ['u'])) :: pierPast.tail ∧
    times Act.isReady s.past = 1 ∧ times Act.isOpened s.past = 1 :=
  ⟨pierReady, pierOpen_run, rfl, rfl, rfl⟩

/-! ### C104 -/

/-- **C104** In every run: the numbers of what is sent lie in 1..4294967295 and increase strictly, so no two messages have
the same; and no message with the number 0 is taken as answer. -/
theorem C104_numbers (cfg : Cfg) (env : Env) (is : List Input) {newer older : List Act} {w : Waiter} {q : Nat} {out : Out}
    (h : (run cfg env is .new).2.past = newer ++ .sent w q out :: older) :
    1 ≤ q ∧ q ≤ 4294967295 ∧ (∀ w' q' out', .sent w' q' out' ∈ older → q' < q) ∧
      ∀ w m, .delivered w 0 m ∉ (run cfg env is .new).2.past := by
  have hl := lawful_run cfg env is
  have hl1 := hl
  rw [h] at hl1
  obtain ⟨h1, h2, h3, _⟩ := hl1.at
  refine ⟨h1, by omega, h3, ?_⟩
  intro w' m hd
  obtain ⟨l1, l2, e⟩ := List.append_of_mem hd
  rw [e] at hl
  obtain ⟨⟨out', k⟩, _⟩ := hl.at
  obtain ⟨l3, l4, e2⟩ := List.append_of_mem k
  have hl2 := (Lawful.tail hl).2
  rw [e2] at hl2
  exact absurd (hl2.at).1 (by decide)

example : ∃ newer older, pierCalled = newer ++ .sent (.call 2 1) 3 (.msg ['Q'] (.obj [])) :: older ∧
    .sent (.hash 0 (.str ['u'])) 2 .hash ∈ older ∧ .sent (.assign 0 true) 1 .selfKey ∈ older :=
  ⟨[], _, rfl, by simp [pierPast], by simp [pierPast]⟩

/-! ### C105 -/

/-- **C105** violated: the workflow `G.Q!E{(Y>G.R)>B?;(N>G.R);}` is accepted, and a server may conclude with `N`; but no client
ever calls the handler for `N`. -/
theorem C105_conclusion_reported_violated : Flow.Parses flowProt flowRequestText (.accepted flowStore flowProt) ∧
    ∃ r ∈ flowStore.requests, (∃ a ∈ r.actions, a.conclusion = some ['N'] ∧ HandlerOf r a ['n']) ∧
      ∀ (cfg : Cfg) (env : Env) (is : List Input) (n o : Nat) (b : Js),
        .created o (.request r) b ∈ (run cfg env is .new).2.past → .called n o ∈ (run cfg env is .new).2.past →
        ∀ v, .handled n ['n'] v ∉ (run cfg env is .new).2.past := by
  refine ⟨flowRequest_parses, _, List.mem_cons_self, ⟨_, List.mem_cons_of_mem _ List.mem_cons_self, rfl, .inr ⟨by decide, rfl⟩⟩, ?_⟩
  intro cfg env is n o b hc hn v hh
  have hl := lawful_run cfg env is
  obtain ⟨x, y, e⟩ := List.append_of_mem hh
  obtain ⟨_, _, o', k', b', q, m, k1, k2, _, k3⟩ := C44_handler_from_answer cfg env is e
  have mono : ∀ z ∈ y, z ∈ (run cfg env is .new).2.past := fun z hz => by rw [e]; simp [hz]
  have := law_called_unique hl hn (mono _ k1)
  subst this
  obtain ⟨rfl, _⟩ := law_created_unique hl hc (mono _ k2)
  generalize hname : (['n'] : Name) = name at k3
  cases k3 with
  | @action _ _ a ref v' _ hp ho =>
    obtain ⟨bs, as, h1, h2, h3, h4⟩ := hp
    rcases bs with _ | ⟨b1, bs⟩
    · simp only [List.nil_append, List.cons.injEq] at h1
      rcases ho with ⟨g1, g2⟩ | ⟨g1, g2⟩
      · exact absurd g1 (by decide)
      · rw [← hname, ← h1.1] at g2
        exact absurd g2 (by decide)
    · rcases bs with _ | ⟨b2, bs⟩
      · simp only [List.cons_append, List.nil_append, List.cons.injEq] at h1
        refine h4 b1 (by simp) ref v' ?_ h3
        rw [← h1.1, ← h2, ← h1.2.1]
      · have := congrArg List.length h1
        simp at this
  | error h1 h2 h3 => exact absurd hname (by decide)

/-- **C105** (partial) In every run: if a request is answered with a message of the type an action declares as
response, and no other action finds its response in this message, then the promise of `send` resolves with this
response, and only the handler of this action may have been called, with the response; unless the object was destroyed, or the handler threw. The full property has no
condition on the responses. -/
theorem C105_conclusion_reported_partial (cfg : Cfg) (env : Env) (is : List Input) {n o : Nat} {r : Flow.Request}
    {b : Js} {q : UInt32} {m : Msg} {ref : Ref} {res : Result} {a : Flow.Action}
    (hc : .created o (.request r) b ∈ (run cfg env is .new).2.past) (hn : .called n o ∈ (run cfg env is .new).2.past)
    {newer older : List Act} (he : (run cfg env is .new).2.past = newer ++ .ended n res :: older)
    (hd : .delivered (.call n o) q m ∈ older) (ha : a ∈ r.actions) (har : a.response = some ref) (hm : IsA m ref)
    (hu : ∀ c ∈ r.actions, ∀ ref' v, c.response = some ref' → Holds m ref' v → c.conclusion = a.conclusion ∧ ref' = ref) :
    ((res = .gone ∧ .destroyed o ∈ older) ∨ (res = .threw ∧ ∃ name v, .handled n name v ∈ older) ∨
      res = .resolved ref m.body) ∧
    ∀ name v, .handled n name v ∈ (run cfg env is .new).2.past → v = some m.body ∧ HandlerOf r a name := by
  have hl := lawful_run cfg env is
  have mono : ∀ z ∈ older, z ∈ (run cfg env is .new).2.past := fun z hz => by rw [he]; simp [hz]
  have hholds : Holds m ref m.body := isA_holds hm
  have hpick : ∀ c ref' v, Picks r m c ref' v → c.conclusion = a.conclusion ∧ ref' = ref ∧ v = m.body := by
    rintro c ref' v ⟨l1, l2, h1, h2, h3, _⟩
    obtain ⟨k1, k2⟩ := hu c (by rw [h1]; simp) ref' v h2 h3
    subst k2
    exact ⟨k1, rfl, holds_unique h3 hholds⟩
  have hno : ¬ NoAction r m := fun h => h a ha ref _ har hholds
  obtain ⟨_, _, o', k, b', k1, k2, _, k3⟩ := C44_result_from_answer cfg env is he
  have := law_called_unique hl hn (mono _ k1)
  subst this
  obtain ⟨rfl, _⟩ := law_created_unique hl hc (mono _ k2)
  refine ⟨?_, ?_⟩
  · rcases k3 q m hd with g | ⟨g, name, v, g1, _⟩ | g
    · exact .inl g
    · exact .inr (.inl ⟨g, name, v, g1⟩)
    · refine .inr (.inr ?_)
      cases g with
      | action hp =>
        obtain ⟨_, rfl, rfl⟩ := hpick _ _ _ hp
        rfl
      | error h1 => exact absurd h1 hno
      | wrong h1 => exact absurd h1 hno
  · intro name v hh
    obtain ⟨x, y, e⟩ := List.append_of_mem hh
    obtain ⟨_, _, o2, k', b2, q2, m2, g1, g2, g3, g4⟩ := C44_handler_from_answer cfg env is e
    have mono2 : ∀ z ∈ y, z ∈ (run cfg env is .new).2.past := fun z hz => by rw [e]; simp [hz]
    have := law_called_unique hl hn (mono2 _ g1)
    subst this
    obtain ⟨rfl, _⟩ := law_created_unique hl hc (mono2 _ g2)
    obtain ⟨_, rfl⟩ := law_answer_unique hl (mono2 _ g3) (mono _ hd)
    cases g4 with
    | action hp ho =>
      obtain ⟨c1, rfl, rfl⟩ := hpick _ _ _ hp
      refine ⟨rfl, ?_⟩
      unfold HandlerOf at ho ⊢
      rw [← c1]
      exact ho
    | error h1 => exact absurd h1 hno

/-- The witness. -/
example : ∃ a ∈ cafeRequest.actions, a.response = some ['R'] ∧ IsA ⟨[['R']], .obj []⟩ ['R'] ∧ HandlerOf cafeRequest a ['y'] ∧
    ∃ older, (run pierCfg pierEnv (pierOpen ++ pierCall ++ pierAnswer) .new).2.past =
        [] ++ .ended 2 (.resolved ['R'] (.obj [])) :: older ∧
      .delivered (.call 2 1) 3 ⟨[['R']], .obj []⟩ ∈ older := by
  rw [pierAnswer_run]
  exact ⟨_, List.mem_cons_self, rfl, (isA_iff _ _).2 rfl, .inr ⟨by decide, rfl⟩, _, rfl, by simp⟩

/-! ### C106 -/

/-- A conclusion called `Err`. -/
def errText : List Char := "G.Q!E{(Err>G.R)>B?;(N>B);}".toList

def errRequest : Flow.Request :=
  ⟨some "G.Q".toList, some "E".toList, [⟨some "Err".toList, some "G.R".toList, [⟨['B'], true⟩], [], false⟩,
     ⟨some ['N'], some ['B'], [], [], false⟩], [], [], .nothing, true⟩

def errStore : Flow.Store := ⟨[], [errRequest], [], none⟩

set_option maxRecDepth 20000 in
theorem errText_parses : Flow.Parses flowProt errText (.accepted errStore flowProt) := ⟨100, by rfl⟩

/-- A request is answered. -/
def errRun (id : UInt32) : List Input :=
  [.user (.create (.request errRequest) (.obj [])), .user (.on 0 "err".toList), .user (.send 0),
    .received (cafeFrame id 1).bytes, .work 0]

set_option maxRecDepth 20000 in
/-- **C106** violated: the workflow `G.Q!E{(Err>G.R)>B?;(N>B);}` is accepted; the handler `err` is called both when a server
concludes with `Err` and when it answers with the error `E`. -/
theorem C106_own_handler_violated : Flow.Parses flowProt errText (.accepted errStore flowProt) ∧
    ∃ (d : Rust.Decoder Msg) (packs : Out → Bool) (env : Env) (m m' : Msg), IsA m "G.R".toList ∧ IsA m' "E".toList ∧
      (∃ is, .delivered (.call 1 0) 1 m ∈ (run ⟨d, errStore, packs⟩ env is .new).2.past ∧
        .handled 1 "err".toList (some m.body) ∈ (run ⟨d, errStore, packs⟩ env is .new).2.past) ∧
      ∃ is, .delivered (.call 1 0) 1 m' ∈ (run ⟨d, errStore, packs⟩ env is .new).2.past ∧
        .handled 1 "err".toList (some m'.body) ∈ (run ⟨d, errStore, packs⟩ env is .new).2.past := by
  refine ⟨errText_parses, pierDecoder, fun _ => true, pierEnv, ⟨[['G'], ['R']], .obj []⟩, ⟨[['E']], .obj []⟩,
    (isA_iff _ _).2 rfl, (isA_iff _ _).2 rfl, ⟨errRun 9, ?_⟩, errRun 8, ?_⟩
  · have e : (run ⟨pierDecoder, errStore, fun _ => true⟩ pierEnv (errRun 9) .new).2.past =
        [.ended 1 (.resolved "G.R".toList (.obj [])), .handled 1 "err".toList (some (.obj [])),
          .delivered (.call 1 0) 1 ⟨[['G'], ['R']], .obj []⟩, .got 1 ⟨[['G'], ['R']], .obj []⟩, .chunk (cafeFrame 9 1).bytes,
          .sent (.call 1 0) 1 (.msg "G.Q".toList (.obj [])), .called 1 0, .created 0 (.request errRequest) (.obj [])] := rfl
    rw [e]
    exact ⟨by simp, by simp⟩
  · have e : (run ⟨pierDecoder, errStore, fun _ => true⟩ pierEnv (errRun 8) .new).2.past =
        [.ended 1 (.resolved "E".toList (.obj [])), .handled 1 "err".toList (some (.obj [])),
          .delivered (.call 1 0) 1 ⟨[['E']], .obj []⟩, .got 1 ⟨[['E']], .obj []⟩, .chunk (cafeFrame 8 1).bytes,
          .sent (.call 1 0) 1 (.msg "G.Q".toList (.obj [])), .called 1 0, .created 0 (.request errRequest) (.obj [])] := rfl
    rw [e]
    exact ⟨by simp, by simp⟩

/-- **C106** (partial) In every run: if the conclusions of a request with several of them differ in lower case and none is `err` then, then
a handler called for a call of it is that of the one action that was answered with, or `err` if the answer is the
error. The full property has no condition on the names. -/
theorem C106_own_handler_partial (cfg : Cfg) (env : Env) (is : List Input) {n o : Nat} {r : Flow.Request} {b : Js}
    {name : Name} {v : Option Js}
    (hc : .created o (.request r) b ∈ (run cfg env is .new).2.past) (hn : .called n o ∈ (run cfg env is .new).2.past)
    (hh : .handled n name v ∈ (run cfg env is .new).2.past) (hlen : 1 < r.actions.length)
    (hd : ∀ a ∈ r.actions, ∀ c ∈ r.actions, (a.conclusion.getD []).map Char.toLower = (c.conclusion.getD []).map Char.toLower →
      a = c)
    (herr : ∀ a ∈ r.actions, (a.conclusion.getD []).map Char.toLower ≠ "err".toList) :
    ∃ q m, .delivered (.call n o) q m ∈ (run cfg env is .new).2.past ∧
      ((∃ a ∈ r.actions, name = (a.conclusion.getD []).map Char.toLower) →
        ∃ a ref w, Picks r m a ref w ∧ v = some w ∧ ∀ c ∈ r.actions, name = (c.conclusion.getD []).map Char.toLower → c = a) ∧
      (name = "err".toList → ∃ ref w, NoAction r m ∧ r.error = some ref ∧ Holds m ref w ∧ v = some w) ∧
      ((∃ a ∈ r.actions, name = (a.conclusion.getD []).map Char.toLower) ∨ name = "err".toList) := by
  have hl := lawful_run cfg env is
  obtain ⟨x, y, e⟩ := List.append_of_mem hh
  obtain ⟨_, _, o', k', b', q, m, k1, k2, k4, k3⟩ := C44_handler_from_answer cfg env is e
  have mono : ∀ z ∈ y, z ∈ (run cfg env is .new).2.past := fun z hz => by rw [e]; simp [hz]
  have := law_called_unique hl hn (mono _ k1)
  subst this
  obtain ⟨rfl, _⟩ := law_created_unique hl hc (mono _ k2)
  refine ⟨q, m, mono _ k4, ?_⟩
  cases k3 with
  | @action _ _ a ref w _ hp ho =>
    have hmem : a ∈ r.actions := by
      obtain ⟨l1, l2, h1, _⟩ := hp
      rw [h1]; simp
    rcases ho with ⟨g, _⟩ | ⟨_, rfl⟩
    · exact absurd hlen (Nat.not_lt.2 g)
    · refine ⟨fun _ => ⟨a, ref, w, hp, rfl, fun c hcm hce => (hd a hmem c hcm hce).symm⟩, fun h => absurd h (herr a hmem),
        .inl ⟨a, hmem, rfl⟩⟩
  | @error _ _ ref w h1 h2 h3 =>
    refine ⟨?_, fun _ => ⟨ref, w, h1, h2, h3, rfl⟩, .inr rfl⟩
    rintro ⟨a, ha, g⟩
    exact absurd g.symm (herr a ha)

example : 1 < cafeRequest.actions.length ∧
    (∀ a ∈ cafeRequest.actions, ∀ c ∈ cafeRequest.actions,
      (a.conclusion.getD []).map Char.toLower = (c.conclusion.getD []).map Char.toLower → a = c) ∧
    (∀ a ∈ cafeRequest.actions, (a.conclusion.getD []).map Char.toLower ≠ "err".toList) ∧
    .handled 2 ['y'] (some (.obj [])) ∈ pierAnswered := by
  refine ⟨by decide, ?_, ?_, by simp [pierAnswered]⟩
  · intro a ha c hc h
    simp only [cafeRequest, List.mem_cons, List.not_mem_nil, or_false] at ha hc
    rcases ha with rfl | rfl <;> rcases hc with rfl | rfl <;> first | rfl | exact absurd h (by decide)
  · intro a ha
    simp only [cafeRequest, List.mem_cons, List.not_mem_nil, or_false] at ha
    rcases ha with rfl | rfl <;> decide

/-! ### C107 -/

/-- Nothing can be sent before a call has ended. -/
def lateEnv : Env := ⟨fun _ _ => [], fun _ _ => false,
  fun s _ => s.past.any (fun a => match a with | .ended .. => true | _ => false)⟩

/-- A request that cannot be sent is sent again. -/
def againRun : List Input :=
  [.user (.create (.request cafeRequest) (.obj [])), .user (.send 0), .work 0, .user (.send 0)]

set_option maxRecDepth 20000 in
/-- **C107** violated: the transport does not take the message of a request; the call ends. Later the transport takes messages, but
a second `send` is refused since the object were in use. -/
theorem C107_object_reusable_violated : ∃ (cfg : Cfg) (env : Env) (is : List Input),
    (∀ out, env.sends (run cfg env is .new).2 out = true) ∧ (run cfg env is .new).2.tasks = [] ∧
    (run cfg env is .new).2.past = [.ended 2 .busy, .called 2 0, .ended 1 .failed, .called 1 0,
      .created 0 (.request cafeRequest) (.obj [])] :=
  ⟨pierCfg, lateEnv, againRun, fun _ => rfl, rfl, rfl⟩

/-- **C107** (partial) After every run: `send` of an object that was not destroyed and all whose calls have ended, none of
them because its message could not be packed or sent, sends the message of the object; provided the message can be packed and
sent and the numbers are not used up. The full property also allows calls whose message could not be sent. -/
theorem C107_object_reusable_partial (cfg : Cfg) (env : Env) (is : List Input) {s : State} (hs : s = (run cfg env is .new).2)
    {o : Nat} {k : Kind} {b : Js} {ref : Ref} (hc : .created o k b ∈ s.past) (hd : .destroyed o ∉ s.past)
    (hcall : ∀ n, .called n o ∈ s.past → ∃ r, .ended n r ∈ s.past ∧ r ≠ .failed)
    (hr : k.Asks ref) (hp : cfg.packs (.msg ref b) = true) (hq : s.sequence < 4294967296)
    (hx : ∀ s out, env.sends s out = true) :
    ∃ s' n, step cfg env s (.user (.send o)) = some s' ∧
      s'.past = .sent (.call n o) s.sequence (.msg ref b) :: .called n o :: s.past := by
  subst hs
  obtain ⟨n, h⟩ := send_goes_out (inv_run cfg env is) hc (whole_run cfg env is) hd hcall hr hp hq hx
  exact ⟨_, n, rfl, h⟩

/-- The witness: a request object is used twice. -/
example : ∃ s, run pierCfg pierEnv (pierOpen ++ pierCall ++ pierAnswer ++ [.user (.send 1)]) .new = (false, s) ∧
    s.past = .sent (.call 3 1) 4 (.msg ['Q'] (.obj [])) :: .called 3 1 :: pierAnswered := by
  rw [run_append_false (by rw [pierAnswer_run]), pierAnswer_run]
  exact ⟨_, rfl, rfl⟩

/-! ### C108 -/

/-- The connection is lost while a request waits for its answer. -/
def lostCall : List Input := [.user (.create (.request cafeRequest) (.obj [])), .user (.send 0), .disconnected]

def lostPast : List Act :=
  [.emitted .disconnected, .closed, .sent (.call 1 0) 1 (.msg ['Q'] (.obj [])), .called 1 0,
    .created 0 (.request cafeRequest) (.obj [])]

set_option maxRecDepth 20000 in
theorem lostCall_run : run pierCfg pierEnv lostCall .new =
    (false, ⟨.new, [(1, .call 1 0)], none, 2, [(0, ⟨.request cafeRequest, .obj [], .pending, []⟩)], [], 2, lostPast⟩) := rfl

/-- **C108** violated: the connection is lost while a call waits. Whatever happens then, short of data that arrive: the call never ends. -/
theorem C108_no_call_waits_for_ever_violated : ∃ (cfg : Cfg) (env : Env) (is : List Input),
    (run cfg env is .new).1 = false ∧ (run cfg env is .new).2.tasks = [] ∧ (run cfg env is .new).2.past = lostPast ∧
    ∀ js, (∀ j ∈ js, ∀ b, j ≠ .received b) → .closed ∈ (run cfg env (is ++ js) .new).2.past ∧
      .called 1 0 ∈ (run cfg env (is ++ js) .new).2.past ∧ ∀ r, .ended 1 r ∉ (run cfg env (is ++ js) .new).2.past := by
  refine ⟨pierCfg, pierEnv, lostCall, by rw [lostCall_run], by rw [lostCall_run], by rw [lostCall_run], ?_⟩
  intro js hj
  have hl := lawful_run pierCfg pierEnv (lostCall ++ js)
  obtain ⟨l, e1, e2⟩ : ∃ l, (run pierCfg pierEnv (lostCall ++ js) .new).2.past = l ++ lostPast ∧
      ∀ a ∈ l, ∀ q m, a ≠ .got q m := by
    rw [run_append_false (by rw [lostCall_run]), lostCall_run]
    obtain ⟨_, l, e, h⟩ := adds_quiet (cfg := pierCfg) (env := pierEnv) js hj
      ⟨.new, [(1, .call 1 0)], none, 2, [(0, ⟨.request cafeRequest, .obj [], .pending, []⟩)], [], 2, lostPast⟩
    exact ⟨l, e, fun a ha => (h a ha).2⟩
  refine ⟨by rw [e1]; simp [lostPast], by rw [e1]; simp [lostPast], ?_⟩
  intro r hr
  obtain ⟨q, m, hd⟩ := law_not_ended hl (n := 1) (o := 0) (q := 1) (out := .msg ['Q'] (.obj []))
    (by rw [e1]; simp [lostPast]) hr
  obtain ⟨x, y, e⟩ := List.append_of_mem hd
  rw [e] at hl
  obtain ⟨_, _, h', k⟩ := hl.at
  have hg : .got q m ∈ l ++ lostPast := by rw [← e1, e, k]; simp
  rcases List.mem_append.1 hg with hg | hg
  · exact e2 _ hg q m rfl
  · simp [lostPast] at hg

/-- **C108** (partial) After every run: a call has ended, or its message was sent and the answer did not come, or there is a job
that ends it. The full property excludes the second case once the connection is lost. -/
theorem C108_no_call_waits_for_ever_partial (cfg : Cfg) (env : Env) (is : List Input) {n o : Nat}
    (h : .called n o ∈ (run cfg env is .new).2.past) :
    (∃ r, .ended n r ∈ (run cfg env is .new).2.past) ∨
    (∃ q out, .sent (.call n o) q out ∈ (run cfg env is .new).2.past ∧
      ∀ q m, .delivered (.call n o) q m ∉ (run cfg env is .new).2.past) ∨
    ∃ i s' r, step cfg env (run cfg env is .new).2 (.work i) = some s' ∧ .ended n r ∈ s'.past := by
  rcases call_state (inv_run cfg env is) h with k | k | ⟨i, t, k1, k2⟩
  · exact .inl k
  · exact .inr (.inl k)
  · obtain ⟨s', r, k3, k4⟩ := job_ends (env := env) (inv_run cfg env is) k1 k2
    exact .inr (.inr ⟨i, s', r, k3, k4⟩)

example : .called 2 1 ∈ (run pierCfg pierEnv (pierOpen ++ pierCall ++ pierAnswer) .new).2.past := by
  rw [pierAnswer_run]
  simp [pierAnswered, pierCalled]

/-! ### C109 -/

/-- The header of a frame with a body of 100 bytes. -/
def torn : Bytes := Frame.bytes ⟨⟨6, 7, 9, 0, 100⟩, []⟩

set_option maxRecDepth 20000 in
/-- **C109** violated: a connection is lost in the middle of a frame; on the next connection a good message arrives. It is taken as
the rest of that frame, and not looked at. -/
theorem C109_clean_start_violated : ∃ (cfg : Cfg) (env : Env) (f g : Frame) (part : Bytes), f.Ok ∧ part <+: f.bytes ∧ Good cfg.decoder g ∧
    ∃ s, run cfg env [.connected, .received part, .disconnected, .connected, .received g.bytes] .new = (false, s) ∧
      looked s.past = [] ∧ s.reader.buffer = part ++ g.bytes := by
  refine ⟨pierCfg, pierEnv, ⟨⟨6, 7, 9, 0, 100⟩, List.replicate 100 0⟩, cafeFrame 7 0, torn, ⟨rfl, by decide⟩,
    ⟨List.replicate 100 0, ?_⟩, ⟨⟨rfl, by decide⟩, rfl, _, rfl⟩, _, rfl, rfl, rfl⟩
  simp [torn, Frame.bytes]

/-- **C109** (partial) If what arrived on all connections so far is complete frames of this protocol on which the decoder does not throw, then nothing
is left of them, and the first data of the next connection, if all its frames are good and user code does not throw, is
looked at completely. The full property has no condition on earlier connections. -/
theorem C109_clean_start_partial (cfg : Cfg) (env : Env) (is : List Input) {bytes rest : Bytes}
    {fs0 fs1 : List Frame} (hr : (run cfg env (is ++ [.disconnected, .connected]) .new).1 = false)
    (he : ∀ s a, env.throws s a = false)
    (h0 : arrived (run cfg env (is ++ [.disconnected, .connected]) .new).2.past = stream fs0)
    (hr0 : ∀ f ∈ fs0, Readable cfg.decoder f) (h1 : bytes = stream fs1 ++ rest) (hr1 : ∀ f ∈ fs1, Good cfg.decoder f)
    (hn1 : NoFrame rest) (hlen : (stream fs0 ++ bytes).length < 2 ^ 64) :
    (run cfg env (is ++ [.disconnected, .connected]) .new).2.reader.buffer = [] ∧
    ∃ s, run cfg env (is ++ [.disconnected, .connected] ++ [.received bytes]) .new = (false, s) ∧
      looked s.past = messages cfg.decoder (fs0 ++ fs1) := by
  refine ⟨?_, ?_⟩
  · obtain ⟨gs, g1, g2, g3, g4⟩ := reading_run cfg env (is ++ [.disconnected, .connected]) (by
      rw [h0]; rw [List.length_append] at hlen; omega)
    exact (stream_unique cfg.decoder g1 hr0 noFrame_nil g4 (g2.symm.trans (by rw [h0]; simp))).2
  · obtain ⟨s, k1, k2, _⟩ := C45_not_held_back_partial cfg env (is ++ [.disconnected, .connected]) (rest0 := []) hr he
      (by rw [h0]; simp) hr0 noFrame_nil h1 hr1 hn1 (by rw [h0]; exact hlen)
    exact ⟨s, k1, k2⟩

example : (run pierCfg pierEnv ([.connected, .received (cafeFrame 7 0).bytes] ++ [.disconnected, .connected]) .new).1 = false ∧
    arrived (run pierCfg pierEnv ([.connected, .received (cafeFrame 7 0).bytes] ++ [.disconnected, .connected]) .new).2.past =
      stream [cafeFrame 7 0] :=
  ⟨rfl, rfl⟩

/-! ### C110 -/

/-- **C110** In every run in which jobs run before the next loss of a connection, as JavaScript does it: the id the client has was given to
it by an answer to a self key since the last connection was lost. After a loss it has none. -/
theorem C110_id_of_this_connection (cfg : Cfg) (env : Env) (is : List Input) (hp : Prompt cfg env is) :
    (∀ u, (run cfg env is .new).2.uuid = some u → ∃ n shake q m,
      .delivered (.assign n shake) q m ∈ since (run cfg env is .new).2.past ∧ GivesKey m (.str u)) ∧
    ∀ s', step cfg env (run cfg env is .new).2 .disconnected = some s' → s'.uuid = none := by
  refine ⟨(owned_run cfg env is hp).1, ?_⟩
  intro s' h
  cases h
  exact (keeps_enter (cfg := cfg) (env := env) (a := .emitted .disconnected) (by simp) (setUuid none ((run cfg env is .new).2.push .closed))).1

/-- The witness. -/
example : Prompt pierCfg pierEnv pierOpen ∧ (run pierCfg pierEnv pierOpen .new).2.uuid = some ['u'] := by
  refine ⟨?_, by rw [pierOpen_run]; rfl⟩
  intro before after e
  have : Input.disconnected ∈ pierOpen := by rw [e]; simp
  simp [pierOpen] at this

/-! ### C111 -/

/-- The hashes are refused. -/
def refusedRun : List Input :=
  [.connected, .received (cafeFrame 1 1).bytes, .work 0, .work 0, .received (cafeFrame 3 2).bytes, .work 0]

def refusedPast : List Act :=
  [.shakeEnded 0 false,
    .delivered (.hash 0 (.str ['u'])) 2 (serviceMsg "HashResponse" [("error".toList, .str ['x'])]),
    .got 2 (serviceMsg "HashResponse" [("error".toList, .str ['x'])]), .chunk (cafeFrame 3 2).bytes,
    .sent (.hash 0 (.str ['u'])) 2 .hash, .assignEnded 0 (some (.str ['u'])),
    .delivered (.assign 0 true) 1 (serviceMsg "SelfKeyResponse" [("uuid".toList, .str ['u'])]),
    .got 1 (serviceMsg "SelfKeyResponse" [("uuid".toList, .str ['u'])]), .chunk (cafeFrame 1 1).bytes,
    .emitted .connected, .sent (.assign 0 true) 1 .selfKey, .assigning 0 true, .opened]

set_option maxRecDepth 20000 in
set_option maxHeartbeats 1000000 in
/-- **C111** violated: a server refuses the hashes; the handshake ends without success, nothing is left to do, and all that was
raised is `connected`. -/
theorem C111_failed_handshake_reported_violated : ∃ (cfg : Cfg) (env : Env) (is : List Input),
    (run cfg env is .new).2.tasks = [] ∧ (run cfg env is .new).2.pending = [] ∧
    .shakeEnded 0 false ∈ (run cfg env is .new).2.past ∧
    ∀ e, .emitted e ∈ (run cfg env is .new).2.past → e = .connected := by
  have h : (run pierCfg pierEnv refusedRun .new).2 = ⟨.new, [], some ['u'], 3, [], [], 1, refusedPast⟩ := rfl
  refine ⟨pierCfg, pierEnv, refusedRun, by rw [h], by rw [h], by rw [h]; simp [refusedPast], ?_⟩
  intro e he
  rw [h] at he
  simpa [refusedPast] using he

/-- **C111** (partial) In every run: a handshake ends once, and if it failed `ready` is never raised for it. The full property also
says that user code learns of it. -/
theorem C111_failed_handshake_reported_partial (cfg : Cfg) (env : Env) (is : List Input) {n : Nat}
    (h : .shakeEnded n false ∈ (run cfg env is .new).2.past) :
    .shakeEnded n true ∉ (run cfg env is .new).2.past ∧
    ∀ newer v older, (run cfg env is .new).2.past = newer ++ .emitted (.ready v) :: older →
      ∃ k older', k ≠ n ∧ older = .shakeEnded k true :: older' := by
  have hl := lawful_run cfg env is
  have h1 : .shakeEnded n true ∉ (run cfg env is .new).2.past := by
    generalize (run cfg env is .new).2.past = past at h hl
    intro h2
    induction past with
    | nil => simp at h
    | cons a past ih =>
      rcases List.mem_cons.1 h with g | g
      · subst g
        rcases List.mem_cons.1 h2 with g2 | g2
        · cases g2
        · exact hl.1.1 _ g2
      · rcases List.mem_cons.1 h2 with g2 | g2
        · subst g2; exact hl.1.1 _ g
        · exact ih g hl.2 g2
  refine ⟨h1, ?_⟩
  intro newer v older e
  rw [e] at hl
  obtain ⟨k, h', q, m, e2, _⟩ := hl.at
  refine ⟨k, h', ?_, e2⟩
  rintro rfl
  exact h1 (by rw [e, e2]; simp)

example : (.shakeEnded 0 false : Act) ∈ refusedPast := by simp [refusedPast]

/-! ### C112 -/

/-- **C112** In every run: after a request object was destroyed nothing is sent for it and none of its handlers is called. -/
theorem C112_destroyed_is_mute (cfg : Cfg) (env : Env) (is : List Input) {newer older : List Act} {o : Nat}
    (h : (run cfg env is .new).2.past = newer ++ .destroyed o :: older) :
    (∀ n q out, .sent (.call n o) q out ∉ newer) ∧
    ∀ n name v, .handled n name v ∈ newer → .called n o ∉ (run cfg env is .new).2.past := by
  have hl := lawful_run cfg env is
  have hm := (dead_run cfg env is).2
  refine ⟨?_, ?_⟩
  · intro n q out hs
    obtain ⟨x, y, e⟩ := List.append_of_mem hs
    rw [h, e, List.append_assoc] at hm
    exact (Mute.tail hm).1 (by simp)
  · intro n name v hh hc
    obtain ⟨x, y, e⟩ := List.append_of_mem hh
    have e2 : (run cfg env is .new).2.past = x ++ .handled n name v :: (y ++ .destroyed o :: older) := by rw [h, e]; simp
    rw [e2] at hm
    obtain ⟨_, _, o', _, _, _, _, k1, _⟩ := C44_handler_from_answer cfg env is e2
    have : o = o' := law_called_unique hl hc (by rw [e2]; simp only [List.mem_append, List.mem_cons] at k1 ⊢; exact .inr (.inr k1))
    subst this
    exact (Mute.tail hm).1 o k1 (by simp)

set_option maxRecDepth 20000 in
/-- The witness: an object is destroyed while its call waits; then its answer comes, and it is sent again. -/
example : (run pierCfg pierEnv [.user (.create (.request cafeRequest) (.obj [])), .user (.on 0 ['y']), .user (.send 0), .user (.destroy 0),
      .received (cafeFrame 6 1).bytes, .work 0, .user (.send 0)] .new).2.past =
    [.ended 2 .gone, .called 2 0, .ended 1 .gone, .delivered (.call 1 0) 1 ⟨[['R']], .obj []⟩, .got 1 ⟨[['R']], .obj []⟩,
      .chunk (cafeFrame 6 1).bytes] ++ .destroyed 0 :: [.sent (.call 1 0) 1 (.msg ['Q'] (.obj [])), .called 1 0,
      .created 0 (.request cafeRequest) (.obj [])] := rfl

end Verif.Props
