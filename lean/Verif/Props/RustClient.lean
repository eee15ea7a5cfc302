import Verif.Proofs.RustClientWhole
import Verif.Proofs.RustClientFails
import Verif.Props.Workflow
import Verif.Props.RustStream
set_option autoImplicit false
/-!
Property theorems about the generated Rust client: C39–C43 and C96–C101. The client is a list of
tasks; a run is any list of inputs, see `Client.Input`. What happened is kept newest first.
-/
namespace Verif.Props

open Verif Verif.Spec Verif.Client

/-! ### A client for witnesses -/

/-- Messages: 1 confirmation, 2 self key, 3 hash, 4 hash with error, 5 confirmed beacon, 6 response
`R`, 7 broadcast `U`, 8 error `E`; other ids are unknown. -/
def cafeDecoder : Rust.Decoder (In Unit) where
  signature := 7
  getMsg id _ :=
    if id = 1 then .ok .confirmation
    else if id = 2 then .ok (.selfKey ['u'])
    else if id = 3 then .ok (.hash false)
    else if id = 4 then .ok (.hash true)
    else if id = 5 then .ok (.beacon false)
    else if id = 6 then .ok (.msg ['R'] ())
    else if id = 7 then .ok (.msg ['U'] ())
    else if id = 8 then .ok (.msg ['E'] ())
    else .err

/-- A frame with an empty body. -/
def cafeFrame (id : UInt32) (seq : UInt32) : Frame := ⟨⟨id, 7, seq, 0, 0⟩, []⟩

/-- The request of the witness. -/
def cafeRequest : Flow.Request :=
  ⟨some ['Q'], some ['E'], [⟨some ['Y'], some ['R'], [⟨['U'], false⟩], [], false⟩,
    ⟨some ['N'], some ['S'], [], [], false⟩], [], [], .nothing, true⟩

def cafeCfg : Cfg Unit where
  decoder := cafeDecoder
  workflow := ⟨[], [cafeRequest], [⟨['B'], false⟩], none⟩
  packs _ := true
  parseUuid u := some u

/-- A request is made and sent, with the number 11. -/
def callRun : List (Input Unit) :=
  [.call (.request cafeRequest) (), .api true, .proceed 0, .api true, .authMessage, .proceed 0, .api true]

/-- What the state is then. -/
def callState : State Unit where
  api := some ⟨[(11, .call 0)], 11⟩
  queue := []
  msgs := some ⟨.new, .idle, none⟩
  auths := []
  authQueue := []
  calls := [(0, ⟨.request cafeRequest, (), .response 11 .waiting⟩)]
  next := 1
  cancelled := false
  open_ := true
  failed := false
  shut := false
  over := false
  past := [.sent (.call 0) 11 (.msg none ['Q'] ()), .numbered 0 11, .called 0 (.request cafeRequest) ()]

set_option maxRecDepth 20000 in
theorem callRun_state : run cafeCfg callRun .new = callState := by rfl

/-- Then comes the response. -/
def answerRun : List (Input Unit) :=
  [.received (cafeFrame 6 11).bytes, .work, .api true, .work, .work, .proceed 0]

set_option maxRecDepth 20000 in
theorem answerRun_past : (run cafeCfg (callRun ++ answerRun) .new).past =
    .ended 0 (.conclusion (some ['Y']) ['R'] ()) :: .delivered (.call 0) 11 (.msg ['R'] ()) ::
      .got 11 (.msg ['R'] ()) :: .chunk (cafeFrame 6 11).bytes :: callState.past := by
  rw [run_append, callRun_state]
  rfl

/-- A handshake: up to the first request. -/
def shakeRun1 : List (Input Unit) :=
  [.received (cafeFrame 1 0).bytes, .work, .work, .auth 0, .api true]

/-- It waits for the answer to the self key. -/
def shakeState1 : State Unit where
  api := some ⟨[(0, .auth 0)], 10⟩
  queue := []
  msgs := some ⟨.new, .idle, none⟩
  auths := [(0, .key .waiting)]
  authQueue := []
  calls := []
  next := 1
  cancelled := false
  open_ := true
  failed := false
  shut := false
  over := false
  past := [.sent (.auth 0) 0 .selfKey, .authStarted 0, .got 0 .confirmation,
    .chunk (cafeFrame 1 0).bytes]

set_option maxRecDepth 20000 in
theorem shakeRun1_state : run cafeCfg shakeRun1 .new = shakeState1 := by rfl

/-- Up to the second request. -/
def shakeRun2 : List (Input Unit) :=
  [.received (cafeFrame 2 0).bytes, .work, .api true, .work, .work, .auth 0, .api true]

/-- It waits for the answer to the hash. -/
def shakeState2 : State Unit where
  api := some ⟨[(1, .auth 0)], 10⟩
  queue := []
  msgs := some ⟨.new, .idle, none⟩
  auths := [(0, .hash ['u'] .waiting)]
  authQueue := []
  calls := []
  next := 1
  cancelled := false
  open_ := true
  failed := false
  shut := false
  over := false
  past := .sent (.auth 0) 1 .hash :: .delivered (.auth 0) 0 (.selfKey ['u']) :: .got 0 (.selfKey ['u']) ::
    .chunk (cafeFrame 2 0).bytes :: shakeState1.past

set_option maxRecDepth 20000 in
theorem shakeRun2_state : run cafeCfg shakeRun2 shakeState1 = shakeState2 := by rfl

/-- Up to the end. -/
def shakeRun3 : List (Input Unit) :=
  [.received (cafeFrame 3 1).bytes, .work, .api true, .work, .work, .auth 0, .authMessage]

/-- The whole handshake. -/
def shakeRun : List (Input Unit) := shakeRun1 ++ (shakeRun2 ++ shakeRun3)

/-- What happened then. -/
def shakePast : List (Act Unit) :=
  .authEnded 0 (some ['u']) :: .delivered (.auth 0) 1 (.hash false) :: .got 1 (.hash false) ::
    .chunk (cafeFrame 3 1).bytes :: shakeState2.past

set_option maxRecDepth 20000 in
theorem shakeRun_past : (run cafeCfg shakeRun .new).past = .emitted .connected :: shakePast := by
  rw [shakeRun, run_append, run_append, shakeRun1_state, shakeRun2_state]
  rfl

/-! ### C39 -/

/-- **C39** In every run: the numbers of requests and beacons, in the order they are handed out, lie in
10..4294967293, so none is one of the handshake (0 and 1); any 4294967284 consecutive ones are
different; the first ones are 11, 12, …; what is sent for a call has such a number, and when it is
sent nobody else waits for an answer with this number. -/
theorem C39_sequences {P : Type} (cfg : Cfg P) (is : List (Input P)) :
    let past := (run cfg is .new).past
    let ns := numbers past
    (∀ q ∈ ns, 10 ≤ q.toNat ∧ q.toNat ≤ 4294967293) ∧
    (∀ (i j : Nat) (p q : UInt32), i < j → j < i + 4294967284 → ns[i]? = some p → ns[j]? = some q → p ≠ q) ∧
    (∀ (i : Nat) (q : UInt32), i < 4294967283 → ns[i]? = some q → q.toNat = 11 + i) ∧
    ∀ newer older n q o, past = newer ++ .sent (.call n) q o :: older → q ∈ ns ∧
      ∀ w o, .sent w q o ∈ older → ∃ m, .delivered w q m ∈ older := by
  intro past ns
  have h := (numbers_run cfg is).list
  refine ⟨fun q hq => ?_, fun i j p q h1 h2 h3 h4 e => ?_, fun i q h1 h2 => ?_, fun newer older n q o e => ?_⟩
  · obtain ⟨i, hi⟩ := List.getElem?_of_mem hq
    have := h i q hi
    rw [nth] at this
    omega
  · have k1 := h i p h3
    have k2 := h j q h4
    rw [nth] at k1 k2
    rw [e] at k1
    omega
  · have := h i q h2
    rw [nth] at this
    omega
  · have hl := (inv_run cfg is).1.lawful
    have e' : (run cfg is .new).past = newer ++ .sent (.call n) q o :: older := e
    rw [e'] at hl
    have hm : .sent (.call n) q o ∈ (run cfg is .new).past := by rw [e']; simp
    obtain ⟨_, _, _, _, _, k, _⟩ := lawful_sent (inv_run cfg is).1.lawful hm
    exact ⟨mem_numbers k, (hl.at).2.2⟩

/-- Two calls get the numbers 11 and 12. -/
example : numbers (run cafeCfg (callRun ++ [.call (.beacon ['B']) (), .api true]) .new).past = [11, 12] := by
  rw [run_append, callRun_state]
  rfl

/-! ### C40 -/

/-- **C40** In every run: a message is handed to someone only if this one sent a request with the number
of the message and has got no answer to it; it is the message looked at last, with nothing else done
with it; and everybody else who sent a request with this number has got an answer. -/
theorem C40_response_to_its_request {P : Type} (cfg : Cfg P) (is : List (Input P))
    {newer older : List (Act P)} {who : Who} {q : UInt32} {m : In P}
    (h : (run cfg is .new).past = newer ++ .delivered who q m :: older) :
    (∃ o, .sent who q o ∈ older) ∧ (∀ m, .delivered who q m ∉ older) ∧
    (∀ w o, w ≠ who → .sent w q o ∈ older → ∃ m, .delivered w q m ∈ older) ∧
    m ≠ .confirmation ∧ ∃ a b, older = a ++ .got q m :: b ∧ ∀ x ∈ a, ¬ x.handles := by
  have hi := (inv_run cfg is).1
  have hl := hi.lawful
  have hh := hi.handled
  rw [h] at hl hh
  obtain ⟨h1, h2, h3⟩ := hl.at
  obtain ⟨st, hd⟩ := hh.tail
  cases hd with
  | other _ hx => exact absurd trivial hx
  | delivered _ k hc => exact ⟨h1, h2, h3, hc, k.newest.1 _ _ rfl⟩

/-- The witness: the response with the number 11. -/
example : ∃ a b, (.got 11 (.msg ['R'] ()) :: .chunk (cafeFrame 6 11).bytes :: callState.past) =
    a ++ .got 11 (.msg ['R'] ()) :: b ∧ ∀ x ∈ a, ¬ x.handles :=
  (C40_response_to_its_request cafeCfg (callRun ++ answerRun) (newer := [_]) answerRun_past).2.2.2.2

/-- **C40** In every run: a message that is raised as event is the one looked at last; as broadcast if it
is declared as such, as unknown otherwise. Unless asking who waits for it failed, everybody who sent a
request with its number before it came has got an answer. -/
theorem C40_other_messages_raised {P : Type} (cfg : Cfg P) (is : List (Input P))
    {newer older : List (Act P)} {x : Act P} (hx : x.raises)
    (h : (run cfg is .new).past = newer ++ x :: older) :
    ∃ a q m b, older = a ++ .got q m :: b ∧ (∀ y ∈ a, y.handles → y = .emitted .acceptError) ∧
      m ≠ .confirmation ∧
      ((∃ ref body, m = .msg ref body ∧ ref ∈ cfg.broadcasts ∧ x = .emitted (.broadcast ref body)) ∨
        (∀ ref body, m = .msg ref body → ref ∉ cfg.broadcasts) ∧ x = .emitted (.unknown q)) ∧
      (.emitted .acceptError ∉ a → ∀ who o, .sent who q o ∈ b → ∃ m, .delivered who q m ∈ older) := by
  have hi := (inv_run cfg is).1
  have hh := hi.handled
  have hf := (fair_run cfg is).raised
  rw [h] at hh hf
  have hu := hf.at hx
  have key : ∀ {st : Status P} {q m}, Handled cfg.broadcasts older st → st = .open_ q m ∨ st = .refused q m →
      ∃ a b, older = a ++ .got q m :: b ∧ (∀ y ∈ a, y.handles → y = .emitted .acceptError) ∧
        (.emitted .acceptError ∉ a → ∀ who o, .sent who q o ∈ b → ∃ m, .delivered who q m ∈ older) := by
    intro st q m k e
    have : ∃ a b, older = a ++ .got q m :: b ∧ ∀ y ∈ a, y.handles → y = .emitted .acceptError := by
      rcases e with e | e
      · obtain ⟨a, b, e1, e2⟩ := k.newest.1 q m e
        exact ⟨a, b, e1, fun y hy hh => absurd hh (e2 y hy)⟩
      · obtain ⟨a, b, e1, _, e2⟩ := k.newest.2 q m e
        exact ⟨a, b, e1, e2⟩
    obtain ⟨a, b, e1, e2⟩ := this
    refine ⟨a, b, e1, e2, fun hn => hu a q m b e1 (fun y hy => ⟨fun q' m' e => ?_, fun e => ?_⟩)⟩
    · subst e
      exact absurd (e2 _ hy trivial) (by simp)
    · subst e; exact hn hy
  obtain ⟨st, hd⟩ := hh.tail
  cases hd with
  | other _ hn => exact absurd (by cases x <;> simp_all [Act.raises]; split at hx <;> simp_all [Act.handles]) hn
  | got => exact hx.elim
  | delivered => exact hx.elim
  | started => exact hx.elim
  | failed => exact hx.elim
  | broadcast k e hb =>
    obtain ⟨a, b, e1, e2, e3⟩ := key k e
    exact ⟨a, _, _, b, e1, e2, by simp, .inl ⟨_, _, rfl, hb, rfl⟩, e3⟩
  | unknown k e hc hb =>
    obtain ⟨a, b, e1, e2, e3⟩ := key k e
    exact ⟨a, _, _, b, e1, e2, hc, .inr ⟨hb, rfl⟩, e3⟩

/-- **C40** In every run: whatever became of a message that was looked at: it is the last one and still
open, or it was handed over, started a handshake, or was raised, before any other message was handled. -/
theorem C40_no_message_lost {P : Type} (cfg : Cfg P) (is : List (Input P)) {newer older : List (Act P)}
    {q : UInt32} {m : In P} (h : (run cfg is .new).past = newer ++ .got q m :: older) :
    (∀ x ∈ newer, x.handles → x = .emitted .acceptError) ∨
    ∃ a x b, newer = a ++ x :: b ∧ (∀ y ∈ b, y.handles → y = .emitted .acceptError) ∧ Done q m x := by
  have hh := (inv_run cfg is).1.handled
  rw [h] at hh
  rcases hh.fate with ⟨_, e⟩ | ⟨_, e⟩ | e
  · exact .inl (fun x hx hk => absurd hk (e x hx))
  · exact .inl e
  · exact .inr e

/-- **C40** In every run: a call ends at most once. What it returns is what the message says that was
handed to it, for a request that got its number a timeout, or an error of the client; the latter only
if no message was handed to it, and a task of the client has ended or the request cannot be packed. -/
theorem C40_result_from_response {P : Type} (cfg : Cfg P) (is : List (Input P)) {newer older : List (Act P)}
    {n : Nat} {r : Result P} (h : (run cfg is .new).past = newer ++ .ended n r :: older) :
    (∀ r, .ended n r ∉ older) ∧ ∃ job body, .called n job body ∈ older ∧
      ((r = .failed ∧ Hopeless cfg n older) ∨ (r = .timeout ∧ (∃ q, .numbered n q ∈ older) ∧ ∃ x, job = .request x) ∨
        ∃ q m, .delivered (.call n) q m ∈ older ∧ Reports job m r) := by
  have hl := (inv_run cfg is).1.lawful
  have hf := (fails_run cfg is).failed
  rw [h] at hl hf
  obtain ⟨h1, job, body, h2, h3⟩ := hl.at
  refine ⟨h1, job, body, h2, ?_⟩
  rcases h3 with rfl | h3
  · exact .inl ⟨rfl, hf.at⟩
  · exact .inr h3

/-- **C40** In every run: what is sent for a call is what user code passed, once. -/
theorem C40_request_sent_once {P : Type} (cfg : Cfg P) (is : List (Input P)) {newer older : List (Act P)}
    {n : Nat} {q : UInt32} {o : Out P} (h : (run cfg is .new).past = newer ++ .sent (.call n) q o :: older) :
    (∀ p o, .sent (.call n) p o ∉ older) ∧ ∃ job body u ref, .called n job body ∈ older ∧
      job.Asks ref ∧ o = .msg u ref body := by
  have hl := (inv_run cfg is).1.lawful
  rw [h] at hl
  have k := hl.at
  refine ⟨fun p o hm => ?_, ?_⟩
  · obtain ⟨_, _, _, _, _, h1, _⟩ := k.1
    obtain ⟨_, _, _, _, _, h2, _⟩ := lawful_sent hl.tail.2 hm
    cases lawful_numbered hl.tail.2 h1 h2
    exact k.2.1 _ hm
  · obtain ⟨job, body, u, ref, h1, _, h3, h4, _⟩ := k.1
    exact ⟨job, body, u, ref, h1, h3, h4⟩

/-- The witness: the request is answered with its conclusion. -/
example : (.ended 0 (.conclusion (some ['Y']) ['R'] ()) : Act Unit) ∈
    (run cafeCfg (callRun ++ answerRun) .new).past := by rw [answerRun_past]; simp

/-- A broadcast arrives, and a response nobody waits for. -/
def strayRun : List (Input Unit) :=
  [.received (cafeFrame 7 12).bytes, .work, .api true, .work, .work,
    .received (cafeFrame 8 11).bytes, .work, .api true, .work]

set_option maxRecDepth 20000 in
/-- They are raised. -/
example : (run cafeCfg strayRun .new).past =
    [.emitted (.unknown 11), .got 11 (.msg ['E'] ()), .chunk (cafeFrame 8 11).bytes,
      .emitted (.broadcast ['U'] ()), .got 12 (.msg ['U'] ()), .chunk (cafeFrame 7 12).bytes] := by rfl

/-! ### C41 -/

/-- The request takes too long; its response comes late; then user code makes another request. -/
def lateRun : List (Input Unit) :=
  [.timeout 0, .received (cafeFrame 6 11).bytes, .work, .api true, .call (.request cafeRequest) ()]

set_option maxRecDepth 20000 in
/-- **C41** violated: a request takes too long, then its response arrives. The task that sends requests
ends with an error, and so does every later call. The transport works, and nobody stops the client. -/
theorem C41_late_response_violated :
    (∀ i ∈ callRun ++ lateRun, i.Patient ∧ i.Steady) ∧
    ∃ s, run cafeCfg (callRun ++ lateRun) .new = s ∧ s.api = none ∧
      s.past = .ended 1 .failed :: .called 1 (.request cafeRequest) () :: .apiEnded false ::
        .got 11 (.msg ['R'] ()) :: .chunk (cafeFrame 6 11).bytes :: .ended 0 .timeout :: callState.past := by
  refine ⟨by simp [callRun, lateRun, Input.Patient, Input.Steady], _, rfl, ?_, ?_⟩
  · rw [run_append, callRun_state]; rfl
  · rw [run_append, callRun_state]; rfl

/-- **C41** (partial) Requests may take too long. If user code drops no call, the transport takes
messages, and nobody stops the client, it keeps running, with these exceptions: a message came with the
number of a request that took too long, no handshake succeeded although one was tried, the id is no
uuid, the reader panicked (C13). At most 4294967284 calls and one handshake are made. The full property
has no exception for the late message. -/
theorem C41_late_response_partial {P : Type} (cfg : Cfg P) (is : List (Input P))
    (hp : ∀ i ∈ is, i.Patient) (hs : ∀ i ∈ is, i.Steady) (hf : Few (run cfg is .new).past) :
    let s := run cfg is .new
    (s.api.isSome = true ∧ s.msgs.isSome = true ∧ s.open_ = true ∧ s.cancelled = false) ∨
      Late s.past ∨ (∃ n, .authEnded n none ∈ s.past) ∨
      (∃ n w, .authEnded n (some w) ∈ s.past ∧ cfg.parseUuid w = none) ∨ .panicked ∈ s.past := by
  intro s
  rcases up_run cfg is hp hs hf with k | k | k | k | k
  · exact .inl ⟨k.api, k.msgs, k.open_, k.cancelled⟩
  · exact .inr (.inr (.inr (.inr k)))
  · exact .inr (.inl k)
  · exact .inr (.inr (.inl k))
  · exact .inr (.inr (.inr (.inl k)))

/-- A request takes too long and is not answered: the client goes on. -/
example : (∀ i ∈ callRun ++ [.timeout 0], i.Patient ∧ i.Steady) ∧
    Few (run cafeCfg (callRun ++ [.timeout 0]) .new).past ∧
    ¬ Late (run cafeCfg (callRun ++ [.timeout 0]) .new).past := by
  have e : (run cafeCfg (callRun ++ [.timeout 0]) .new).past = .ended 0 .timeout :: callState.past := by
    rw [run_append, callRun_state]; rfl
  refine ⟨by simp [callRun, Input.Patient, Input.Steady], ?_, ?_⟩
  · rw [e]
    exact ⟨by simp [numbers, callState], by simp [callState]⟩
  · rw [e]
    rintro ⟨n, q, m, _, _, h⟩
    simp [callState] at h

/-! ### C42 -/

/-- While the client waits for the answer to its self key, a broadcast comes, with the number 0. -/
def disturbRun : List (Input Unit) :=
  [.received (cafeFrame 7 0).bytes, .work, .api true, .work, .work, .auth 0, .authMessage]

set_option maxRecDepth 20000 in
/-- **C42** violated: a broadcast that comes during the handshake (the server sends broadcasts with the
number 0) is handed to the handshake, which fails, and the client ends with an error. -/
theorem C42_broadcast_in_handshake_violated :
    ['U'] ∈ cafeCfg.broadcasts ∧ (run cafeCfg (shakeRun1 ++ disturbRun) .new).past =
      .messagesEnded false :: .emitted .authError :: .authEnded 0 none ::
        .delivered (.auth 0) 0 (.msg ['U'] ()) :: .got 0 (.msg ['U'] ()) ::
        .chunk (cafeFrame 7 0).bytes :: shakeState1.past := by
  refine ⟨by decide, ?_⟩
  rw [run_append, shakeRun1_state]
  rfl

/-- **C42** (partial) In every run: a handshake fails only if a message cannot be packed, the task that
sends has ended, or the answer handed to it is not the expected one. So no handshake fails if every
message with the number 0 is the answer to the self key (or the confirmation), and every one with the
number 1 is a hash without error. The full property allows broadcasts with the number 0. -/
theorem C42_broadcast_in_handshake_partial {P : Type} (cfg : Cfg P) (is : List (Input P)) :
    let past := (run cfg is .new).past
    (∀ n, .authEnded n none ∈ past → Broken cfg n past) ∧
    (cfg.packs .selfKey = true → cfg.packs .hash = true → (∀ ok, .apiEnded ok ∉ past) →
      (∀ m, .got 0 m ∈ past → m ≠ .confirmation → ∃ u, m = .selfKey u) →
      (∀ m, .got 1 m ∈ past → m ≠ .confirmation → m = .hash false) → ∀ n, .authEnded n none ∉ past) := by
  intro past
  have hb := (shakes_run cfg is).failed
  refine ⟨hb, fun h1 h2 h3 h4 h5 n hn => ?_⟩
  have got : ∀ who q m, .delivered who q m ∈ past → .got q m ∈ past ∧ m ≠ .confirmation := by
    intro who q m hm
    obtain ⟨a, b, e⟩ := List.append_of_mem hm
    obtain ⟨_, _, _, hc, c, d, e1, _⟩ := C40_response_to_its_request cfg is e
    refine ⟨?_, hc⟩
    rw [e, e1]
    simp
  rcases hb n hn with k | k | ⟨ok, k⟩ | ⟨m, k, k2⟩ | ⟨m, k, k2⟩
  · rw [h1] at k; cases k
  · rw [h2] at k; cases k
  · exact h3 ok k
  · obtain ⟨g1, g2⟩ := got _ _ _ k
    obtain ⟨u, e⟩ := h4 m g1 g2
    exact k2 u e
  · obtain ⟨g1, g2⟩ := got _ _ _ k
    exact k2 (h5 m g1 g2)

/-- A broadcast with another number in the middle of the handshake does no harm. -/
def calmRun : List (Input Unit) :=
  [.received (cafeFrame 7 5).bytes, .work, .api true, .work, .work]

set_option maxRecDepth 20000 in
example : (run cafeCfg (shakeRun1 ++ calmRun) .new).past = .emitted (.broadcast ['U'] ()) ::
      .got 5 (.msg ['U'] ()) :: .chunk (cafeFrame 7 5).bytes :: shakeState1.past ∧
    (run cafeCfg (shakeRun1 ++ calmRun) .new).auths = [(0, .key .waiting)] := by
  constructor <;> rw [run_append, shakeRun1_state] <;> rfl

/-! ### C43 -/

/-- **C43** In every run: when the client tells that it is connected, a handshake of it was answered,
first with the id and then with a hash without error, and both answers followed the requests for them;
the id is a uuid. A call is sent without an id or with one that was assigned this way. -/
theorem C43_connected_after_handshake {P : Type} (cfg : Cfg P) (is : List (Input P))
    {newer older : List (Act P)} {x : Act P} (h : (run cfg is .new).past = newer ++ x :: older) :
    let ok (u : List Char) := ∃ n w, cfg.parseUuid w = some u ∧ ∃ a b c d e f g,
      older = a ++ .delivered (.auth n) 1 (.hash false) :: b ++ .sent (.auth n) 1 .hash :: c ++
        .delivered (.auth n) 0 (.selfKey w) :: d ++ .sent (.auth n) 0 .selfKey :: e ++ .authStarted n ::
        f ++ g
    (x = .emitted .connected → ∃ u, ok u) ∧
    (∀ n q u ref body, x = .sent (.call n) q (.msg (some u) ref body) → ok u) := by
  intro ok
  have hl := (inv_run cfg is).1.lawful
  rw [h] at hl
  have h1 := hl.at
  have h2 : Lawful cfg older := hl.tail.2
  have sents : ∀ {l : List (Act P)} {n q o}, Lawful cfg l → .sent (.auth n) q o ∈ l →
      (q = 0 → o = .selfKey) ∧ (q = 1 → o = .hash) := by
    intro l n q o k hm
    rcases (lawful_sent k hm).2 with ⟨rfl, rfl⟩ | ⟨rfl, rfl, _⟩
    · exact ⟨fun _ => rfl, fun e => absurd e (by decide)⟩
    · exact ⟨fun e => absurd e (by decide), fun _ => rfl⟩
  have key : ∀ u, Assigned cfg u older → ok u := by
    rintro u ⟨n, w, k1, k2⟩
    obtain ⟨a, b, e1, m1⟩ := lawful_shaken h2 k1
    rw [e1] at h2
    obtain ⟨⟨o, m2⟩, _⟩ := h2.at
    obtain ⟨b1, c, rfl⟩ := List.append_of_mem m2
    have hb : Lawful cfg (b1 ++ .sent (.auth n) 1 o :: c) := h2.tail.2
    obtain rfl := (sents hb m2).2 rfl
    obtain ⟨k3, _, hw⟩ := hb.at
    have m3 : ∃ u, .delivered (.auth n) 0 (.selfKey u) ∈ c := by
      rcases k3.2 with ⟨e, _⟩ | ⟨_, _, e⟩
      · exact absurd e (by decide)
      · exact e
    obtain ⟨u', m3⟩ := m3
    -- the answer to the self key is unique
    have uniq : ∀ {l : List (Act P)} {m m' : In P}, Lawful cfg l → .delivered (.auth n) 0 m ∈ l →
        .delivered (.auth n) 0 m' ∈ l → m = m' := by
      intro l m m' hl x1 x2
      induction l with
      | nil => simp at x1
      | cons y l ih =>
        rcases List.mem_cons.1 x1 with rfl | y1 <;> rcases List.mem_cons.1 x2 with e | y2
        · cases e; rfl
        · exact absurd y2 (hl.1.2.1 _)
        · subst e; exact absurd y1 (hl.1.2.1 _)
        · exact ih hl.2 y1 y2
    have e2 := uniq hb m1 (List.mem_append_right _ (List.mem_cons_of_mem _ m3))
    cases e2
    obtain ⟨c1, d, rfl⟩ := List.append_of_mem m3
    have hc : Lawful cfg (c1 ++ .delivered (.auth n) 0 (.selfKey w) :: d) := hb.tail.2
    obtain ⟨⟨o, m4⟩, _⟩ := hc.at
    obtain ⟨d1, e, rfl⟩ := List.append_of_mem m4
    have hd : Lawful cfg (d1 ++ .sent (.auth n) 0 o :: e) := hc.tail.2
    obtain rfl := (sents hd m4).1 rfl
    obtain ⟨⟨m5, _⟩, _⟩ := hd.at
    obtain ⟨f, g, rfl⟩ := List.append_of_mem m5
    exact ⟨n, w, k2, a, b1, c1, d1, f, g, [], by rw [e1]; simp⟩
  refine ⟨?_, ?_⟩
  · rintro rfl
    obtain ⟨u, k⟩ := h1
    exact ⟨u, key u k⟩
  · rintro n q u ref body rfl
    obtain ⟨_, _, _, _, _, _, _, e, k⟩ := h1.1
    cases e
    exact key u (k u rfl)

/-- The witness: a whole handshake. -/
example : ∃ u n w, cafeCfg.parseUuid w = some u ∧ ∃ a b c d e f g,
      shakePast = a ++ .delivered (.auth n) 1 (.hash false) :: b ++ .sent (.auth n) 1 .hash :: c ++
        .delivered (.auth n) 0 (.selfKey w) :: d ++ .sent (.auth n) 0 .selfKey :: e ++ .authStarted n ::
        f ++ g :=
  (C43_connected_after_handshake cafeCfg shakeRun (newer := []) shakeRun_past).1 rfl

/-! ### C96 -/

/-- **C96** violated: the workflow `G.Q!E{(Y>G.R)>B?;(N>G.R);}` is accepted, and a server may conclude
with `N`; but no client ever reports `N`. -/
theorem C96_conclusion_reported_violated : Flow.Parses flowProt flowRequestText (.accepted flowStore flowProt) ∧
    ∃ r ∈ flowStore.requests, (∃ a ∈ r.actions, a.conclusion = some ['N']) ∧
      ∀ {P : Type} (cfg : Cfg P) (is : List (Input P)) (n : Nat) (b : P),
        .called n (.request r) b ∈ (run cfg is .new).past →
        ∀ ref body, .ended n (.conclusion (some ['N']) ref body) ∉ (run cfg is .new).past := by
  refine ⟨flowRequest_parses, _, List.mem_cons_self, ⟨_, List.mem_cons_of_mem _ List.mem_cons_self, rfl⟩, ?_⟩
  intro P cfg is n b hc ref body he
  obtain ⟨x, y, e⟩ := List.append_of_mem he
  obtain ⟨_, job, body', k1, k2⟩ := C40_result_from_response cfg is e
  have hl := (inv_run cfg is).1.lawful
  have : .called n job body' ∈ (run cfg is .new).past := by
    rw [e]; exact List.mem_append_right _ (List.mem_cons_of_mem _ k1)
  obtain ⟨rfl, _⟩ := called_unique hl this hc
  rcases k2 with ⟨k2, _⟩ | ⟨k2, _⟩ | ⟨q, m, _, k2⟩
  · cases k2
  · cases k2
  · generalize ho : (some ['N'] : Option Name) = o at k2
    cases k2 with
    | @action _ _ _ bs as a h1 h2 h3 =>
      rcases bs with _ | ⟨b1, bs⟩
      · simp only [List.nil_append, List.cons.injEq] at h1
        rw [← h1.1] at ho
        exact absurd ho (by decide)
      · rcases bs with _ | ⟨b2, bs⟩
        · simp only [List.cons_append, List.nil_append, List.cons.injEq] at h1
          refine h3 b1 (by simp) ?_
          rw [← h1.1, ← h2, ← h1.2.1]
        · have := congrArg List.length h1
          simp at this

/-- **C96** (partial) In every run: if a request has been answered with a response of some action, and no
other action of it declares the same response, then the call reports the conclusion of this action with
the response, unless it took too long. The full property has no condition on the
responses. -/
theorem C96_conclusion_reported_partial {P : Type} (cfg : Cfg P) (is : List (Input P)) {n : Nat}
    {r : Flow.Request} {b body : P} {q : UInt32} {ref : Ref} {res : Result P} {a : Flow.Action}
    (hc : .called n (.request r) b ∈ (run cfg is .new).past)
    {newer older : List (Act P)} (he : (run cfg is .new).past = newer ++ .ended n res :: older)
    (hd : .delivered (.call n) q (.msg ref body) ∈ older) (ha : a ∈ r.actions) (har : a.response = some ref)
    (hu : ∀ c ∈ r.actions, c.response = some ref → c.conclusion = a.conclusion) :
    res = .timeout ∨ res = .conclusion a.conclusion ref body := by
  have hl := (inv_run cfg is).1.lawful
  obtain ⟨_, job, body', k1, k2⟩ := C40_result_from_response cfg is he
  have mono : ∀ z, z ∈ older → z ∈ (run cfg is .new).past := fun z hz => by
    rw [he]; exact List.mem_append_right _ (List.mem_cons_of_mem _ hz)
  obtain ⟨rfl, _⟩ := called_unique hl (mono _ k1) hc
  rcases k2 with ⟨_, k2⟩ | ⟨k2, _⟩ | ⟨q', m, k2, k3⟩
  · exact absurd hd (k2.1 _ _)
  · exact .inl k2
  · obtain ⟨_, rfl⟩ := delivered_unique hl (mono _ k2) (mono _ hd)
    refine .inr ?_
    cases k3 with
    | @action _ _ _ bs as c h1 h2 h3 => rw [hu c (by rw [h1]; simp) h2]
    | error h1 => exact absurd har (h1 a ha)
    | wrong h1 => exact absurd har (h1 a ha)
    | internal h1 => exact absurd rfl (h1 _ _)

/-- The witness. -/
example : ∃ a ∈ cafeRequest.actions, a.response = some ['R'] ∧
    (∀ c ∈ cafeRequest.actions, c.response = some ['R'] → c.conclusion = a.conclusion) ∧
    ∃ older, (run cafeCfg (callRun ++ answerRun) .new).past =
        [] ++ .ended 0 (.conclusion (some ['Y']) ['R'] ()) :: older ∧
      .delivered (.call 0) 11 (.msg ['R'] ()) ∈ older := by
  exact ⟨_, List.mem_cons_self, rfl, by simp [cafeRequest], _, answerRun_past, by simp⟩

/-! ### C97 -/

/-- The connection is lost with an error. -/
def lostRun : List (Input Unit) := [.closed false, .apiStops, .messagesStop, .finish]

set_option maxRecDepth 20000 in
/-- **C97** violated: a connection that ends with an error is not opened again, although the client is
told to reconnect and user code agrees. -/
theorem C97_reconnects_violated :
    (run cafeCfg lostRun .new).over = true ∧ (∀ i ∈ lostRun, i ≠ .shutdown) ∧
      goesOn .reconnect true (run cafeCfg lostRun .new) = false := ⟨rfl, by simp [lostRun], rfl⟩

/-- **C97** (partial) In every run: a client that ended without error, was not asked to shut down, and is
told to reconnect, does so exactly if user code agrees. It never reconnects if it is told not to, if
user code disagrees, if it ended with an error, or after user code asked for shutdown. The full
property is that the error makes no difference. -/
theorem C97_reconnects_partial {P : Type} (cfg : Cfg P) (is : List (Input P)) (strategy : Reconnection)
    (agrees : Bool) :
    let s := run cfg is .new
    (.emitted (.shutdown true) ∈ s.past → .shutdown ∉ is → goesOn .reconnect agrees s = agrees) ∧
    (goesOn strategy agrees s = true → strategy = .reconnect ∧ agrees = true ∧
      .emitted (.shutdown true) ∈ s.past) ∧
    (∀ before after, is = before ++ .shutdown :: after → (run cfg before .new).cancelled = false →
      goesOn strategy agrees s = false) := by
  intro s
  have ho := over_run cfg is
  refine ⟨fun h1 h2 => ?_, fun h => ?_, fun before after e hb => ?_⟩
  · obtain ⟨k1, k2⟩ := ho.told true h1
    have k3 : (run cfg is .new).shut = false :=
      not_shut_run cfg is .new rfl (fun i hi e => h2 (e ▸ hi))
    show goesOn .reconnect agrees (run cfg is .new) = agrees
    simp [goesOn, k1, k2, k3]
  · have h' : goesOn strategy agrees (run cfg is .new) = true := h
    simp only [goesOn, Bool.and_eq_true, Bool.not_eq_true', decide_eq_true_eq] at h'
    obtain ⟨⟨⟨⟨h1, h2⟩, h3⟩, _⟩, h5⟩ := h'
    refine ⟨h3, h5, ?_⟩
    rcases (ho.ended h1).2.2.2 with k | ⟨_, k⟩
    · rw [h2] at k; exact k
    · rw [h2] at k; cases k
  · have k : (run cfg is .new).shut = true := by
      rw [e, run_append]
      refine shut_run cfg after _ ?_
      rw [shut_step, hb]
      simp
    show goesOn strategy agrees (run cfg is .new) = false
    simp [goesOn, k]

set_option maxRecDepth 20000 in
/-- The connection is closed without error: the client connects again. -/
example : goesOn .reconnect true (run cafeCfg [.closed true, .apiStops, .messagesStop, .finish] .new) = true ∧
    .emitted (.shutdown true) ∈ (run cafeCfg [.closed true, .apiStops, .messagesStop, .finish] .new).past :=
  ⟨rfl, List.mem_cons_self⟩

/-! ### C98, C99 -/

/-- **C98** In every run, as long as the task that reads lives: the bytes that arrived are complete frames
and a rest; the messages it has looked at, and after them the ones it has still to look at, are exactly
the messages of the frames that have the signature of the protocol and decode, in order, each once. -/
theorem C98_messages_in_order {P : Type} (cfg : Cfg P) (is : List (Input P)) {t : Msgs P}
    (ht : (run cfg is .new).msgs = some t) :
    ∃ fs : List Frame, (∀ f ∈ fs, f.Ok) ∧
      arrived (run cfg is .new).past = stream fs ++ t.reader.buffer ∧
      looked (run cfg is .new).past ++ t.reader.queue.map (fun x => (x.header.sequence, x.msg)) =
        (fs.filterMap (Spec.delivered cfg.decoder)).map (fun x => (x.header.sequence, x.msg)) := by
  have h := reading_run cfg is
  obtain ⟨h1, h2⟩ := h.reader t ht
  obtain ⟨fs, k1, k2, k3, _⟩ := C52_rust_reader_sound cfg.decoder _ h2
  refine ⟨fs, k1, ?_, ?_⟩
  · rw [← h1, ← k2, fed_ops]
  · rw [h.looked, ← h1, ← k3, List.map_append]

/-- A response and, in the same piece, a frame with an unknown id. -/
def heldRun : List (Input Unit) := [.received ((cafeFrame 6 11).bytes ++ (cafeFrame 99 0).bytes)]

set_option maxRecDepth 20000 in
/-- **C99** violated: a response arrives together with a bad frame behind it. The reader reports the bad
frame; the response is not looked at, whatever the tasks do, and the request takes too long. Only when
more data arrives it is. -/
theorem C99_messages_not_held_back_violated :
    let s := run cafeCfg (callRun ++ heldRun) .new
    s.past = .emitted .readError :: .chunk ((cafeFrame 6 11).bytes ++ (cafeFrame 99 0).bytes) :: callState.past ∧
    step cafeCfg s .work = s ∧ step cafeCfg s (.api true) = s ∧ step cafeCfg s .authMessage = s ∧
    step cafeCfg s (.proceed 0) = s ∧
    (step cafeCfg s (.timeout 0)).past = .ended 0 .timeout :: s.past ∧
    .got 11 (.msg ['R'] ()) ∈ (run cafeCfg [.received (cafeFrame 7 5).bytes, .work] s).past := by
  intro s
  have e : s = run cafeCfg heldRun callState := by
    show run cafeCfg (callRun ++ heldRun) .new = _
    rw [run_append, callRun_state]
  rw [e]
  refine ⟨rfl, rfl, rfl, rfl, rfl, rfl, List.mem_cons_self⟩

/-- **C99** (partial) In every run: when the task that reads waits for data and the last piece was read
without error, every message that has arrived so far was looked at, and what is left is not a complete
frame. The full property has no condition on the last piece. -/
theorem C99_messages_not_held_back_partial {P : Type} (cfg : Cfg P) (is : List (Input P)) {t : Msgs P}
    (ht : (run cfg is .new).msgs = some t) (hi : t.place = .idle) (hh : ¬ Held (run cfg is .new).past) :
    ∃ fs : List Frame, (∀ f ∈ fs, f.Ok) ∧
      arrived (run cfg is .new).past = stream fs ++ t.reader.buffer ∧
      looked (run cfg is .new).past =
        (fs.filterMap (Spec.delivered cfg.decoder)).map (fun x => (x.header.sequence, x.msg)) ∧
      ¬ ∃ f rest, f.Ok ∧ t.reader.buffer = Frame.bytes f ++ rest := by
  obtain ⟨fs, k1, k2, k3⟩ := C98_messages_in_order cfg is ht
  refine ⟨fs, k1, k2, ?_, (whole_run cfg is t ht).resolve_right hh⟩
  rcases (reading_run cfg is).idle t ht hi with k | k
  · rw [k] at k3; simpa using k3
  · exact absurd k hh

set_option maxRecDepth 20000 in
/-- Two messages in one piece, and a part of a third one in the next. -/
example : ∃ t, (run cafeCfg [.received ((cafeFrame 7 5).bytes ++ (cafeFrame 8 6).bytes), .work, .api true, .work,
      .work, .api true, .work, .work, .received ((cafeFrame 6 7).bytes.take 9), .work] .new).msgs = some t ∧
    t.place = .idle ∧
    looked (run cafeCfg [.received ((cafeFrame 7 5).bytes ++ (cafeFrame 8 6).bytes), .work, .api true, .work,
      .work, .api true, .work, .work, .received ((cafeFrame 6 7).bytes.take 9), .work] .new).past =
      [(5, .msg ['U'] ()), (6, .msg ['E'] ())] := ⟨_, rfl, rfl, rfl⟩

/-! ### C100 -/

/-- **C100** In every run: once the client has ended (or both of its tasks), every call that user code
did not drop has returned or returns the next time it goes on: no call waits for ever. -/
theorem C100_no_call_waits_for_ever {P : Type} (cfg : Cfg P) (is : List (Input P)) {n : Nat} {job : Job}
    {body : P} (hc : .called n job body ∈ (run cfg is .new).past) (ha : ∀ n, .abandon n ∉ is)
    (ho : (run cfg is .new).over = true ∨ (run cfg is .new).api = none ∧ (run cfg is .new).msgs = none) :
    ∃ r, .ended n r ∈ (run cfg (is ++ [.proceed n]) .new).past := by
  have h : (run cfg is .new).api = none ∧ (run cfg is .new).msgs = none := by
    rcases ho with h | h
    · exact ⟨((over_run cfg is).ended h).1, ((over_run cfg is).ended h).2.1⟩
    · exact h
  rw [run_append]
  rcases kept_run cfg is ha n job body hc with k | ⟨r, k⟩
  · exact ends_proceed (inv_run cfg is).1 h.1 h.2 k
  · obtain ⟨xs, e⟩ := run_suffix cfg [.proceed n] (run cfg is .new)
    exact ⟨r, by rw [e]; exact List.mem_append_right _ k⟩

set_option maxRecDepth 20000 in
/-- The connection ends while a request waits. -/
example : (run cafeCfg (callRun ++ lostRun) .new).over = true ∧
    (run cafeCfg (callRun ++ lostRun ++ [.proceed 0]) .new).past.head? = some (.ended 0 .failed) := by
  constructor
  · rw [run_append, callRun_state]; rfl
  · rw [run_append, run_append, callRun_state]; rfl

/-! ### C101 -/

/-- **C101** In every run: if one of the three parts of the client (the task that sends, the one that
reads, the connection) has ended, then, as soon as the task that reads is idle, the others end when
they go on, and `listen` returns. -/
theorem C101_parts_end_together {P : Type} (cfg : Cfg P) (is : List (Input P))
    (hp : (run cfg is .new).api = none ∨ (run cfg is .new).msgs = none ∨ (run cfg is .new).open_ = false)
    (hm : ∀ m, (run cfg is .new).msgs = some m → m.place = .idle) (ok : Bool) :
    (run cfg (is ++ [.apiStops, .messagesStop, .closed ok, .finish]) .new).over = true := by
  rw [run_append]
  exact together_ends (together_run cfg is) hp hm ok

/-- The witness: the connection ends while a request waits. -/
example : (run cafeCfg (callRun ++ [.closed false]) .new).open_ = false ∧
    (run cafeCfg (callRun ++ [.closed false]) .new).msgs = some ⟨.new, .idle, none⟩ := by
  constructor <;> rw [run_append, callRun_state] <;> rfl

end Verif.Props
