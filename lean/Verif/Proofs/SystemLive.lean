import Verif.Spec.SystemLive
import Verif.Proofs.SystemNet
import Verif.Proofs.ServerServe
import Verif.Proofs.RustReader
set_option autoImplicit false
/-!
A schedule for a connection: how the parts of client and server go on when everything takes its
regular course.
-/
namespace Verif.System

open Verif Verif.Spec

variable {P : Type} {w : Setup P}

/-! ### The client -/

section client

open Client

variable {cfg : Client.Cfg P}

theorem client_run_append (a b : List (Client.Input P)) (s : Client.State P) :
    Client.run cfg (a ++ b) s = Client.run cfg b (Client.run cfg a s) := by
  simp [Client.run]

/-- A call up to the request on its way. -/
def callSteps (job : Job) (body : P) (k : Nat) : List (Client.Input P) :=
  [.call job body, .api true, .proceed k, .api true, .authMessage, .proceed k, .api true]

theorem call_goes (hp : ∀ o, cfg.packs o = true) {s : Client.State P} {q : UInt32} {id : Option (List Char)} (job : Job) (body : P)
    (h1 : s.api = some ⟨[], q⟩) (h2 : s.queue = []) (h3 : s.msgs = some ⟨⟨[], []⟩, .idle, id⟩) (h4 : s.authQueue = [])
    (h5 : s.calls = []) :
    Client.run cfg (callSteps job body s.next) s = { s with
      api := some ⟨[(nextSequence q, .call s.next)], nextSequence q⟩
      calls := [(s.next, ⟨job, body, .response (nextSequence q) .waiting⟩)]
      next := s.next + 1
      past := .sent (.call s.next) (nextSequence q) (.msg id job.ref body) :: .numbered s.next (nextSequence q) ::
        .called s.next job body :: s.past } := by
  obtain ⟨api, queue, msgs, auths, authQueue, calls, next, a, b, c, d, e, past⟩ := s
  cases h1; cases h2; cases h3; cases h4; cases h5
  simp [Client.run, callSteps, Client.step, Client.call, Client.proceed, Client.apiStep, Client.command, State.command,
    State.push, State.setCall, Client.authMessage, hp]

/-- The response of a call arrives. -/
theorem call_answered {s : Client.State P} {q : UInt32} {id : Option (List Char)} {k : Nat} {job : Job} {body : P} {p : UInt32}
    {h : Rust.Header} {m : In P} {xs : List (Rust.Income (In P))} (hm : m ≠ .confirmation) (hq : h.sequence = q)
    (h1 : s.api = some ⟨[(q, .call k)], p⟩) (h2 : s.queue = [])
    (h3 : s.msgs = some ⟨⟨[], ⟨h, m⟩ :: xs⟩, .between, id⟩)
    (h5 : s.calls = [(k, ⟨job, body, .response q .waiting⟩)]) :
    Client.run cfg [.work, .api true, .work] s = { s with
      api := some ⟨[], p⟩
      msgs := some ⟨⟨[], xs⟩, .between, id⟩
      calls := [(k, ⟨job, body, .response q (.ready m)⟩)]
      past := .delivered (.call k) q m :: .got q m :: s.past } := by
  obtain ⟨api, queue, msgs, auths, authQueue, calls, next, a, b, c, d, e, past⟩ := s
  cases h1; cases h2; cases h3; cases h5
  subst hq
  cases m with
  | confirmation => exact absurd rfl hm
  | _ => simp [Client.run, Client.step, Client.work, Rust.next, Client.apiStep, Client.command, State.command,
      State.push, State.setCall, Client.deliver, Client.answerAccept]

/-- The rest of the messages is for nobody and goes to user code. -/
theorem offer_eq (q : UInt32) (ref : Ref) (x : P) (s : Client.State P) :
    ∃ e, offer cfg q (.msg ref x) s = s.push (.emitted e) ∧
      casts [.emitted e] = if ref ∈ cfg.broadcasts then [(ref, x)] else [] := by
  unfold offer
  dsimp only
  split
  · exact ⟨_, rfl, rfl⟩
  · exact ⟨_, rfl, rfl⟩

/-- The broadcasts among messages. -/
def castsIn (cfg : Client.Cfg P) : List (Rust.Income (In P)) → List (Ref × P)
  | [] => []
  | ⟨_, .msg ref x⟩ :: l => if ref ∈ cfg.broadcasts then (ref, x) :: castsIn cfg l else castsIn cfg l
  | _ :: l => castsIn cfg l

theorem casts_append (a b : List (Client.Act P)) : casts (a ++ b) = casts b ++ casts a := by
  induction a with
  | nil => simp [casts]
  | cons x a ih =>
    cases x with
    | emitted e => cases e <;> simp [casts, ih]
    | _ => simp [casts, ih]

theorem drained (xs ys : List (Rust.Income (In P))) (hx : ∀ x ∈ xs, ∃ ref p, x.msg = .msg ref p) :
    ∀ (s : Client.State P) (id : Option (List Char)) (p : UInt32), s.api = some ⟨[], p⟩ → s.queue = [] →
    s.msgs = some ⟨⟨[], xs ++ ys⟩, .between, id⟩ →
    ∃ is more, (∀ i ∈ is, i = .work ∨ i = .api true) ∧ sents more = [] ∧ casts more = castsIn cfg xs ∧
      Client.run cfg is s = { s with msgs := some ⟨⟨[], ys⟩, .between, id⟩, past := more ++ s.past } := by
  induction xs with
  | nil =>
    intro s id p h1 h2 h3
    refine ⟨[], [], by simp, rfl, rfl, ?_⟩
    obtain ⟨api, queue, msgs, auths, authQueue, calls, next, a, b, c, d, e, past⟩ := s
    cases h3
    rfl
  | cons x xs ih =>
    intro s id p h1 h2 h3
    obtain ⟨h, m⟩ := x
    obtain ⟨ref, y, hm⟩ := hx _ List.mem_cons_self
    cases (show m = _ from hm)
    obtain ⟨e, he, hcast⟩ := offer_eq (cfg := cfg) h.sequence ref y
      ({ s with msgs := some ⟨⟨[], xs ++ ys⟩, .between, id⟩, past := .got h.sequence (.msg ref y) :: s.past })
    have hr : Client.run cfg [.work, .api true, .work] s = { s with
        msgs := some ⟨⟨[], xs ++ ys⟩, .between, id⟩
        past := .emitted e :: .got h.sequence (.msg ref y) :: s.past } := by
      refine Eq.trans ?_ he
      obtain ⟨api, queue, msgs, auths, authQueue, calls, next, a, b, c, d, e, past⟩ := s
      cases h1; cases h2; cases h3
      simp [Client.run, Client.step, Client.work, Rust.next, Client.apiStep, Client.command, State.command,
        State.push, Client.answerAccept]
    obtain ⟨is, more, k1, k2, k4, k3⟩ := ih (fun x hx' => hx x (List.mem_cons_of_mem _ hx')) { s with
        msgs := some ⟨⟨[], xs ++ ys⟩, .between, id⟩
        past := .emitted e :: .got h.sequence (.msg ref y) :: s.past } id p h1 h2 rfl
    refine ⟨[.work, .api true, .work] ++ is, more ++ [.emitted e, .got h.sequence (.msg ref y)], ?_, ?_, ?_, ?_⟩
    · intro i hi
      rcases List.mem_append.1 hi with hi | hi
      · simp only [List.mem_cons, List.not_mem_nil, or_false] at hi
        rcases hi with rfl | rfl | rfl <;> simp
      · exact k1 i hi
    · rw [sents_append, k2]; rfl
    · rw [casts_append, k4, show casts [.emitted e, .got h.sequence (.msg ref y)] = casts [.emitted e] by cases e <;> rfl, hcast]
      show _ = if ref ∈ cfg.broadcasts then (ref, y) :: castsIn cfg xs else castsIn cfg xs
      split <;> rfl
    · rw [client_run_append, hr, k3]
      simp

/-- All messages were looked at. -/
theorem done {s : Client.State P} {id : Option (List Char)} (h3 : s.msgs = some ⟨⟨[], []⟩, .between, id⟩) :
    Client.run cfg [.work] s = { s with msgs := some ⟨⟨[], []⟩, .idle, id⟩ } := by
  obtain ⟨api, queue, msgs, auths, authQueue, calls, next, a, b, c, d, e, past⟩ := s
  cases h3
  rfl

/-- A call returns. -/
theorem call_returns {s : Client.State P} {q : UInt32} {k : Nat} {job : Job} {body : P} {m : In P}
    (h5 : s.calls = [(k, ⟨job, body, .response q (.ready m)⟩)]) :
    Client.run cfg [.proceed k] s = { s with calls := [], past := .ended k (conclude job m) :: s.past } := by
  obtain ⟨api, queue, msgs, auths, authQueue, calls, next, a, b, c, d, e, past⟩ := s
  cases h5
  simp [Client.run, Client.step, Client.proceed, State.endCall, State.dropCall, State.push]

/-- The handshake starts. -/
theorem shake_starts (hp : ∀ o, cfg.packs o = true) {s : Client.State P} {p : UInt32} {id : Option (List Char)} {h : Rust.Header}
    (h1 : s.api = some ⟨[], p⟩) (h2 : s.queue = []) (h3 : s.msgs = some ⟨⟨[], [⟨h, .confirmation⟩]⟩, .between, id⟩)
    (h4 : s.auths = []) :
    Client.run cfg [.work, .work, .auth s.next, .api true] s = { s with
      api := some ⟨[(0, .auth s.next)], p⟩
      msgs := some ⟨⟨[], []⟩, .idle, id⟩
      auths := [(s.next, .key .waiting)]
      next := s.next + 1
      past := .sent (.auth s.next) 0 .selfKey :: .authStarted s.next :: .got h.sequence .confirmation :: s.past } := by
  obtain ⟨api, queue, msgs, auths, authQueue, calls, next, a, b, c, d, e, past⟩ := s
  cases h1; cases h2; cases h3; cases h4
  simp [Client.run, Client.step, Client.work, Rust.next, Client.apiStep, Client.command, State.command,
      State.push, Client.auth, hp]

/-- The id arrives. -/
theorem shake_goes_on (hp : ∀ o, cfg.packs o = true) {s : Client.State P} {p : UInt32} {id : Option (List Char)} {h : Rust.Header}
    {k : Nat} {u : List Char} (hq : h.sequence = 0)
    (h1 : s.api = some ⟨[(0, .auth k)], p⟩) (h2 : s.queue = []) (h3 : s.msgs = some ⟨⟨[], [⟨h, .selfKey u⟩]⟩, .between, id⟩)
    (h4 : s.auths = [(k, .key .waiting)]) :
    Client.run cfg [.work, .api true, .work, .work, .auth k, .api true] s = { s with
      api := some ⟨[(1, .auth k)], p⟩
      msgs := some ⟨⟨[], []⟩, .idle, id⟩
      auths := [(k, .hash u .waiting)]
      past := .sent (.auth k) 1 .hash :: .delivered (.auth k) 0 (.selfKey u) :: .got 0 (.selfKey u) :: s.past } := by
  obtain ⟨api, queue, msgs, auths, authQueue, calls, next, a, b, c, d, e, past⟩ := s
  cases h1; cases h2; cases h3; cases h4
  simp [Client.run, Client.step, Client.work, Rust.next, Client.apiStep, Client.command, State.command,
      State.push, Client.auth, Client.deliver, Client.answerAccept, hp, hq]

/-- The hash was right. -/
theorem shake_ends {s : Client.State P} {p : UInt32} {id : Option (List Char)} {h : Rust.Header}
    {k : Nat} {u v : List Char} (hq : h.sequence = 1) (hv : cfg.parseUuid u = some v)
    (h1 : s.api = some ⟨[(1, .auth k)], p⟩) (h2 : s.queue = []) (h3 : s.msgs = some ⟨⟨[], [⟨h, .hash false⟩]⟩, .between, id⟩)
    (h4 : s.auths = [(k, .hash u .waiting)]) (h5 : s.authQueue = []) :
    Client.run cfg [.work, .api true, .work, .work, .auth k, .authMessage] s = { s with
      api := some ⟨[], p⟩
      msgs := some ⟨⟨[], []⟩, .idle, some v⟩
      auths := []
      past := .emitted .connected :: .authEnded k (some u) :: .delivered (.auth k) 1 (.hash false) ::
        .got 1 (.hash false) :: s.past } := by
  obtain ⟨api, queue, msgs, auths, authQueue, calls, next, a, b, c, d, e, past⟩ := s
  cases h1; cases h2; cases h3; cases h4; cases h5
  simp [Client.run, Client.step, Client.work, Rust.next, Client.apiStep, Client.command, State.command,
      State.push, Client.auth, Client.endAuth, Client.deliver, Client.answerAccept, Client.authMessage, emit, hq, hv]

end client

/-! ### The server -/

section server

open Server

variable {cfg : Server.Cfg P} {env : Server.Env P} {opts : Server.Options}

/-- The acts of sending. -/
def allSent (l : List (Uuid × Server.Out P)) : List (Server.Act P) := (l.map (fun x => .send x.1 0 x.2 true)).reverse

theorem sends_allSent (u : Uuid) (l : List (Uuid × Server.Out P)) :
    sends u (allSent l) = (l.filter (fun x => x.1 = u)).map (fun x => (0, x.2)) := by
  unfold allSent
  induction l with
  | nil => rfl
  | cons x l ih =>
    rw [List.map_cons, List.reverse_cons, sends_append, ih]
    by_cases h : x.1 = u <;> simp [sends, h]

theorem broadcast_sent (hs : ∀ s u q o, env.send s u q o = true) (o : Server.Out P) (us : List Uuid) (s : Server.State P) :
    broadcast env o us s = { s with past := allSent (us.map (fun u => (u, o))) ++ s.past } := by
  induction us generalizing s with
  | nil => rfl
  | cons u us ih =>
    rw [broadcast, ih]
    simp [send, hs, State.push, allSent]

theorem broadcastAll_sent (hs : ∀ s u q o, env.send s u q o = true) (cs : List (Ref × Cast P)) (s : Server.State P) :
    broadcastAll env cs s = { s with past := allSent (flat cs) ++ s.past } := by
  induction cs generalizing s with
  | nil => rfl
  | cons c cs ih =>
    obtain ⟨r, us, p⟩ := c
    rw [broadcastAll, ih, broadcast_sent hs]
    simp [flat, allSent]

theorem finish_sent (hs : ∀ s u q o, env.send s u q o = true) (hp : ∀ o, cfg.packs o = true) (u : Uuid) (q : UInt32)
    (o : Server.Out P) (cs : List (Ref × Cast P)) (s : Server.State P) :
    finish cfg env u q o cs s = (.ok (), { s with past := .deferred :: allSent (flat cs) ++ .send u q o true :: s.past }) := by
  unfold finish
  rw [if_neg (by simp [hp])]
  simp [send, hs, broadcastAll_sent hs, State.push]

theorem flat_msgs (bs : List Flow.Broadcast) (cs : Casts P bs) : ∀ x ∈ flat (castList bs cs), ∃ ref p, x.2 = .msg ref p := by
  intro x hx
  unfold flat at hx
  obtain ⟨c, _, hx⟩ := List.mem_flatMap.1 hx
  obtain ⟨v, _, rfl⟩ := List.mem_map.1 hx
  exact ⟨_, _, rfl⟩

/-- A request is answered as user code decides. -/
theorem process_sent (hs : ∀ s u q o, env.send s u q o = true) (hp : ∀ o, cfg.packs o = true) (r : Flow.Request) (u : Uuid) (p : P)
    (q : UInt32) (s : Server.State P)
    (hd : ∃ o l, Decides env r (s.push (.respond u (r.request.getD []) q)) u p o l) :
    ∃ o l, Decides env r (s.push (.respond u (r.request.getD []) q)) u p o l ∧ (∀ x ∈ l, ∃ ref p, x.2 = .msg ref p) ∧
      process cfg env r u p q s = (.ok (),
        { s with past := .deferred :: allSent l ++ .send u q o true :: .respond u (r.request.getD []) q :: s.past }) := by
  obtain ⟨o, l, hd⟩ := hd
  cases hd with
  | error h1 h2 =>
    refine ⟨_, _, .error h1 h2, by simp, ?_⟩
    unfold process
    dsimp only
    rw [if_pos (by omega), h2]
    exact finish_sent hs hp u q _ [] _
  | @action i x cs l h1 h2 h3 =>
    refine ⟨_, _, .action h1 h2 (castList_gives _ cs), flat_msgs _ _, ?_⟩
    unfold process
    dsimp only
    rw [if_pos (by omega), h2]
    exact finish_sent hs hp u q _ _ _
  | plainError h1 h2 =>
    refine ⟨_, _, .plainError h1 h2, by simp, ?_⟩
    unfold process
    dsimp only
    rw [if_neg (by omega), h2]
    exact finish_sent hs hp u q _ [] _
  | plain h1 h2 =>
    refine ⟨_, _, .plain h1 h2, by simp, ?_⟩
    unfold process
    dsimp only
    rw [if_neg (by omega), h2]
    exact finish_sent hs hp u q _ [] _

/-- Another connection is confirmed. -/
theorem confirm_other (hs : ∀ s u q o, env.send s u q o = true) (hp : ∀ o, cfg.packs o = true)
    (he : ∀ s u, env.error s u = .ok ()) {u v : Uuid} (hv : v ≠ u) {vs : List Uuid} {s : Server.State P} (h : s.confirms = v :: vs) :
    ∃ s' l, Server.step cfg env opts .confirm s = (.ok (), s') ∧ s'.confirms = vs ∧ s'.find u = s.find u ∧
      s'.past = l ++ s.past ∧ sends u l = [] := by
  simp only [Server.step, h]
  unfold confirmation
  split
  · unfold emitError
    simp only [he]
    exact ⟨_, [.error (some v)], rfl, rfl, rfl, rfl, rfl⟩
  · rename_i c hc
    dsimp only
    rw [if_neg (by simp [hp])]
    simp only [send, hs]
    refine ⟨_, [.send v 0 .confirmation true, .confirmed v], rfl, rfl, ?_, rfl, by simp [sends, hv]⟩
    rw [find_push, find_push]
    exact find_set_other (Ne.symm hv)

/-- The connection is confirmed. -/
theorem confirm_own (hs : ∀ s u q o, env.send s u q o = true) (hp : ∀ o, cfg.packs o = true)
    {u : Uuid} {vs : List Uuid} {s : Server.State P} (h : s.confirms = u :: vs) (hst : Stage u false false false false s) :
    ∃ s', Server.step cfg env opts .confirm s = (.ok (), s') ∧ Stage u true false false false s' ∧
      s'.past = .send u 0 .confirmation true :: .confirmed u :: s.past := by
  obtain ⟨c, h1, _, h3, h4, _, h6, _⟩ := hst.here
  simp only [Server.step, h]
  unfold confirmation
  rw [show ({ s with confirms := vs } : Server.State P).find u = some c from h1]
  dsimp only
  rw [if_neg (by simp [hp])]
  simp only [send, hs]
  refine ⟨_, rfl, ⟨{ c with confirmed := true }, ?_, fun _ => rfl, h3, h4, (nomatch ·), h6, (nomatch ·)⟩, rfl⟩
  rw [find_push, find_push]
  exact find_set_self (d := c) h1

/-- A connection is taken. -/
theorem connected_sent (hs : ∀ s u q o, env.send s u q o = true) (hp : ∀ o, cfg.packs o = true)
    {u : Uuid} {s : Server.State P} (hn : s.find u = none) (hc : ∀ s e p, env.emit s e p ≠ .panic) :
    ∃ s' l e, Server.step cfg env opts (.connected u) s = (.ok (), s') ∧ Stage u false false false false s' ∧
      s'.confirms = s.confirms ++ [u] ∧ s'.past = .opened u :: l ++ .event e :: s.past ∧
      (l = [] ∨ ∃ e t cs l', env.emit t e none = .ok cs ∧ Gives e.broadcasts cs l' ∧ l = .deferred :: allSent l' ∧
        ∀ x ∈ l', ∃ ref p, x.2 = .msg ref p) := by
  have key : ∃ s1 l, warned (emitEvent cfg env (defaultEvent cfg "connected".toList) none) s = (.ok (), s1) ∧
      s1.confirms = s.confirms ∧ s1.past = l ++ .event ((defaultEvent cfg "connected".toList).reference.getD []) :: s.past ∧
      (l = [] ∨ ∃ e t cs l', env.emit t e none = .ok cs ∧ Gives e.broadcasts cs l' ∧ l = .deferred :: allSent l' ∧
        ∀ x ∈ l', ∃ ref p, x.2 = .msg ref p) := by
    generalize defaultEvent cfg "connected".toList = e
    unfold warned emitEvent
    dsimp only
    cases h : env.emit (s.push (.event (e.reference.getD []))) e none with
    | panic => exact absurd h (hc _ _ _)
    | err => exact ⟨_, [], rfl, rfl, rfl, .inl rfl⟩
    | ok cs =>
      dsimp only
      rw [if_neg (by simp [hp]), broadcastAll_sent hs]
      exact ⟨_, .deferred :: allSent (flat (castList _ cs)), rfl, rfl, by simp [State.push],
        .inr ⟨e, _, cs, _, h, castList_gives _ _, rfl, flat_msgs _ _⟩⟩
  obtain ⟨s1, l, k1, k2, k3, k4⟩ := key
  have hstep : Server.step cfg env opts (.connected u) s = (.ok (), (insert u s1).2) := by
    simp only [Server.step, addConnection]
    rw [if_neg (by rw [hn]; simp)]
    unfold Proc.andThen
    rw [k1]
    rfl
  refine ⟨_, l, (defaultEvent cfg "connected".toList).reference.getD [], hstep, connected_stage hstep, ?_, ?_, k4⟩
  · show s1.confirms ++ [u] = _
    rw [k2]
  · show .opened u :: s1.past = _
    rw [k3]
    simp

end server

/-! ### Messages under way -/

theorem travels_all {O T : Type} {pack : UInt64 → UInt32 → O → Bytes} {d : Rust.Decoder T} {R : O → T → Prop}
    (L : List (UInt32 × O)) (h : ∀ x ∈ L, ∃ m, Travels pack d x.2 m ∧ R x.2 m) (ts : UInt64) :
    ∃ fs, (∀ f ∈ fs, Good d f) ∧ L.flatMap (fun x => pack ts x.1 x.2) = stream fs ∧
      Pairs (fun x (i : Rust.Income T) => i.header.sequence = x.1 ∧ R x.2 i.msg) L (fs.filterMap (Spec.delivered d)) := by
  induction L with
  | nil => exact ⟨[], by simp, rfl, .nil⟩
  | cons x L ih =>
    obtain ⟨fs, h1, h2, h3⟩ := ih (fun y hy => h y (List.mem_cons_of_mem _ hy))
    obtain ⟨m, k, hr⟩ := h x List.mem_cons_self
    obtain ⟨f, k1, k2, k3, k4⟩ := k ts x.1
    have hg : Good d f := by
      refine ⟨k1, ?_⟩
      unfold Spec.delivered at k4
      split at k4
      · rename_i hs
        refine ⟨hs, ?_⟩
        split at k4
        · rename_i t ht; exact ⟨t, ht⟩
        · cases k4
      · cases k4
    refine ⟨f :: fs, fun g hg' => ?_, ?_, ?_⟩
    · rcases List.mem_cons.1 hg' with rfl | hg'
      · exact hg
      · exact h1 g hg'
    · simp only [List.flatMap_cons, k3, h2, stream]
    · rw [List.filterMap_cons, k4]
      exact .cons ⟨k2, hr⟩ h3

theorem chunk_stream {T : Type} {d : Rust.Decoder T} {fs : List Frame} (h : ∀ f ∈ fs, Good d f) :
    Rust.chunk d ⟨[], []⟩ (stream fs) = (.ok, ⟨[], fs.filterMap (Spec.delivered d)⟩) := by
  have := Rust.chunk_good d fs [] h (by simp) ⟨[], []⟩ (stream fs) [] (by simp) (.inl ⟨rfl, rfl⟩)
  rw [this]
  simp

/-! ### The connection -/

/-- The connection of `u` while the server runs. -/
structure At (n : Net P) (u : Uuid) (cl : Client.State P) (up down : Bytes) (sv : Server.State P) : Prop where
  running : n.exit = .running
  conn : n.find u = some ⟨cl, up, down⟩
  server : n.server = sv

theorem run_append (a b : List (UInt64 × Event P)) (n : Net P) : run w (a ++ b) n = run w b (run w a n) := by
  simp [run]

theorem At.client {u : Uuid} {down : Bytes} {sv : Server.State P} (ts : UInt64) :
    ∀ (is : List (Client.Input P)) {n : Net P} {cl : Client.State P} {up : Bytes}, At n u cl up down sv →
    (∀ i ∈ is, ownClient i = true) →
    ∃ l, (Client.run w.client is cl).past = l ++ cl.past ∧
    At (run w (is.map (fun i => (ts, .client u i))) n) u (Client.run w.client is cl) (up ++ sentUp w ts l) down sv
  | [], n, cl, up, h, _ => ⟨[], rfl, by simpa [sentUp, Client.run, run] using h⟩
  | i :: is, n, cl, up, h, hi => by
    obtain ⟨l, hl⟩ := Client.step_suffix w.client cl i
    have h1 : step w n (ts, .client u i) = n.set u (Conn.goOn w ts i ⟨cl, up, down⟩) := by
      simp [step, h.conn, hi i List.mem_cons_self]
    have h2 : At (step w n (ts, .client u i)) u (Client.step w.client cl i) (up ++ sentUp w ts l) down sv := by
      rw [h1]
      refine ⟨h.running, ?_, h.server⟩
      rw [Net.find_set_self h.conn]
      show some (Conn.mk _ (up ++ sentUp w ts (added cl.past (Client.step w.client cl i).past)) _) = _
      rw [hl, added_append]
    obtain ⟨l', k1, k2⟩ := At.client ts is h2 (fun j hj => hi j (List.mem_cons_of_mem _ hj))
    refine ⟨l' ++ l, ?_, ?_⟩
    · show (Client.run w.client is (Client.step w.client cl i)).past = _
      rw [k1, hl, List.append_assoc]
    · have : sentUp w ts (l' ++ l) = sentUp w ts l ++ sentUp w ts l' := by
        rw [sentUp_eq, sentUp_eq, sentUp_eq, sents_append, List.flatMap_append]
      rw [this, ← List.append_assoc]
      exact k2

/-- The same if the result is known. -/
theorem At.runs {n : Net P} {u : Uuid} {cl cl' : Client.State P} {up down : Bytes} {sv : Server.State P} (h : At n u cl up down sv)
    (ts : UInt64) (is : List (Client.Input P)) (hi : ∀ i ∈ is, ownClient i = true) (hr : Client.run w.client is cl = cl')
    (l : List (Client.Act P)) (hl : cl'.past = l ++ cl.past) :
    At (run w (is.map (fun i => (ts, .client u i))) n) u cl' (up ++ (sents l).flatMap (fun x => w.up ts x.1 x.2.2)) down sv := by
  obtain ⟨l', h1, h2⟩ := At.client (w := w) ts is h hi
  rw [hr] at h1 h2
  have : l' = l := List.append_cancel_right (h1.symm.trans hl)
  subst this
  rw [sentUp_eq] at h2
  exact h2

/-- All bytes arrive at the client. -/
theorem At.toClient {n : Net P} {u : Uuid} {cl : Client.State P} {up : Bytes} {sv : Server.State P} {fs : List Frame}
    {id : Option (List Char)} (h : At n u cl up (stream fs) sv) (ts : UInt64) (hg : ∀ f ∈ fs, Good w.client.decoder f)
    (hm : cl.msgs = some ⟨⟨[], []⟩, .idle, id⟩) :
    At (run w [(ts, .toClient u (stream fs).length)] n) u { cl with
      msgs := some ⟨⟨[], fs.filterMap (Spec.delivered w.client.decoder)⟩, .between, id⟩
      past := .chunk (stream fs) :: cl.past } up [] sv := by
  have hw : waits cl = true := by unfold waits; rw [hm]
  have hr : Client.step w.client cl (.received (stream fs)) = { cl with
      msgs := some ⟨⟨[], fs.filterMap (Spec.delivered w.client.decoder)⟩, .between, id⟩
      past := .chunk (stream fs) :: cl.past } := by
    show Client.received w.client (stream fs) cl = _
    unfold Client.received
    rw [hm]
    dsimp only
    rw [chunk_stream hg]
    rfl
  refine ⟨?_, ?_, ?_⟩
  · simp [run, step, h.conn, hw]; exact h.running
  · simp only [run, List.foldl_cons, List.foldl_nil, step, h.conn, hw, if_true, List.take_length, List.drop_length]
    rw [Net.find_set_self h.conn]
    unfold Conn.goOn
    dsimp only
    rw [hr]
    dsimp only
    rw [show Client.Act.chunk (stream fs) :: cl.past = [Client.Act.chunk (stream fs)] ++ cl.past from rfl, added_append]
    simp [sentUp]
  · simp [run, step, h.conn, hw]; exact h.server

/-- A step of the server. -/
theorem serve_ok {n : Net P} {i : Server.Input P} {s' : Server.State P} (hr : n.exit = .running)
    (hs : Server.step w.server w.env w.opts i n.server = (.ok (), s')) (h1 : i ≠ .shutdown) (h2 : i ≠ .stop) :
    serverStep w n.exit i n.server = (.running, s') := by
  rw [hr]
  unfold serverStep
  dsimp only
  unfold Server.listen
  split
  · rename_i e; cases e
  · rename_i e; cases e; exact absurd rfl h1
  · rename_i e; cases e; exact absurd rfl h2
  · rename_i e; cases e
    rw [hs]
    dsimp only
    unfold Server.listen
    rfl

theorem At.serve {n : Net P} {u : Uuid} {cl : Client.State P} {up down : Bytes} {sv : Server.State P} (h : At n u cl up down sv)
    (ts : UInt64) {i : Server.Input P} {s' : Server.State P} (h1 : i ≠ .shutdown) (h2 : i ≠ .stop)
    (hs : Server.step w.server w.env w.opts i sv = (.ok (), s')) (l : List (Server.Act P)) (hl : s'.past = l ++ sv.past) :
    At (n.serve w ts i) u cl up (down ++ (sends u l).flatMap (fun x => w.down ts x.1 x.2)) s' := by
  have hs' := h.server
  subst hs'
  have hk := serve_ok h.running hs h1 h2
  refine ⟨?_, ?_, ?_⟩
  · show (serverStep w n.exit i n.server).1 = _
    rw [hk]
  · rw [find_serve, h.conn, hk]
    dsimp only [Option.map_some]
    rw [hl, added_append, sentDown_eq]
  · show (serverStep w n.exit i n.server).2 = _
    rw [hk]

/-- All bytes arrive at the server. -/
theorem At.toServer {n : Net P} {u : Uuid} {cl : Client.State P} {up down : Bytes} {sv : Server.State P} (h : At n u cl up down sv)
    (ts : UInt64) {s' : Server.State P}
    (hs : Server.received w.server w.env w.opts u up sv = (.ok (), s')) (l : List (Server.Act P)) (hl : s'.past = l ++ sv.past) :
    At (run w [(ts, .toServer u up.length)] n) u cl [] (down ++ (sends u l).flatMap (fun x => w.down ts x.1 x.2)) s' := by
  have h0 : At (n.set u ⟨cl, [], down⟩) u cl [] down sv := ⟨h.running, by rw [Net.find_set_self h.conn], h.server⟩
  have := h0.serve (w := w) ts (i := .received u up) (by simp) (by simp) hs l hl
  simpa [run, step, h.conn] using this

/-! ### Progress -/

theorem callsOf_append (u : Uuid) (a b : List (UInt64 × Event P)) : callsOf u (a ++ b) = callsOf u a ++ callsOf u b := by
  induction a with
  | nil => rfl
  | cons e a ih =>
    obtain ⟨ts, e⟩ := e
    cases e with
    | client v i =>
      cases i with
      | call job body =>
        simp only [List.cons_append, callsOf]
        split <;> simp [ih]
      | _ => exact ih
    | _ => exact ih

theorem Progress.append {u : Uuid} {a b : List (Client.Job × P)} {es fs : List (UInt64 × Event P)} (h : Progress u a es)
    (k : Progress u b fs) : Progress u (a ++ b) (es ++ fs) :=
  ⟨fun e he => (List.mem_append.1 he).elim (h.regular e) (k.regular e), by rw [callsOf_append, h.calls, k.calls]⟩

/-- Steps of the client without calls. -/
inductive Quiet : Client.Input P → Prop where
  | proceed (k : Nat) : Quiet (.proceed k)
  | api : Quiet (.api true)
  | work : Quiet .work
  | authMessage : Quiet .authMessage
  | auth (k : Nat) : Quiet (.auth k)

theorem Quiet.own {i : Client.Input P} (h : Quiet i) : ownClient i = true := by cases h <;> rfl

theorem Quiet.progress (u : Uuid) (ts : UInt64) : ∀ (is : List (Client.Input P)), (∀ i ∈ is, Quiet i) →
    Progress u [] (is.map (fun i => (ts, .client u i)))
  | [], _ => ⟨by simp, rfl⟩
  | i :: is, h => by
    obtain ⟨h1, h2⟩ := Quiet.progress u ts is (fun j hj => h j (List.mem_cons_of_mem _ hj))
    have hi := h i List.mem_cons_self
    refine ⟨fun e he => ?_, ?_⟩
    · rcases List.mem_cons.1 he with rfl | he
      · cases hi <;> constructor
      · exact h1 e he
    · cases hi <;> exact h2

theorem casts_pairs {name : Uuid → List Char} {cfg : Client.Cfg P} (u : Uuid) : ∀ (l : List (Uuid × Server.Out P)) (xs : List (Rust.Income (Client.In P))),
    (∀ x ∈ l, ∃ ref p, x.2 = .msg ref p) →
    Pairs (fun x (i : Rust.Income (Client.In P)) => i.header.sequence = x.1 ∧ SameAnswer name x.2 i.msg)
      ((l.filter (fun x => x.1 = u)).map (fun x => ((0 : UInt32), x.2))) xs →
    (∀ x ∈ xs, ∃ ref p, x.msg = .msg ref p) ∧
    castsIn cfg xs = (messagesFor u l).filter (fun x => x.1 ∈ cfg.broadcasts)
  | [], xs, _, h => by cases h; exact ⟨by simp, rfl⟩
  | (v, o) :: l, xs, hl, h => by
    obtain ⟨ref, p, ho⟩ := hl _ List.mem_cons_self
    cases (show o = _ from ho)
    have hl' : ∀ x ∈ l, ∃ ref p, x.2 = .msg ref p := fun x hx => hl x (List.mem_cons_of_mem _ hx)
    by_cases hv : v = u
    · subst hv
      rw [List.filter_cons_of_pos (by simp), List.map_cons] at h
      obtain _ | ⟨⟨_, hs⟩, h⟩ := h
      rename_i i xs _
      obtain ⟨hd, m⟩ := i
      cases (show m = .msg ref p from hs)
      obtain ⟨k1, k2⟩ := casts_pairs (cfg := cfg) v l xs hl' h
      refine ⟨fun x hx => ?_, ?_⟩
      · rcases List.mem_cons.1 hx with rfl | hx
        · exact ⟨_, _, rfl⟩
        · exact k1 x hx
      · simp only [castsIn, messagesFor, if_true, List.filter_cons]
        split <;> simp_all
    · rw [List.filter_cons_of_neg (by simpa using hv)] at h
      obtain ⟨k1, k2⟩ := casts_pairs (cfg := cfg) u l xs hl' h
      exact ⟨k1, by simp only [messagesFor, if_neg hv, k2]⟩

/-- An answer and broadcasts are on their way to a client that waits for an answer. -/
theorem comes_back {name : Uuid → List Char} {n : Net P} {u : Uuid} {cl : Client.State P} {sv : Server.State P} {fs : List Frame}
    {p q : UInt32} {id : Option (List Char)} {k : Nat} {job : Client.Job} {body : P} {o : Server.Out P} {bl : List (Uuid × Server.Out P)}
    (h : At n u cl [] (stream fs) sv) (hoc : o ≠ .confirmation) (hbl : ∀ x ∈ bl, ∃ ref p, x.2 = .msg ref p)
    (h1 : cl.api = some ⟨[(p, .call k)], q⟩) (h2 : cl.queue = []) (h3 : cl.msgs = some ⟨⟨[], []⟩, .idle, id⟩) (h4 : cl.auths = [])
    (h5 : cl.authQueue = []) (h6 : cl.calls = [(k, ⟨job, body, .response p .waiting⟩)])
    (g1 : ∀ f ∈ fs, Good w.client.decoder f)
    (g3 : Pairs (fun x (i : Rust.Income (Client.In P)) => i.header.sequence = x.1 ∧ SameAnswer name x.2 i.msg)
      ((p, o) :: (bl.filter (fun x => x.1 = u)).map (fun x => ((0 : UInt32), x.2))) (fs.filterMap (Spec.delivered w.client.decoder))) :
    ∃ es cl' m newer, Progress u [] es ∧ At (run w es n) u cl' [] [] sv ∧ Resting cl' ∧ SameAnswer name o m ∧
      cl'.past = newer ++ cl.past ∧ .ended k (Client.conclude job m) ∈ newer ∧
      casts newer = (messagesFor u bl).filter (fun x => x.1 ∈ w.client.broadcasts) := by
  have A3 := h.toClient (w := w) 0 g1 h3
  generalize fs.filterMap (Spec.delivered w.client.decoder) = xs at g3 A3
  obtain _ | ⟨⟨e1, e2⟩, g4⟩ := g3
  rename_i i xs
  obtain ⟨hd, m⟩ := i
  obtain ⟨c1, c2⟩ := casts_pairs (cfg := w.client) u bl xs hbl g4
  have hmc : m ≠ .confirmation := by
    rintro rfl
    cases o with
    | confirmation => exact hoc rfl
    | _ => cases e2
  have r2 := call_answered (cfg := w.client) (s := { cl with msgs := some ⟨⟨[], ⟨hd, m⟩ :: xs⟩, .between, id⟩, past := .chunk (stream fs) :: cl.past })
    hmc e1 h1 h2 rfl h6
  have A4 := A3.runs (w := w) 0 _ (by simp [ownClient]) r2 [.delivered (.call k) p m, .got p m] rfl
  generalize hc4 : ({ cl with
      api := some ⟨[], q⟩
      msgs := some ⟨⟨[], xs⟩, .between, id⟩
      calls := [(k, ⟨job, body, .response p (.ready m)⟩)]
      past := .delivered (.call k) p m :: .got p m :: .chunk (stream fs) :: cl.past } : Client.State P) = c4 at A4
  have f1 : c4.api = some ⟨[], q⟩ := by rw [← hc4]
  have f2 : c4.queue = [] := by rw [← hc4]; exact h2
  have f3 : c4.msgs = some ⟨⟨[], xs⟩, .between, id⟩ := by rw [← hc4]
  have f4 : c4.auths = [] := by rw [← hc4]; exact h4
  have f5 : c4.authQueue = [] := by rw [← hc4]; exact h5
  have f6 : c4.calls = [(k, ⟨job, body, .response p (.ready m)⟩)] := by rw [← hc4]
  have f7 : c4.past = .delivered (.call k) p m :: .got p m :: .chunk (stream fs) :: cl.past := by rw [← hc4]
  clear hc4
  obtain ⟨is, more, d1, d2, d3, d4⟩ := drained (cfg := w.client) xs [] c1 c4 id q f1 f2 (by rw [List.append_nil]; exact f3)
  have A5 := A4.runs (w := w) 0 is (fun i hi => by rcases d1 i hi with rfl | rfl <;> rfl) d4 more rfl
  have r6 := done (cfg := w.client) (id := id) (s := { c4 with msgs := some ⟨⟨[], []⟩, .between, id⟩, past := more ++ c4.past }) rfl
  have A6 := A5.runs (w := w) 0 [.work] (by simp [ownClient]) r6 [] rfl
  have r7 := call_returns (cfg := w.client) (s := { c4 with msgs := some ⟨⟨[], []⟩, .idle, id⟩, past := more ++ c4.past }) f6
  have A7 := A6.runs (w := w) 0 [.proceed k] (by simp [ownClient]) r7 [.ended k (Client.conclude job m)] rfl
  simp only [← run_append, sents, d2, List.flatMap_nil, List.append_nil] at A7
  refine ⟨_, _, m, .ended k (Client.conclude job m) :: more ++ [.delivered (.call k) p m, .got p m, .chunk (stream fs)],
    ?_, A7, ⟨⟨_, f1⟩, f2, ⟨_, rfl⟩, f4, f5, rfl⟩, e2, by simp [f7], List.mem_cons_self, ?_⟩
  · refine Progress.append (a := []) (b := []) (.append (a := []) (b := []) (.append (a := []) (b := []) (.append (a := []) (b := []) ?_ ?_) ?_) ?_) ?_
    · exact ⟨by simp [Regular.toClient], rfl⟩
    · exact Quiet.progress u 0 _ (by simp [Quiet.work, Quiet.api])
    · exact Quiet.progress u 0 _ (fun i hi => by rcases d1 i hi with rfl | rfl <;> constructor)
    · exact Quiet.progress u 0 _ (by simp [Quiet.work])
    · exact Quiet.progress u 0 _ (by simp [Quiet.proceed])
  · rw [List.cons_append]
    show casts (more ++ _) = _
    rw [casts_append, d3, c2]
    rfl

/-- A call makes its way to the server and back. -/
theorem round (sm : Smooth w) {name : Uuid → List Char} {hashes : List Char × List Char} {n : Net P} {u : Uuid} {cl : Client.State P}
    {sv : Server.State P} {a : Bool} {q : UInt32} {id : Option (List Char)} (h : At n u cl [] [] sv) (h1 : cl.api = some ⟨[], q⟩)
    (h2 : cl.queue = []) (h3 : cl.msgs = some ⟨⟨[], []⟩, .idle, id⟩) (h4 : cl.auths = []) (h5 : cl.authQueue = [])
    (h6 : cl.calls = []) (st : Server.Stage u true true true a sv) (ha : Server.Strict w.opts.identification → a = true)
    (job : Client.Job) (body : P) (hh : HeardRight w hashes (.msg id job.ref body))
    {Q : Server.State P → UInt32 → Server.Out P → List (Uuid × Server.Out P) → Prop}
    (hsrv : ∀ p s1, s1.past = .got u (.msg job.ref body) p :: .chunk u :: sv.past → Server.Stage u true true true a s1 →
      ∃ o bl mids, Q s1 p o bl ∧ o ≠ .confirmation ∧ ReadRight w name o ∧ (∀ x ∈ bl, ∃ ref p, x.2 = .msg ref p) ∧
        (∀ x ∈ bl, x.1 = u → ReadRight w name x.2) ∧ (∀ v, sends v mids = []) ∧
        Server.dispatch w.server w.env w.opts u job.ref body p s1 = (.ok (),
          { s1 with past := .deferred :: allSent bl ++ .send u p o true :: mids ++ s1.past })) :
    ∃ es cl' sv' s1 p o m bl newer, Progress u [(job, body)] es ∧ At (run w es n) u cl' [] [] sv' ∧ Resting cl' ∧
      Server.Stage u true true true a sv' ∧ s1.past = .got u (.msg job.ref body) p :: .chunk u :: sv.past ∧ Q s1 p o bl ∧
      SameAnswer name o m ∧ cl'.past = newer ++ cl.past ∧
      .called cl.next job body ∈ newer ∧ .ended cl.next (Client.conclude job m) ∈ newer ∧
      casts newer = (messagesFor u bl).filter (fun x => x.1 ∈ w.client.broadcasts) ∧
      (∀ x ∈ bl, ∃ ref p, x.2 = .msg ref p) ∧
      ∃ later, sv'.past = later ++ sv.past ∧ ∀ v, v ≠ u → sends v later = (bl.filter (fun x => x.1 = v)).map (fun x => (0, x.2)) := by
  obtain ⟨m0, ht, hsame⟩ := hh
  cases (show m0 = .msg job.ref body from hsame)
  -- the call
  have r1 := call_goes (cfg := w.client) sm.call job body h1 h2 h3 h5 h6
  have A1 := h.runs (w := w) 0 (callSteps job body cl.next) (by simp [callSteps, ownClient]) r1
    [.sent (.call cl.next) (Client.nextSequence q) (.msg id job.ref body), .numbered cl.next (Client.nextSequence q),
      .called cl.next job body] rfl
  rw [show ([] : Bytes) ++ (sents [Client.Act.sent (.call cl.next) (Client.nextSequence q) (.msg id job.ref body),
      .numbered cl.next (Client.nextSequence q), .called cl.next job body]).flatMap (fun x => w.up 0 x.1 x.2.2) =
      w.up 0 (Client.nextSequence q) (.msg id job.ref body) by simp [sents]] at A1
  -- the server
  obtain ⟨f, f1, f2, f3, f4⟩ := ht 0 (Client.nextSequence q)
  rw [f3] at A1
  have f5 : w.server.decoder.signature = f.hdr.signature ∧ w.server.decoder.getMsg f.hdr.id f.body = .ok (.msg job.ref body) := by
    unfold Spec.delivered at f4
    split at f4
    · rename_i e
      refine ⟨e, ?_⟩
      split at f4
      · rename_i t ht'
        injection f4 with f4; injection f4 with _ f4
        rw [ht', f4]
      · cases f4
    · cases f4
  obtain ⟨s1, k1, k2, k3⟩ := Server.serve_other (env := w.env) (opts := w.opts) st ha f1 f5.1 f5.2
  obtain ⟨o, bl, mids, hQ, hoc, hro, hbl, hrb, hmids, hdis⟩ := hsrv _ s1 k1 k2
  rw [hdis] at k3
  have A2 := A1.toServer (w := w) 0 k3 (.deferred :: allSent bl ++ .send u f.hdr.sequence o true :: mids ++
    [.got u (.msg job.ref body) f.hdr.sequence, .chunk u]) (by simp [k1])
  have st2 : Server.Stage u true true true a { s1 with past := .deferred :: allSent bl ++ .send u f.hdr.sequence o true :: mids ++ s1.past } :=
    k2.of_find rfl
  have hL : sends u (.deferred :: allSent bl ++ .send u f.hdr.sequence o true :: mids ++
      [.got u (.msg job.ref body) f.hdr.sequence, .chunk u]) =
      (f.hdr.sequence, o) :: (bl.filter (fun x => x.1 = u)).map (fun x => (0, x.2)) := by
    rw [List.cons_append, List.cons_append, List.append_assoc]
    show sends u (allSent bl ++ _) = _
    rw [sends_append, sends_allSent]
    show sends u (.send u f.hdr.sequence o true :: (mids ++ _)) ++ _ = _
    simp only [sends, if_true]
    rw [sends_append, hmids]
    rfl
  have hL' : ∀ v, v ≠ u → sends v (.deferred :: allSent bl ++ .send u f.hdr.sequence o true :: mids ++
      [.got u (.msg job.ref body) f.hdr.sequence, .chunk u]) = (bl.filter (fun x => x.1 = v)).map (fun x => (0, x.2)) := by
    intro v hv
    rw [List.cons_append, List.cons_append, List.append_assoc]
    show sends v (allSent bl ++ _) = _
    rw [sends_append, sends_allSent]
    show sends v (.send u f.hdr.sequence o true :: (mids ++ _)) ++ _ = _
    simp only [sends, if_neg (Ne.symm hv)]
    rw [sends_append, hmids]
    rfl
  rw [hL, List.nil_append] at A2
  obtain ⟨fs, g1, g2, g3⟩ := travels_all (R := SameAnswer name)
    ((f.hdr.sequence, o) :: (bl.filter (fun x => x.1 = u)).map (fun x => ((0 : UInt32), x.2))) (by
      intro x hx
      rcases List.mem_cons.1 hx with rfl | hx
      · exact hro
      · obtain ⟨y, hy, rfl⟩ := List.mem_map.1 hx
        obtain ⟨hy, hu⟩ := List.mem_filter.1 hy
        exact hrb y hy (by simpa using hu)) 0
  rw [g2] at A2
  rw [f2] at A2 g3 hQ
  obtain ⟨es, cl', m, newer, p1, p2, p3, p4, p5, p6, p7⟩ := comes_back (w := w) A2 hoc hbl rfl h2 h3 h4 h5 rfl g1 g3
  simp only [← run_append] at p2
  refine ⟨_, cl', _, s1, _, o, m, bl, newer ++ [.sent (.call cl.next) (Client.nextSequence q) (.msg id job.ref body),
    .numbered cl.next (Client.nextSequence q), .called cl.next job body], ?_, p2, p3, f2 ▸ st2, f2 ▸ k1, hQ, p4,
    by rw [p5]; simp, by simp, List.mem_append_left _ p6, ?_, hbl, .deferred :: allSent bl ++ .send u f.hdr.sequence o true :: mids ++
    [.got u (.msg job.ref body) f.hdr.sequence, .chunk u], by rw [k1]; simp [f2], hL'⟩
  · refine Progress.append (a := [(job, body)]) (b := []) (.append (a := [(job, body)]) (b := []) ?_ ?_) p1
    · exact ⟨fun e he => by
        simp only [callSteps, List.map_cons, List.map_nil, List.mem_cons, List.not_mem_nil, or_false] at he
        rcases he with rfl | rfl | rfl | rfl | rfl | rfl | rfl <;> constructor, by simp [callSteps, callsOf]⟩
    · exact ⟨by simp [Regular.toServer], rfl⟩
  · rw [casts_append, p7]
    rfl

/-! ### A new connection -/

theorem delivered_ok {T : Type} {d : Rust.Decoder T} {f : Frame} {m : T} (h : Spec.delivered d f = some ⟨f.hdr, m⟩) :
    d.signature = f.hdr.signature ∧ d.getMsg f.hdr.id f.body = .ok m := by
  unfold Spec.delivered at h
  split at h
  · rename_i e
    refine ⟨e, ?_⟩
    split at h
    · rename_i t ht
      injection h with h; injection h with _ h
      rw [ht, h]
    · cases h
  · cases h

/-- One message is on its way to the client. -/
theorem At.one {name : Uuid → List Char} {n : Net P} {u : Uuid} {cl : Client.State P} {sv : Server.State P}
    {id : Option (List Char)} {q : UInt32} {o : Server.Out P} (h : At n u cl [] (w.down 0 q o) sv) (hr : ReadRight w name o)
    (hm : cl.msgs = some ⟨⟨[], []⟩, .idle, id⟩) :
    ∃ es hd m b, Progress u [] es ∧ hd.sequence = q ∧ SameAnswer name o m ∧ At (run w es n) u { cl with
      msgs := some ⟨⟨[], [⟨hd, m⟩]⟩, .between, id⟩
      past := .chunk b :: cl.past } [] [] sv := by
  obtain ⟨m, ht, hs⟩ := hr
  obtain ⟨f, f1, f2, f3, f4⟩ := ht 0 q
  have hg : Good w.client.decoder f := by
    obtain ⟨k1, k2⟩ := delivered_ok f4
    exact ⟨f1, k1, m, k2⟩
  have e : w.down 0 q o = stream [f] := by rw [f3]; simp [stream]
  rw [e] at h
  have := h.toClient (w := w) 0 (by simpa using hg) hm
  rw [List.filterMap_cons, f4, List.filterMap_nil] at this
  exact ⟨_, f.hdr, m, _, ⟨by simp [Regular.toClient], rfl⟩, f2, hs, this⟩

/-- All confirmations up to the one of `u` are sent. -/
theorem confirms_all (sm : Smooth w) {u : Uuid} {cl : Client.State P} : ∀ (vs : List Uuid) {n : Net P} {down : Bytes}
    {sv : Server.State P}, At n u cl [] down sv → sv.confirms = vs ++ [u] → u ∉ vs →
    Server.Stage u false false false false sv →
    ∃ es sv', Progress u [] es ∧ At (run w es n) u cl [] (down ++ w.down 0 0 .confirmation) sv' ∧
      Server.Stage u true false false false sv'
  | [], n, down, sv, h, hc, _, st => by
    obtain ⟨s', h1, h2, h3⟩ := confirm_own (opts := w.opts) sm.send sm.answer hc st
    have := h.serve (w := w) 0 (i := .confirm) (by simp) (by simp) h1 [.send u 0 .confirmation true, .confirmed u] h3
    simp only [sends, if_true, List.nil_append, List.flatMap_cons, List.flatMap_nil, List.append_nil] at this
    exact ⟨[(0, .server .confirm)], s', ⟨by simp [Regular.confirm], rfl⟩, this, h2⟩
  | v :: vs, n, down, sv, h, hc, hu, st => by
    obtain ⟨s', l, h1, h2, h3, h4, h5⟩ := confirm_other (opts := w.opts) sm.send sm.answer sm.error
      (fun e => hu (e ▸ List.mem_cons_self) : v ≠ u) (show sv.confirms = v :: (vs ++ [u]) from hc)
    have k := h.serve (w := w) 0 (i := .confirm) (by simp) (by simp) h1 l h4
    rw [h5, List.flatMap_nil, List.append_nil] at k
    obtain ⟨es, sv', k1, k2, k3⟩ := confirms_all sm vs k h2 (fun e => hu (List.mem_cons_of_mem _ e)) (st.of_find h3)
    exact ⟨[(0, .server .confirm)] ++ es, sv', .append (a := []) (b := []) ⟨by simp [Regular.confirm], rfl⟩ k1, by rw [run_append]; exact k2, k3⟩

/-- The server gets one message. -/
theorem At.asked {hashes : List Char × List Char} {n : Net P} {u : Uuid} {cl : Client.State P} {sv : Server.State P}
    {q : UInt32} {o : Client.Out P} (h : At n u cl (w.up 0 q o) [] sv) (hh : HeardRight w hashes o)
    {conf key hash a : Bool} {r : Server.Out P}
    (hs : ∀ (f : Frame) m, SameCall w hashes o m → f.Ok → w.server.decoder.signature = f.hdr.signature →
      w.server.decoder.getMsg f.hdr.id f.body = .ok m → f.hdr.sequence = q →
      (Server.received w.server w.env w.opts u f.bytes sv).1 = .ok () ∧
      Server.Stage u conf key hash a (Server.received w.server w.env w.opts u f.bytes sv).2 ∧
      (Server.received w.server w.env w.opts u f.bytes sv).2.past = .send u q r true :: .got u m q :: .chunk u :: sv.past) :
    ∃ es sv', Progress u [] es ∧ At (run w es n) u cl [] (w.down 0 q r) sv' ∧ Server.Stage u conf key hash a sv' := by
  obtain ⟨m, ht, hsame⟩ := hh
  obtain ⟨f, f1, f2, f3, f4⟩ := ht 0 q
  obtain ⟨k1, k2⟩ := delivered_ok f4
  obtain ⟨h1, h2, h3⟩ := hs f m hsame f1 k1 k2 f2
  rw [f3] at h
  have := h.toServer (w := w) 0 (s' := (Server.received w.server w.env w.opts u f.bytes sv).2) (by rw [← h1])
    [.send u q r true, .got u m q, .chunk u] h3
  simp only [sends, if_true, List.nil_append, List.flatMap_cons, List.flatMap_nil, List.append_nil] at this
  exact ⟨_, _, ⟨by simp [Regular.toServer], rfl⟩, this, h2⟩

/-- The handshake of a client that is told that it is connected. -/
theorem shakes (sm : Smooth w) {name : Uuid → List Char} {hashes : List Char × List Char} {n : Net P} {u : Uuid}
    {cl : Client.State P} {sv : Server.State P} {p : UInt32} {id : Option (List Char)} {hd : Rust.Header} {v : List Char}
    (hk : HeardRight w hashes .selfKey) (hh : HeardRight w hashes .hash) (he : hashes = (w.server.protocolHash, w.server.workflowHash))
    (rk : ReadRight w name (.selfKey u)) (rh : ReadRight w name (.hash false)) (hv : w.client.parseUuid (name u) = some v)
    (h : At n u cl [] [] sv) (st : Server.Stage u true false false false sv)
    (h1 : cl.api = some ⟨[], p⟩) (h2 : cl.queue = []) (h3 : cl.msgs = some ⟨⟨[], [⟨hd, .confirmation⟩]⟩, .between, id⟩)
    (h4 : cl.auths = []) (h5 : cl.authQueue = []) (h6 : cl.calls = []) :
    ∃ es cl' sv' newer, Progress u [] es ∧ At (run w es n) u cl' [] [] sv' ∧ Resting cl' ∧
      Server.Stage u true true true false sv' ∧ cl'.past = newer ++ cl.past ∧ .emitted .connected ∈ newer ∧ casts newer = [] := by
  -- the self key
  have r1 := shake_starts (cfg := w.client) sm.call h1 h2 h3 h4
  have A1 := h.runs (w := w) 0 _ (by simp [ownClient]) r1 [.sent (.auth cl.next) 0 .selfKey, .authStarted cl.next,
    .got hd.sequence .confirmation] rfl
  simp only [sents, List.nil_append, List.flatMap_cons, List.flatMap_nil, List.append_nil] at A1
  obtain ⟨es2, sv2, P2, A2, st2⟩ := A1.asked (r := .selfKey u) hk (fun f m hm k1 k2 k3 k4 => by
    obtain ⟨k, rfl⟩ := hm
    have := Server.serve_selfKey (env := w.env) (opts := w.opts) st k1 k2 k3 (sm.answer _) (fun s => sm.send s _ _ _)
    rw [k4] at this
    exact this)
  obtain ⟨es3, hd3, m3, b3, P3, q3, s3, A3⟩ := A2.one rk rfl
  cases (show m3 = _ from s3)
  generalize hc3 : ({ cl with
      api := some ⟨[(0, .auth cl.next)], p⟩
      msgs := some ⟨⟨[], [⟨hd3, .selfKey (name u)⟩]⟩, .between, id⟩
      auths := [(cl.next, .key .waiting)]
      next := cl.next + 1
      past := .chunk b3 :: .sent (.auth cl.next) 0 .selfKey :: .authStarted cl.next :: .got hd.sequence .confirmation :: cl.past } :
        Client.State P) = c3 at A3
  have f1 : c3.api = some ⟨[(0, .auth cl.next)], p⟩ := by rw [← hc3]
  have f2 : c3.queue = [] := by rw [← hc3]; exact h2
  have f3 : c3.msgs = some ⟨⟨[], [⟨hd3, .selfKey (name u)⟩]⟩, .between, id⟩ := by rw [← hc3]
  have f4 : c3.auths = [(cl.next, .key .waiting)] := by rw [← hc3]
  have f5 : c3.authQueue = [] := by rw [← hc3]; exact h5
  have f6 : c3.calls = [] := by rw [← hc3]; exact h6
  have f7 : c3.past = .chunk b3 :: .sent (.auth cl.next) 0 .selfKey :: .authStarted cl.next :: .got hd.sequence .confirmation :: cl.past := by
    rw [← hc3]
  clear hc3
  -- the hash
  have r4 := shake_goes_on (cfg := w.client) sm.call q3 f1 f2 f3 f4
  have A4 := A3.runs (w := w) 0 _ (by simp [ownClient]) r4 [.sent (.auth cl.next) 1 .hash, .delivered (.auth cl.next) 0 (.selfKey (name u)),
    .got 0 (.selfKey (name u))] rfl
  simp only [sents, List.nil_append, List.flatMap_cons, List.flatMap_nil, List.append_nil] at A4
  obtain ⟨es5, sv5, P5, A5, st5⟩ := A4.asked (r := .hash false) hh (fun f m hm k1 k2 k3 k4 => by
    cases (show m = _ from hm)
    rw [he] at k3 ⊢
    have := Server.serve_hash (env := w.env) (opts := w.opts) st2 k1 k2 k3 (sm.answer _) (fun s => sm.send s _ _ _)
    rw [k4] at this
    exact this)
  obtain ⟨es6, hd6, m6, b6, P6, q6, s6, A6⟩ := A5.one rh rfl
  cases (show m6 = _ from s6)
  generalize hc6 : ({ c3 with
      api := some ⟨[(1, .auth cl.next)], p⟩
      msgs := some ⟨⟨[], [⟨hd6, .hash false⟩]⟩, .between, id⟩
      auths := [(cl.next, .hash (name u) .waiting)]
      past := .chunk b6 :: .sent (.auth cl.next) 1 .hash :: .delivered (.auth cl.next) 0 (.selfKey (name u)) ::
        .got 0 (.selfKey (name u)) :: c3.past } : Client.State P) = c6 at A6
  have g1 : c6.api = some ⟨[(1, .auth cl.next)], p⟩ := by rw [← hc6]
  have g2 : c6.queue = [] := by rw [← hc6]; exact f2
  have g3 : c6.msgs = some ⟨⟨[], [⟨hd6, .hash false⟩]⟩, .between, id⟩ := by rw [← hc6]
  have g4 : c6.auths = [(cl.next, .hash (name u) .waiting)] := by rw [← hc6]
  have g5 : c6.authQueue = [] := by rw [← hc6]; exact f5
  have g6 : c6.calls = [] := by rw [← hc6]; exact f6
  have g7 : c6.past = .chunk b6 :: .sent (.auth cl.next) 1 .hash :: .delivered (.auth cl.next) 0 (.selfKey (name u)) ::
        .got 0 (.selfKey (name u)) :: c3.past := by rw [← hc6]
  clear hc6
  have r7 := shake_ends (cfg := w.client) q6 hv g1 g2 g3 g4 g5
  have A7 := A6.runs (w := w) 0 _ (by simp [ownClient]) r7 [.emitted .connected, .authEnded cl.next (some (name u)),
    .delivered (.auth cl.next) 1 (.hash false), .got 1 (.hash false)] rfl
  simp only [← run_append, sents, List.flatMap_nil, List.append_nil] at A7
  refine ⟨_, _, _, .emitted .connected :: .authEnded cl.next (some (name u)) ::
    .delivered (.auth cl.next) 1 (.hash false) :: .got 1 (.hash false) :: .chunk b6 :: .sent (.auth cl.next) 1 .hash ::
    .delivered (.auth cl.next) 0 (.selfKey (name u)) :: .got 0 (.selfKey (name u)) :: .chunk b3 :: .sent (.auth cl.next) 0 .selfKey ::
    .authStarted cl.next :: [.got hd.sequence .confirmation], ?_, A7, ⟨⟨_, rfl⟩, g2, ⟨_, rfl⟩, rfl, g5, g6⟩, st5,
    by simp [f7, g7], List.mem_cons_self, rfl⟩
  refine .append (a := []) (b := []) (.append (a := []) (b := []) (.append (a := []) (b := []) (.append (a := []) (b := [])
    (.append (a := []) (b := []) (.append (a := []) (b := []) ?_ P2) P3) ?_) P5) P6) ?_
  · exact Quiet.progress u 0 _ (by simp [Quiet.work, Quiet.api, Quiet.auth])
  · exact Quiet.progress u 0 _ (by simp [Quiet.work, Quiet.api, Quiet.auth])
  · exact Quiet.progress u 0 _ (by simp [Quiet.work, Quiet.api, Quiet.auth, Quiet.authMessage])

end Verif.System
