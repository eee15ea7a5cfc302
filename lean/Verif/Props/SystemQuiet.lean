import Verif.Proofs.SystemQuiet
set_option autoImplicit false
/-!
Property theorems about moments in which nothing is under way between a generated Rust client and a generated
Rust server: C175. What happened before is arbitrary, see `System.Event`.
-/
namespace Verif.Props

open Verif Verif.Spec Verif.System

variable {P : Type}

/-! ### Witnesses -/

/-- `town` with user code that refuses beacons. -/
def townDeaf : Setup Nat := { town with env := { townEnv with beacon := fun _ _ _ _ => .err } }

/-- The client connects and sends the beacon `B`, which the server refuses, and makes a request. -/
def townRefused : List (UInt64 × Event Nat) :=
  townShake ++
  townClient [.call (.beacon ['B']) 5, .api true, .proceed 1, .api true, .authMessage, .proceed 1, .api true] ++
  [(6, .toServer 1 100)] ++
  townClient [.call (.request townRequest) 41, .api true, .proceed 2, .api true, .authMessage, .proceed 2, .api true] ++
  [(6, .toServer 1 100), (7, .toClient 1 100)] ++ townClient [.work, .api true, .work, .work, .proceed 2]

/-- What `Waits` needs. -/
def townWaits {P : Type} : Client.Phase P → Bool
  | .sequence .waiting => true
  | .uuid _ .waiting => true
  | .response _ .waiting => true
  | _ => false

/-- What `AuthWaits` needs. -/
def townAuthWaits {P : Type} : Client.AuthPhase P → Bool
  | .key .waiting => true
  | .hash _ .waiting => true
  | _ => false

/-- What `Settled` and `Few` need, for the client 1. -/
def townStill {P : Type} (n : Net P) : Bool :=
  decide (n.exit = .running) && (n.server.find 1).isSome && n.server.past.all (fun | .drop _ => false | _ => true) &&
    (n.find 1).any (fun c => c.up.isEmpty && c.down.isEmpty && c.client.api.isSome && c.client.queue.isEmpty &&
      c.client.authQueue.isEmpty && c.client.msgs.any (fun t => match t.place with | .idle => true | _ => false) &&
      c.client.past.all (fun | .emitted .readError => false | _ => true) &&
      c.client.calls.all (fun x => townWaits x.2.phase) && c.client.auths.all (fun x => townAuthWaits x.2) &&
      decide ((Client.numbers c.client.past).length ≤ 4294967284) &&
      c.client.past.all (fun | .authStarted k => k = 0 | _ => true))

theorem lookup_in {β : Type} {l : List (Nat × β)} {k : Nat} {x : β} (h : l.lookup k = some x) : (k, x) ∈ l := by
  induction l with
  | nil => cases h
  | cons p l ih =>
    obtain ⟨v, d⟩ := p
    rw [List.lookup_cons] at h
    split at h
    · rename_i e
      cases h
      rw [beq_iff_eq.1 e]
      exact List.mem_cons_self
    · exact List.mem_cons_of_mem _ (ih h)

theorem town_still {P : Type} {n : Net P} (f : Conn P → Bool) (h0 : townStill n = true) (h : (n.find 1).any f = true) :
    ∃ c, Settled n 1 c ∧ Client.Few c.client.past ∧ f c = true := by
  unfold townStill at h0
  cases hc : n.find 1 with
  | none => rw [hc] at h; cases h
  | some c =>
    rw [hc] at h h0
    rw [Option.any_some] at h h0
    simp only [Bool.and_eq_true, List.isEmpty_iff, decide_eq_true_eq, List.all_eq_true] at h0
    obtain ⟨⟨⟨h1, h2⟩, h3⟩, ⟨⟨⟨⟨⟨⟨⟨⟨⟨h4, h5⟩, h6⟩, h7⟩, h8⟩, h9⟩, h10⟩, h11⟩, h12⟩, h13⟩, h14⟩ := h0
    obtain ⟨d, d1⟩ := Option.isSome_iff_exists.1 h2
    refine ⟨c, ⟨hc, h4, h5, h1, ⟨d, d1⟩, fun k => absurd (h3 _ k) (by simp), h6, h7, h8, ?_, ?_, ?_, ?_⟩, ⟨h13, ?_⟩, h⟩
    · cases e : c.client.msgs with
      | none => rw [e] at h9; cases h9
      | some t =>
        rw [e, Option.any_some] at h9
        refine ⟨t, rfl, ?_⟩
        cases ht : t.place <;> rw [ht] at h9 <;> first | rfl | cases h9
    · rintro ⟨a, b, e, _⟩
      exact absurd (h10 (.emitted .readError) (by rw [e]; simp)) (by simp)
    · intro k x hx
      have := h11 _ (lookup_in hx)
      dsimp only at this
      revert this
      cases x.phase with
      | sequence r => cases r <;> intro this <;> first | exact .sequence | cases this
      | uuid q r => cases r <;> intro this <;> first | exact .uuid | cases this
      | response q r => cases r <;> intro this <;> first | exact .response | cases this
    · intro k p hp
      have := h12 _ (lookup_in hp)
      dsimp only at this
      revert this
      cases p with
      | start => intro this; cases this
      | key r => cases r <;> intro this <;> first | exact .key | cases this
      | hash u r => cases r <;> intro this <;> first | exact .hash | cases this
    · intro k m hk hm
      have e1 := h14 _ hk
      have e2 := h14 _ hm
      simp only [decide_eq_true_eq] at e1 e2
      rw [e1, e2]

theorem town_refused_ok : Framed townDeaf (run townDeaf townRefused .new) ∧
    Faithful townDeaf (fun u => [Char.ofNat u]) (['p'], ['w']) (run townDeaf townRefused .new) ∧
    Readable townDeaf (run townDeaf townRefused .new) := by
  have h := town_faithful (run townDeaf townRefused .new) (by decide +kernel) (by decide +kernel)
  exact ⟨⟨(town_framed _).1, (town_framed _).2⟩, ⟨h.1, h.2⟩, ⟨(town_readable _).1, (town_readable _).2⟩⟩

/-! ### C175 -/

/-- **C175** Whatever happened: when nothing is under way between a Rust client and a Rust server which
never asked the transport to drop it, the server has looked at every message the client passed to its
transport, and the client at every message the transport of the server took for it, unchanged, in order, each
once. -/
theorem C175_all_looked_at (w : Setup P) (name : Uuid → List Char) (hashes : List Char × List Char)
    (es : List (UInt64 × Event P)) (hf : Framed w (run w es .new)) (hfa : Faithful w name hashes (run w es .new))
    (hr : Readable w (run w es .new)) {u : Uuid} {c : Conn P} (hq : Settled (run w es .new) u c) :
    Pairs (fun x y => x.1 = y.1 ∧ SameCall w hashes x.2.2 y.2) (sents c.client.past)
      (heard u (run w es .new).server.past) ∧
    Pairs (fun x y => x.1 = y.1 ∧ SameAnswer name x.2 y.2) (sends u (run w es .new).server.past)
      (Client.looked c.client.past) := by
  have hi := inv_run (w := w) es
  refine ⟨?_, ?_⟩
  · refine (quiet_up hi (careful_run es) hf hr hq).mono ?_
    rintro ⟨q, who, o⟩ ⟨q', m⟩ hx ⟨h1, ts, h2⟩
    exact ⟨h1, hfa.call u c hq.conn who q o (mem_sents.1 hx) ts m h2⟩
  · refine (quiet_down hi hf hr hq).mono ?_
    rintro ⟨q, o⟩ ⟨q', m⟩ hx ⟨h1, ts, h2⟩
    exact ⟨h1, hfa.answer u q o (mem_sends.1 hx) ts m h2⟩

/-- Nothing is under way after the run `townAll`: four messages of the client, six of the server. -/
example : Framed town (run town townAll .new) ∧
    Faithful town (fun u => [Char.ofNat u]) (['p'], ['w']) (run town townAll .new) ∧
    Readable town (run town townAll .new) ∧ ∃ c, Settled (run town townAll .new) 1 c ∧ Client.Few c.client.past ∧
      decide ((sents c.client.past).map Prod.fst = [0, 1, 11, 12] ∧
        (Client.looked c.client.past).map Prod.fst = [0, 0, 1, 11, 0, 12]) = true :=
  ⟨town_ok.1, town_ok.2, town_readable _, town_still _ (by decide +kernel) (by decide +kernel)⟩

/-- **C175** Whatever happened: when nothing is under way between a Rust client and a Rust server which
never asked the transport to drop it, a call of the client with a message the server expects is over, or the
server looked at this very message, its transport took no answer, and `Unanswered` says why. -/
theorem C175_call_accounted_for (w : Setup P) (name : Uuid → List Char) (hashes : List Char × List Char)
    (es : List (UInt64 × Event P)) (hf : Framed w (run w es .new)) (hfa : Faithful w name hashes (run w es .new))
    (hr : Readable w (run w es .new)) {u : Uuid} {c : Conn P} (hq : Settled (run w es .new) u c)
    (hfew : Client.Few c.client.past) {k : Nat} {x : Client.Call P} (hc : c.client.calls.lookup k = some x)
    (he : Server.Expected w.server x.job.ref) :
    ∃ q id newer older, .sent (.call k) q (.msg id x.job.ref x.body) ∈ c.client.past ∧
      (run w es .new).server.past = newer ++ .got u (.msg x.job.ref x.body) q :: older ∧
      (∀ o, .send u q o true ∉ (run w es .new).server.past) ∧
      Server.Unanswered w.server w.env w.opts u q x.job.ref x.body older newer :=
  quiet_call hf hfa hr hq hfew hc he

/-- After the run `townRefused` the request is over, and the call with the beacon is not. -/
example : Framed townDeaf (run townDeaf townRefused .new) ∧
    Faithful townDeaf (fun u => [Char.ofNat u]) (['p'], ['w']) (run townDeaf townRefused .new) ∧
    Readable townDeaf (run townDeaf townRefused .new) ∧ Server.Expected townDeaf.server ['B'] ∧
    ∃ c, Settled (run townDeaf townRefused .new) 1 c ∧ Client.Few c.client.past ∧
      (decide ((c.client.calls.lookup 1).map (fun x => (x.job.ref, x.body)) = some (['B'], 5)) &&
       (c.client.calls.lookup 2).isNone &&
       c.client.past.any (fun | .ended 2 (.conclusion _ ref v) => ref = ['R'] && v = 42 | _ => false)) = true :=
  ⟨town_refused_ok.1, town_refused_ok.2.1, town_refused_ok.2.2,
    ⟨.inr ⟨⟨['B'], false⟩, List.mem_singleton.2 rfl, rfl⟩, by decide⟩,
    town_still _ (by decide +kernel) (by decide +kernel)⟩

/-- **C175** Whatever happened: if the server drops clients whose messages it cannot answer, and does not just
report unassigned ones (`Options::new` is such), then when nothing is under way between a Rust client and this
server, which never asked the transport to drop it, no call of the client with a request the server has is
open. -/
theorem C175_requests_end (w : Setup P) (name : Uuid → List Char) (hashes : List Char × List Char)
    (es : List (UInt64 × Event P)) (hf : Framed w (run w es .new)) (hfa : Faithful w name hashes (run w es .new))
    (hr : Readable w (run w es .new)) {u : Uuid} {c : Conn P} (hq : Settled (run w es .new) u c)
    (hfew : Client.Few c.client.past)
    (hd : w.opts.onError = .disconnect ∨ w.opts.onError = .emitErrorAndDisconnect)
    (hid : w.opts.identification ≠ .emitError) {r : Flow.Request} {ref : Flow.Ref}
    (h4 : r ∈ w.server.workflow.requests) (h5 : r.request = some ref) (h6 : ref ≠ w.server.selfKey)
    (h7 : ∀ b ∈ w.server.workflow.beacons, b.reference ≠ ref) :
    ∀ k x, c.client.calls.lookup k = some x → x.job.ref ≠ ref := by
  rintro k x hc rfl
  obtain ⟨q, id, newer, older, _, _, _, h⟩ := quiet_call hf hfa hr hq hfew hc ⟨.inl ⟨r, h4, h5⟩, h6⟩
  cases h with
  | unassigned h => exact absurd h hid
  | unpacked _ _ _ _ h => exact absurd hd h
  | unsent _ _ _ _ h => exact absurd hd h
  | beacon a b => exact absurd b (h7 _ a)
  | unconfirmed a b => exact absurd b (h7 _ a)

/-- The request in `townRefused`, which has ended with its answer. -/
example : (townDeaf.opts.onError = .disconnect ∨ townDeaf.opts.onError = .emitErrorAndDisconnect) ∧
    townDeaf.opts.identification ≠ .emitError ∧ townRequest ∈ townDeaf.server.workflow.requests ∧
    townRequest.request = some ['Q'] ∧ ['Q'] ≠ townDeaf.server.selfKey ∧
    (∀ b ∈ townDeaf.server.workflow.beacons, b.reference ≠ ['Q']) ∧
    ∃ c, Settled (run townDeaf townRefused .new) 1 c ∧ Client.Few c.client.past ∧
      (c.client.past.any (fun | .called 2 (.request _) v => v = 41 | _ => false) &&
       c.client.past.any (fun | .ended 2 (.conclusion _ ref v) => ref = ['R'] && v = 42 | _ => false)) = true :=
  ⟨.inr rfl, by decide, List.mem_singleton.2 rfl, rfl, by decide, by decide,
    town_still _ (by decide +kernel) (by decide +kernel)⟩

/-- **C175** Whatever happened: when nothing is under way between a Rust client and a Rust server which
never asked the transport to drop it, the broadcasts user code of the client got are exactly those the
transport of the server took for this client and the workflow of the client has, unchanged, in order, each
once. -/
theorem C175_all_broadcasts (w : Setup P) (name : Uuid → List Char) (hashes : List Char × List Char)
    (es : List (UInt64 × Event P)) (hf : Framed w (run w es .new)) (hfa : Faithful w name hashes (run w es .new))
    (hr : Readable w (run w es .new)) {u : Uuid} {c : Conn P} (hq : Settled (run w es .new) u c)
    (hfew : Client.Few c.client.past) :
    CastsOf w.client.broadcasts (sends u (run w es .new).server.past) (casts c.client.past) :=
  quiet_casts hf hfa hr hq hfew

/-- The broadcast `U` with 9. -/
example : ∃ c, Settled (run town townAll .new) 1 c ∧ Client.Few c.client.past ∧
    decide (casts c.client.past = [(['U'], 9)]) = true :=
  town_still _ (by decide +kernel) (by decide +kernel)

end Verif.Props
