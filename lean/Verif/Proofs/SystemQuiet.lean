import Verif.Proofs.SystemCalls
import Verif.Proofs.RustClientRefuses
import Verif.Proofs.RustClientTold
import Verif.Proofs.RustClientWhole
import Verif.Proofs.NetworkTsRustQuiet
import Verif.Spec.SystemQuiet
import Verif.Props.System
set_option autoImplicit false
/-!
Moments in which nothing is under way between a Rust client and a Rust server.
-/
namespace Verif.System

open Verif Verif.Spec

variable {P : Type} {w : Setup P}

/-! ### What the server did after a message -/

/-- What is known of the server. -/
structure Careful (w : Setup P) (n : Net P) : Prop where
  inv : Server.Inv w.server w.opts none n.server
  treated : n.exit = .running → Server.Treated w.server w.env w.opts n.server.past

theorem Careful.serve {n : Net P} (h : Careful w n) (ts : UInt64) (i : Server.Input P) : Careful w (n.serve w ts i) := by
  show Careful w { exit := _, server := _, conns := _ }
  rcases serverStep_cases (w := w) n.exit i n.server with ⟨k, _⟩ | ⟨k0, k, k'⟩
  · refine ⟨?_, ?_⟩ <;> dsimp only <;> rw [k]
    · exact h.inv
    · exact h.treated
  · refine ⟨?_, ?_⟩ <;> dsimp only <;> rw [k]
    · exact Server.step_keeps w.env i n.server h.inv
    · exact fun hr => Server.step_treated i h.inv (h.treated k0) (k' hr)

theorem Careful.same {n n' : Net P} (h : Careful w n) (h1 : n'.exit = n.exit) (h2 : n'.server = n.server) : Careful w n' :=
  ⟨by rw [h2]; exact h.inv, by rw [h1, h2]; exact h.treated⟩

theorem careful_step {n : Net P} (h : Careful w n) (e : UInt64 × Event P) : Careful w (step w n e) := by
  obtain ⟨ts, e⟩ := e
  cases e with
  | opened u =>
    simp only [step]
    split
    · exact Careful.serve (n := { n with conns := n.conns ++ [(u, ⟨.new, [], []⟩)] }) (h.same rfl rfl) ts _
    · exact h
  | lost u => exact h.serve ts _
  | toServer u count =>
    simp only [step]
    split
    · rename_i c _
      exact Careful.serve (n := n.set u { c with up := c.up.drop count }) (h.same rfl rfl) ts _
    · exact h
  | toClient u count =>
    simp only [step]
    split
    · split
      · exact h.same rfl rfl
      · exact h
    · exact h
  | server i =>
    simp only [step]
    split
    · exact h.serve ts i
    · exact h
  | client u i =>
    simp only [step]
    split
    · split
      · exact h.same rfl rfl
      · exact h
    · exact h

theorem careful_run (es : List (UInt64 × Event P)) : Careful w (run w es .new) := by
  have : ∀ n : Net P, Careful w n → Careful w (run w es n) := by
    induction es with
    | nil => exact fun n h => h
    | cons e es ih => exact fun n h => ih _ (careful_step h e)
  refine this _ ⟨Server.inv_new, fun _ => ?_⟩
  intro l u ref p q older e
  exact absurd e (by simp [Net.new, Server.State.new])

/-! ### All that was sent was looked at -/

section
variable {n : Net P} {u : Uuid} {c : Conn P}

theorem quiet_up (hi : Inv w n) (hs : Careful w n) (hf : Framed w n) (hr : Readable w n) (hq : Settled n u c) :
    Pairs (fun x (y : UInt32 × Server.In P) => x.1 = y.1 ∧ Arrives w.up w.server.decoder x.1 x.2.2 y.2)
      (sents c.client.past) (heard u n.server.past) := by
  obtain ⟨L, G, h1, h2, h3⟩ := (hi.conn u c hq.conn).up
  obtain ⟨d, d1⟩ := hq.kept
  have d2 : d.discredited = false := by
    cases hx : d.discredited with
    | false => rfl
    | true => exact absurd (Server.since_sub ((hs.inv.known u d d1).discredited.1 hx)) hq.never
  obtain ⟨fs, g1, g2, g3, g4⟩ := h3.alive hq.running d d1 d2
  rw [hq.up, List.append_nil] at h2
  have hfl : Network.Flows w.up ((sents c.client.past).map (fun x => (x.1, x.2.2))) G := by
    refine ⟨L.map (fun x => (x.1, x.2.1, x.2.2.2)), ?_, ?_⟩
    · rw [← h1, List.map_map, List.map_map]; rfl
    · rw [h2, List.flatMap_map]
  have hfr : ∀ q o, (q, o) ∈ (sents c.client.past).map (fun x => (x.1, x.2.2)) → ∀ ts, IsFrame q (w.up ts q o) := by
    intro q o ho ts
    obtain ⟨⟨q', who, o'⟩, k1, k2⟩ := List.mem_map.1 ho
    cases k2
    exact hf.up u c hq.conn who _ _ (mem_sents.1 k1) ts
  have hrd : ∀ x ∈ (sents c.client.past).map (fun x => (x.1, x.2.2)), ∀ ts, ∃ m, Decodes w.server.decoder (w.up ts x.1 x.2) m := by
    intro x hx ts
    obtain ⟨⟨q', who, o'⟩, k1, k2⟩ := List.mem_map.1 hx
    cases k2
    exact hr.call u c hq.conn who _ _ (mem_sents.1 k1) ts
  rcases g4 with ⟨g4, g5⟩ | ⟨f, g4, g5⟩
  · rw [g5, List.map_nil, List.append_nil] at g3
    exact Network.Pairs.of_map (Network.pairs_of_all hfl hfr hrd g1 g2 g3 (.inl g4))
  · obtain ⟨x, hx⟩ := Network.all_good hfl hfr hrd g1 g2 f g4
    rw [g5] at hx
    cases hx

/-- What is known of the client in a quiet moment. -/
theorem quiet_down (hi : Inv w n) (hf : Framed w n) (hr : Readable w n) (hq : Settled n u c) :
    Pairs (fun x (y : UInt32 × Client.In P) => x.1 = y.1 ∧ Arrives w.down w.client.decoder x.1 x.2 y.2)
      (sends u n.server.past) (Client.looked c.client.past) := by
  have hl := hi.conn u c hq.conn
  obtain ⟨L, h1, h2⟩ := hl.down
  rw [hq.down, List.append_nil] at h2
  obtain ⟨is, his⟩ := hl.client
  obtain ⟨t, t1, t2⟩ := hq.msgs
  have hh := hq.read
  rw [his] at t1 hh h2
  obtain ⟨fs, g1, g2, g3, g4⟩ := Props.C99_messages_not_held_back_partial w.client is t1 t2 hh
  rw [his]
  refine Network.pairs_of_all ⟨L, h1, h2⟩ (fun q o ho ts => hf.down u q o (mem_sends.1 ho) ts) ?_ g1 g2 g3.symm (.inl ?_)
  · rintro ⟨q, o⟩ hx ts
    exact hr.answer u q o (mem_sends.1 hx) ts
  · rintro f hf ⟨rest, e⟩
    exact g4 ⟨f, rest, hf, e.symm⟩

/-! ### What the client did with a message -/

theorem quiet_client (hi : Inv w n) (hq : Settled n u c) : ∃ is, c.client = Client.run w.client is .new :=
  (hi.conn u c hq.conn).client

theorem quiet_free (hi : Inv w n) (hq : Settled n u c) : Client.Handled w.client.broadcasts c.client.past .free := by
  obtain ⟨is, his⟩ := quiet_client hi hq
  have h := (Client.inv_run w.client is).1.handled
  rw [← his] at h
  obtain ⟨⟨r, p, id⟩, t1, t2⟩ := hq.msgs
  cases t2
  rw [t1] at h
  exact h

theorem quiet_refused (hi : Inv w n) (hq : Settled n u c) : .emitted .acceptError ∉ c.client.past := by
  intro k
  obtain ⟨is, his⟩ := quiet_client hi hq
  have h := hq.api
  rw [his] at h k
  rw [(Client.refuses_run w.client is).past k] at h
  cases h

theorem waiter_unique {is : List (Client.Input P)} (hi : c.client = Client.run w.client is .new) (hf : Client.Few c.client.past)
    {a b : Client.Who} {q : UInt32} {o o' : Client.Out P} (h1 : .sent a q o ∈ c.client.past) (h2 : .sent b q o' ∈ c.client.past) :
    a = b := by
  rw [hi] at h1 h2 hf
  have hl := (Client.inv_run w.client is).1.lawful
  exact Client.same_waiter (Client.numbers_run w.client is) hf (Client.lawful_sent hl h1) (Client.lawful_sent hl h2)

/-- A message that answers one that was sent before is handed over, in a quiet moment. -/
theorem quiet_handed (hi : Inv w n) (hq : Settled n u c) (hfew : Client.Few c.client.past) {newer older : List (Client.Act P)} {q : UInt32}
    {m : Client.In P} (e : c.client.past = newer ++ .got q m :: older) (hm : m ≠ .confirmation)
    {who : Client.Who} {o : Client.Out P} (hs : .sent who q o ∈ older) : ∃ m, .delivered who q m ∈ c.client.past := by
  obtain ⟨is, his⟩ := quiet_client hi hq
  have hfree := quiet_free hi hq
  have hno := quiet_refused hi hq
  have hl := lawful_of (hi.conn u c hq.conn)
  have hs' : Client.Act.sent who q o ∈ c.client.past := by rw [e]; simp [hs]
  rw [e] at hfree
  rcases hfree.fate with ⟨k, _⟩ | ⟨k, _⟩ | ⟨a, x, b, rfl, k2, k3⟩
  · cases k
  · cases k
  · rcases k3 with ⟨who', rfl⟩ | ⟨k, _⟩ | k
    · have hl' := hl
      rw [e, List.append_assoc] at hl'
      obtain ⟨⟨o', ho⟩, _⟩ := Client.Lawful.at hl'
      have := waiter_unique his hfew hs' (show Client.Act.sent who' q o' ∈ c.client.past by
        rw [e, List.append_assoc]; exact List.mem_append_right _ (List.mem_cons_of_mem _ ho))
      subst this
      exact ⟨m, by rw [e]; simp⟩
    · exact absurd k hm
    · have hr := (Client.fair_run w.client is).raised
      rw [← his, e, List.append_assoc] at hr
      obtain ⟨m', k⟩ := Client.Raised.at hr k b q m older rfl (fun y hy => ⟨by rintro q' m' rfl; exact absurd (k2 _ hy trivial) (by simp),
        by rintro rfl; exact hno (by rw [e]; simp [hy])⟩) who o hs
      exact ⟨m', by rw [e, List.append_assoc]; exact List.mem_append_right _ (List.mem_cons_of_mem _ k)⟩

/-- What the server sent a client is an answer to a message this client sent before, or has number 0. -/
theorem posted_after (hi : Inv w n) (hf : Framed w n) (hc : n.find u = some c) {q : UInt32} {o : Server.Out P}
    (hp : (q, o) ∈ sends u n.server.past) (h0 : q ≠ 0) : ∃ who out, .sent who q out ∈ c.client.past := by
  rcases justified_mem hi.just (mem_sends.1 hp) with ⟨h, _⟩ | ⟨newer, older, m, e, ha⟩
  · exact absurd h h0
  · have hh : (q, m) ∈ heard u n.server.past := mem_heard.2 (by rw [e]; simp [ha.got])
    obtain ⟨⟨q', who, out⟩, h1, h2, _⟩ := (heard_sub (hi.conn u c hc) hc hf).mem hh
    dsimp only at h2
    subst h2
    exact ⟨who, out, mem_sents.1 h1⟩

end

theorem looked_after (es : List (UInt64 × Event P)) (hf : Framed w (run w es .new)) {u : Uuid} {c : Conn P}
    (hc : (run w es .new).find u = some c) {newer older : List (Client.Act P)} {q : UInt32} {m : Client.In P}
    (e : c.client.past = newer ++ .got q m :: older) (h0 : q ≠ 0) : ∃ who out, .sent who q out ∈ older := by
  suffices h : ∀ r : List (UInt64 × Event P), Framed w (run w r.reverse .new) →
      ∀ {c : Conn P}, (run w r.reverse .new).find u = some c →
      ∀ {newer older : List (Client.Act P)}, c.client.past = newer ++ .got q m :: older → ∃ who out, .sent who q out ∈ older by
    have := h es.reverse
    rw [List.reverse_reverse] at this
    exact this hf hc e
  intro r
  induction r with
  | nil => intro _ c hc; cases hc
  | cons x r ih =>
    intro hf c hc newer older e
    rw [List.reverse_cons, run_snoc] at hf hc
    have hi0 := inv_run (w := w) r.reverse
    have hi1 := inv_step hi0 x
    generalize run w r.reverse .new = n at *
    have hf0 := (grows_step (w := w) n x).framed hf
    rcases step_cases (w := w) n x with k | ⟨v, d, d', k1, k2, k3, ⟨l, k4⟩, k5⟩
    · rcases k u c hc with ⟨c0, h1, h2⟩ | h1
      · rw [h2] at e
        exact ih hf0 h1 e
      · rw [h1] at e
        exact absurd e (by simp)
    · by_cases hv : u = v
      · subst hv
        rw [hc] at k2
        cases k2
        have h2 := e
        rw [k4] at h2
        rcases List.append_eq_append_iff.1 h2 with ⟨t, e1, e2⟩ | ⟨t, e1, e2⟩
        · cases t with
          | nil => exact ih hf0 k1 (newer := []) (by simpa using e2)
          | cons b t => exact ih hf0 k1 e2
        · cases t with
          | nil => exact ih hf0 k1 (newer := []) (by simpa using e2.symm)
          | cons b t =>
            simp only [List.cons_append, List.cons.injEq] at e2
            obtain ⟨rfl, rfl⟩ := e2
            have hlk : (q, m) ∈ Client.looked c.client.past := by
              rw [e, looked_append]; simp [Client.looked]
            obtain ⟨⟨q', o⟩, h3, h4, _⟩ := (looked_sub (hi1.conn u c hc) hf).mem hlk
            dsimp only at h4
            subst h4
            rw [k3] at h3
            obtain ⟨who, out, h5⟩ := posted_after hi0 hf0 k1 h3 h0
            exact ⟨who, out, List.mem_append_right _ h5⟩
      · rw [k5 u hv] at hc
        exact ih hf0 hc e

theorem mem_looked {h : List (Client.Act P)} {q : UInt32} {m : Client.In P} : (q, m) ∈ Client.looked h ↔ .got q m ∈ h := by
  induction h with
  | nil => simp [Client.looked]
  | cons x h ih =>
    cases x <;> simp [Client.looked, ih]
    rw [or_comm]

/-- Only confirmations are read as confirmations; they have number 0. -/
theorem no_confirmation {n : Net P} {name : Uuid → List Char} {hashes : List Char × List Char} (hi : Inv w n)
    (hfa : Faithful w name hashes n) {u : Uuid} {q : UInt32} {o : Server.Out P} {m : Client.In P} (hs : (q, o) ∈ sends u n.server.past)
    (h0 : q ≠ 0) (ha : Arrives w.down w.client.decoder q o m) : m ≠ .confirmation := by
  obtain ⟨ts, h2⟩ := ha
  have hm := hfa.answer u q o (mem_sends.1 hs) ts m h2
  rintro rfl
  cases o with
  | confirmation =>
    rcases justified_mem hi.just (mem_sends.1 hs) with ⟨h, _⟩ | ⟨newer, older, m, e, ha⟩
    · exact h0 h
    · cases ha with
      | request _ _ _ hd => cases hd
  | _ => cases (show _ = _ from hm)

section
variable {es : List (UInt64 × Event P)} {u : Uuid} {c : Conn P} {name : Uuid → List Char} {hashes : List Char × List Char}

/-- If an answer never came, in a quiet moment, then the server sent none. -/
theorem quiet_unanswered (hf : Framed w (run w es .new)) (hfa : Faithful w name hashes (run w es .new))
    (hr : Readable w (run w es .new)) (hq : Settled (run w es .new) u c) (hfew : Client.Few c.client.past) {who : Client.Who} {q : UInt32}
    {out : Client.Out P} (hsent : .sent who q out ∈ c.client.past) (h0 : q ≠ 0) (hno : ∀ m, .delivered who q m ∉ c.client.past)
    (o : Server.Out P) : (q, o) ∉ sends u (run w es .new).server.past := by
  intro hp
  have hi := inv_run (w := w) es
  obtain ⟨⟨q', m⟩, h1, h2, h3⟩ := Network.Pairs.left (quiet_down hi hf hr hq) hp
  dsimp only at h2 h3
  subst h2
  obtain ⟨newer, older, e⟩ := List.append_of_mem (mem_looked.1 h1)
  obtain ⟨who', out', h4⟩ := looked_after es hf hq.conn e h0
  obtain ⟨is, his⟩ := quiet_client hi hq
  obtain rfl := waiter_unique his hfew hsent (show Client.Act.sent who' q out' ∈ c.client.past by rw [e]; simp [h4])
  obtain ⟨m', k⟩ := quiet_handed hi hq hfew e (no_confirmation hi hfa hp h0 h3) h4
  exact hno m' k

/-- What became of an open call, in a quiet moment. -/
theorem quiet_call (hf : Framed w (run w es .new)) (hfa : Faithful w name hashes (run w es .new))
    (hr : Readable w (run w es .new)) (hq : Settled (run w es .new) u c) (hfew : Client.Few c.client.past) {k : Nat} {x : Client.Call P}
    (hc : c.client.calls.lookup k = some x) (he : Server.Expected w.server x.job.ref) :
    ∃ q id newer older, .sent (.call k) q (.msg id x.job.ref x.body) ∈ c.client.past ∧
      (run w es .new).server.past = newer ++ .got u (.msg x.job.ref x.body) q :: older ∧
      (∀ o, .send u q o true ∉ (run w es .new).server.past) ∧
      Server.Unanswered w.server w.env w.opts u q x.job.ref x.body older newer := by
  have hi := inv_run (w := w) es
  have hl := hi.conn u c hq.conn
  obtain ⟨is, his⟩ := hl.client
  have hci := (Client.inv_run w.client is).1
  rw [← his] at hci
  obtain ⟨h1, _, h3⟩ := hci.calls k x hc
  have hst : ∃ q o, .sent (.call k) q o ∈ c.client.past ∧ ∀ m, .delivered (.call k) q m ∉ c.client.past := by
    have hw := hq.waits k x hc
    rw [hq.queue, hq.authQueue] at h3
    cases e : x.phase with
    | sequence r =>
      rw [e] at hw h3
      cases hw
      exact absurd h3.2.2 (by simp)
    | uuid q r =>
      rw [e] at hw h3
      cases hw
      exact absurd h3.2.2 (by simp)
    | response q r =>
      rw [e] at hw h3
      cases hw
      rcases h3.2 with ⟨_, k⟩ | k
      · exact absurd k (by simp)
      · obtain ⟨⟨o, k1⟩, k2⟩ := hci.pending _ _ k
        exact ⟨q, o, k1, k2⟩
  obtain ⟨q, o, s1, s2⟩ := hst
  obtain ⟨job, body, id, ref, c1, c2, c3, rfl, _⟩ := Client.lawful_sent hci.lawful s1
  obtain ⟨rfl, rfl⟩ := Client.called_unique hci.lawful h1 c1
  obtain rfl : ref = x.job.ref := by
    cases hj : x.job <;> rw [hj] at c3 <;> exact c3.symm
  have h0 : q ≠ 0 := by
    rintro rfl
    have hn := Client.numbers_run w.client is
    rw [← his] at hn
    obtain ⟨i, hi⟩ := List.mem_iff_getElem?.1 (Client.mem_numbers c2)
    have := hn.list i 0 hi
    rw [Client.nth] at this
    simp at this
    omega
  obtain ⟨⟨q', y⟩, w1, w2, ts, w3⟩ := Network.Pairs.left (quiet_up hi (careful_run es) hf hr hq) (mem_sents.2 s1)
  dsimp only at w2 w3
  subst w2
  cases (show y = _ from hfa.call u c hq.conn _ _ _ s1 ts y w3)
  obtain ⟨newer, older, e⟩ := List.append_of_mem (mem_heard.1 w1)
  have hno : ∀ o, .send u q o true ∉ (run w es .new).server.past := fun o hm =>
    quiet_unanswered hf hfa hr hq hfew s1 h0 s2 o (mem_sends.2 hm)
  refine ⟨q, id, newer, older, s1, e, hno, ?_⟩
  have hnd := hq.never
  rcases (careful_run es).treated hq.running newer u _ _ q older e he (fun h => hnd (by rw [e]; simp [h])) with h | ⟨o, h⟩ | h
  · exact absurd (show .drop u ∈ (run w es .new).server.past by rw [e]; simp [h]) hnd
  · exact absurd (by rw [e]; simp [h]) (hno o)
  · exact h

/-! ### Broadcasts -/

/-- A number other than 0 comes once. -/
theorem quiet_once (hf : Framed w (run w es .new)) (hq : Settled (run w es .new) u c)
    (hfew : Client.Few c.client.past) {q : UInt32} (h0 : q ≠ 0) :
    ((Client.looked c.client.past).filter (fun x => decide (x.1 = q))).length ≤ 1 := by
  have hi := inv_run (w := w) es
  have hl := hi.conn u c hq.conn
  obtain ⟨is, his⟩ := hl.client
  obtain ⟨_, _, _, o3, _⟩ := sents_delivs (q := q) (lawful_of hl)
  have s2 := ((looked_sub hl hf).filter (fun x => decide (x.1 = q)) (fun y => decide (y.1 = q)) (by rintro a b ⟨e, _⟩; rw [e])).length
  have s3 := (answers_sub (w := w) (u := u) h0 (run w es .new).server.past.length (run w es .new).server.past (Nat.le_refl _) [] rfl hi.just).length
  have s4 := ((heard_sub hl hq.conn hf).filter (fun x => decide (x.1 = q)) (fun y => decide (y.1 = q)) (by rintro a b ⟨e, _⟩; rw [e])).length
  have s5 : ((sents c.client.past).filter (fun x => decide (x.1 = q))).length ≤ 1 := by
    have key : ∀ a ∈ (sents c.client.past).filter (fun x => decide (x.1 = q)), ∀ b ∈ (sents c.client.past).filter (fun x => decide (x.1 = q)),
        a.2.1 = b.2.1 := by
      rintro ⟨q1, a, o⟩ h1 ⟨q2, b, o'⟩ h2
      simp only [List.mem_filter, decide_eq_true_eq] at h1 h2
      obtain ⟨h1, rfl⟩ := h1
      obtain ⟨h2, rfl⟩ := h2
      exact waiter_unique his hfew (mem_sents.1 h1) (mem_sents.1 h2)
    revert o3 key
    generalize (sents c.client.past).filter (fun x => decide (x.1 = q)) = l
    intro o3 key
    match l with
    | [] => simp
    | [_] => simp
    | a :: b :: l =>
      exfalso
      have := key a (by simp) b (by simp)
      simp [this] at o3
  omega

/-- The broadcasts that were raised are those among the messages that were looked at. -/
theorem casts_picked {B : List Client.Ref} {h : List (Client.Act P)} {st : Client.Status P} (k : Client.Handled B h st)
    (h1 : ∀ who q ref p, .delivered who q (.msg ref p) ∈ h → q = 0 → ref ∉ B)
    (h2 : ∀ newer ref p older q m st, h = newer ++ .emitted (.broadcast ref p) :: older → Client.Handled B older st →
      (st = .open_ q m ∨ st = .refused q m) → q = 0) :
    (st = .free → Network.Picked (fun (x : UInt32 × Client.In P) (y : Client.Ref × P) => x.1 = 0 ∧ x.2 = .msg y.1 y.2 ∧ y.1 ∈ B)
      (fun x => x.1 = 0 → ∀ ref p, x.2 = .msg ref p → ref ∉ B) (Client.looked h) (casts h)) ∧
    ∀ q m, (st = .open_ q m ∨ st = .refused q m) → ∃ L, Client.looked h = L ++ [(q, m)] ∧
      Network.Picked (fun (x : UInt32 × Client.In P) (y : Client.Ref × P) => x.1 = 0 ∧ x.2 = .msg y.1 y.2 ∧ y.1 ∈ B)
        (fun x => x.1 = 0 → ∀ ref p, x.2 = .msg ref p → ref ∉ B) L (casts h) := by
  have t1 : ∀ {a : Client.Act P} {h : List (Client.Act P)}, (∀ who q ref p, .delivered who q (.msg ref p) ∈ a :: h → q = 0 → ref ∉ B) →
      ∀ who q ref p, .delivered who q (.msg ref p) ∈ h → q = 0 → ref ∉ B :=
    fun k who q ref p hm => k who q ref p (List.mem_cons_of_mem _ hm)
  have t2 : ∀ {a : Client.Act P} {h : List (Client.Act P)},
      (∀ newer ref p older q m st, a :: h = newer ++ .emitted (.broadcast ref p) :: older → Client.Handled B older st →
        (st = .open_ q m ∨ st = .refused q m) → q = 0) →
      ∀ newer ref p older q m st, h = newer ++ .emitted (.broadcast ref p) :: older → Client.Handled B older st →
        (st = .open_ q m ∨ st = .refused q m) → q = 0 :=
    fun {a _} k newer ref p older q m st e => k (a :: newer) ref p older q m st (by rw [e]; rfl)
  induction k with
  | nil => exact ⟨fun _ => .nil, fun _ _ h => by rcases h with h | h <;> cases h⟩
  | other h hn ih =>
    rename_i a h st
    have ih := ih (t1 h1) (t2 h2)
    cases a with
    | got => exact absurd trivial hn
    | emitted e => cases e <;> first | exact ih | exact absurd trivial hn
    | _ => exact ih
  | got q m h ih =>
    have ih := ih (t1 h1) (t2 h2)
    refine ⟨by simp, fun q' m' e => ?_⟩
    rcases e with e | e
    · cases e; exact ⟨_, rfl, ih.1 rfl⟩
    · cases e
  | @delivered h q m who k hm ih =>
    obtain ⟨L, e1, e2⟩ := (ih (t1 h1) (t2 h2)).2 _ _ (.inl rfl)
    refine ⟨fun _ => ?_, fun _ _ h => by rcases h with h | h <;> cases h⟩
    simp only [casts, Client.looked, e1]
    rw [← List.append_nil (casts h)]
    refine e2.append (.skip ?_ .nil)
    rintro h0 ref p rfl
    exact h1 who q ref p List.mem_cons_self h0
  | @started h q n k ih =>
    obtain ⟨L, e1, e2⟩ := (ih (t1 h1) (t2 h2)).2 _ _ (.inl rfl)
    refine ⟨fun _ => ?_, fun _ _ h => by rcases h with h | h <;> cases h⟩
    simp only [casts, Client.looked, e1]
    rw [← List.append_nil (casts h)]
    refine e2.append (.skip ?_ .nil)
    rintro _ ref p k
    cases k
  | failed h ih =>
    refine ⟨by simp, fun _ _ e => ?_⟩
    rcases e with e | e
    · cases e
    · cases e; exact (ih (t1 h1) (t2 h2)).2 _ _ (.inl rfl)
  | @broadcast h st q ref p k hs hb ih =>
    obtain ⟨L, e1, e2⟩ := (ih (t1 h1) (t2 h2)).2 _ _ hs
    refine ⟨fun _ => ?_, fun _ _ h => by rcases h with h | h <;> cases h⟩
    simp only [casts, Client.looked, e1]
    exact e2.append (.keep ⟨h2 [] _ _ _ _ _ _ rfl k hs, rfl, hb⟩ .nil)
  | @unknown h st q m k hs hn hb ih =>
    obtain ⟨L, e1, e2⟩ := (ih (t1 h1) (t2 h2)).2 _ _ hs
    refine ⟨fun _ => ?_, fun _ _ h => by rcases h with h | h <;> cases h⟩
    simp only [casts, Client.looked, e1]
    rw [← List.append_nil (casts h)]
    exact e2.append (.skip (fun _ => hb) .nil)

theorem looked_twice {h newer older : List (Client.Act P)} {q : UInt32} {m m' : Client.In P} (e : h = newer ++ .got q m :: older)
    (k : .got q m' ∈ older) : 2 ≤ ((Client.looked h).filter (fun x => decide (x.1 = q))).length := by
  obtain ⟨a, b, rfl⟩ := List.append_of_mem k
  rw [e, looked_append, Client.looked, looked_append, Client.looked]
  simp
  omega

/-- What is raised as broadcast has number 0. -/
theorem quiet_raised (hf : Framed w (run w es .new)) (hq : Settled (run w es .new) u c)
    (hfew : Client.Few c.client.past) {newer older : List (Client.Act P)} {ref : Flow.Ref} {p : P} {q : UInt32} {m : Client.In P}
    {st : Client.Status P} (e : c.client.past = newer ++ .emitted (.broadcast ref p) :: older)
    (k : Client.Handled w.client.broadcasts older st) (hs : st = .open_ q m ∨ st = .refused q m) : q = 0 := by
  have hi := inv_run (w := w) es
  have hl := hi.conn u c hq.conn
  obtain ⟨is, his⟩ := hl.client
  have hno := quiet_refused hi hq
  have hn : ∃ a b, older = a ++ .got q m :: b ∧ ∀ x ∈ a, ¬ x.handles := by
    rcases hs with rfl | rfl
    · exact k.newest.1 q m rfl
    · obtain ⟨a, b, rfl, k1, _⟩ := k.newest.2 q m rfl
      exact absurd (by rw [e]; simp [k1]) hno
  obtain ⟨a, b, rfl, hx⟩ := hn
  by_cases h0 : q = 0
  · exact h0
  exfalso
  obtain ⟨who, out, h4⟩ := looked_after es hf hq.conn (newer := newer ++ .emitted (.broadcast ref p) :: a) (older := b) (m := m) (by rw [e]; simp) h0
  have hr := (Client.fair_run w.client is).raised
  rw [← his, e] at hr
  obtain ⟨m', k2⟩ := Client.Raised.at hr trivial a q m b rfl (fun y hy => ⟨by rintro q' m' rfl; exact hx _ hy trivial,
    by rintro rfl; exact hx _ hy trivial⟩) who out h4
  have k3 : .delivered who q m' ∈ b := by
    rcases List.mem_append.1 k2 with k2 | k2
    · exact absurd trivial (hx _ k2)
    · simpa using k2
  obtain ⟨c1, c2, rfl⟩ := List.append_of_mem k3
  have hh := quiet_free hi hq
  rw [e] at hh
  have e' : newer ++ .emitted (.broadcast ref p) :: (a ++ .got q m :: (c1 ++ .delivered who q m' :: c2)) =
      (newer ++ .emitted (.broadcast ref p) :: (a ++ .got q m :: c1)) ++ .delivered who q m' :: c2 := by simp
  rw [e'] at hh
  obtain ⟨st', hh⟩ := hh.tail
  have hg : .got q m' ∈ c2 := by
    cases hh with
    | other _ hx => exact absurd trivial hx
    | delivered who hh _ =>
      obtain ⟨a, b, rfl, _⟩ := hh.newest.1 q m' rfl
      simp
  have h5 := quiet_once hf hq hfew h0
  have h6 := looked_twice (q := q) (m := m) (m' := m') (newer := newer ++ .emitted (.broadcast ref p) :: a)
    (older := c1 ++ .delivered who q m' :: c2) (h := c.client.past) (by rw [e]; simp) (by simp [hg])
  omega

theorem quiet_casts (hf : Framed w (run w es .new)) (hfa : Faithful w name hashes (run w es .new))
    (hr : Readable w (run w es .new)) (hq : Settled (run w es .new) u c) (hfew : Client.Few c.client.past) :
    CastsOf w.client.broadcasts (sends u (run w es .new).server.past) (casts c.client.past) := by
  have hi := inv_run (w := w) es
  have hl := hi.conn u c hq.conn
  have hlaw := lawful_of hl
  obtain ⟨is, his⟩ := hl.client
  have hpk := (casts_picked (quiet_free hi hq) (by
    rintro who q ref p hm rfl
    cases who with
    | auth k =>
      obtain ⟨t, ht, _⟩ := hq.msgs
      have hd := hm
      rw [his] at hd
      have := Client.told_none (by rw [← his, ht]; rfl) (by rw [← his]; exact hq.authQueue) hd
      rw [← his] at this
      cases hq.shaken k _ this
    | call k =>
      obtain ⟨o, k1⟩ := Client.lawful_delivered hlaw hm
      exact absurd rfl (Props.call_number hl k1)) (fun newer ref p older q m st e k hs => quiet_raised hf hq hfew e k hs)).1 rfl
  have hp : Pairs (fun x (y : UInt32 × Client.In P) => x.1 = y.1 ∧ SameAnswer name x.2 y.2)
      (sends u (run w es .new).server.past) (Client.looked c.client.past) := by
    refine (quiet_down hi hf hr hq).mono ?_
    rintro ⟨q, o⟩ ⟨q', m⟩ hx ⟨h1, ts, h2⟩
    exact ⟨h1, hfa.answer u q o (mem_sends.1 hx) ts m h2⟩
  revert hp hpk
  generalize sends u (run w es .new).server.past = L
  generalize Client.looked c.client.past = M
  generalize casts c.client.past = K
  intro hpk hp
  induction hp generalizing K with
  | nil => cases hpk; exact .nil
  | @cons x y xs ys r _ ih =>
    obtain ⟨q, o⟩ := x
    obtain ⟨q', m⟩ := y
    obtain ⟨rfl, hsame⟩ := r
    cases hpk with
    | keep r k =>
      rename_i b bs
      obtain ⟨ref, v⟩ := b
      obtain ⟨h1, h2, h3⟩ := r
      dsimp only at h1 h2 h3 hsame
      subst h1 h2
      cases o with
      | msg ref' p =>
        cases (show _ = _ from hsame)
        exact .cast h3 (ih _ k)
      | _ => cases (show _ = _ from hsame)
    | skip r k =>
      refine .other ?_ (ih _ k)
      rintro h0 ref v rfl
      exact r h0 ref v hsame

end

end Verif.System
