import Verif.Spec.NetworkRustTs
import Verif.Proofs.NetworkTsTs
import Verif.Proofs.SystemQuiet
import Verif.Proofs.NetworkGrow
set_option autoImplicit false
/-!
Rust clients of a TypeScript server.
-/
namespace Verif.Network

open Verif Verif.Spec

variable {P : Type} {cfg : TsServer.Cfg} {env : TsServer.Env} {opts : Server.Options}
  {takes : List TsServer.Act → Uuid → UInt32 → TsServer.Out → Bool}
  {down : UInt64 → UInt32 → TsServer.Out → Bytes} {ccfg : Client.Cfg P} {up : UInt64 → UInt32 → Client.Out P → Bytes}

theorem rustClientSent_append (a b : List (Client.Act P)) : rustClientSent (a ++ b) = rustClientSent b ++ rustClientSent a := by
  induction a with
  | nil => simp [rustClientSent]
  | cons x a ih => cases x <;> simp [rustClientSent, ih]

theorem mem_rustClientSent {q : UInt32} {o : Client.Out P} {h : List (Client.Act P)} :
    (q, o) ∈ rustClientSent h ↔ ∃ w, .sent w q o ∈ h := by
  induction h with
  | nil => simp [rustClientSent]
  | cons x h ih =>
    cases x with
    | sent w k out =>
      rw [rustClientSent, List.mem_append, List.mem_singleton, ih]
      simp only [List.mem_cons, Client.Act.sent.injEq, Prod.mk.injEq]
      constructor
      · rintro (⟨w', h1⟩ | ⟨rfl, rfl⟩)
        · exact ⟨w', .inr h1⟩
        · exact ⟨w, .inl ⟨rfl, rfl, rfl⟩⟩
      · rintro ⟨w', ⟨rfl, rfl, rfl⟩ | h1⟩
        · exact .inr ⟨rfl, rfl⟩
        · exact .inl ⟨w', h1⟩
    | _ => simp [rustClientSent, ih]

theorem rustClient_step (e : ClientEvent (Client.Input P)) (s : Client.State P) :
    (rustClient ccfg up).step e s = s ∨ ∃ i, (rustClient ccfg up).step e s = Client.step ccfg s i := by
  cases e with
  | data b => exact .inr ⟨.received b, rfl⟩
  | own i =>
    by_cases h : System.ownClient i = true
    · exact .inr ⟨i, if_pos h⟩
    · exact .inl (if_neg h)

theorem rustClient_sent (e : ClientEvent (Client.Input P)) (s : Client.State P) :
    ∃ l, (rustClient ccfg up).sent ((rustClient ccfg up).step e s) = (rustClient ccfg up).sent s ++ l := by
  rcases rustClient_step (ccfg := ccfg) (up := up) e s with h | ⟨i, h⟩
  · exact ⟨[], by rw [h]; simp⟩
  · obtain ⟨l, k⟩ := Client.step_suffix ccfg s i
    refine ⟨rustClientSent l, ?_⟩
    rw [h]
    show rustClientSent (Client.step ccfg s i).past = rustClientSent s.past ++ _
    rw [k, rustClientSent_append]

theorem growing_rustTs : Growing (tsServer cfg env opts takes down) (rustClient ccfg up) :=
  ⟨tsServer_sent, rustClient_sent, rfl⟩

theorem rustClient_run (is : List (ClientEvent (Client.Input P))) :
    ∃ js, clientRun (rustClient ccfg up) is = Client.run ccfg js .new := by
  suffices h : ∀ r : List (ClientEvent (Client.Input P)), ∃ js, clientRun (rustClient ccfg up) r.reverse = Client.run ccfg js .new by
    have := h is.reverse
    rwa [List.reverse_reverse] at this
  intro r
  induction r with
  | nil => exact ⟨[], rfl⟩
  | cons e r ih =>
    obtain ⟨js, h⟩ := ih
    rw [List.reverse_cons, clientRun_snoc, h]
    rcases rustClient_step (ccfg := ccfg) (up := up) e (Client.run ccfg js .new) with k | ⟨i, k⟩
    · exact ⟨js, k⟩
    · exact ⟨js ++ [i], k.trans (System.client_run_snoc js i)⟩

/-- A client took all bytes that arrived. -/
def Took {S : ServerProg} (n : Net S (rustClient ccfg up)) : Prop :=
  ∀ u c, n.find u = some c → Client.arrived c.client.past = c.gotDown

theorem took_step {S : ServerProg} {n : Net S (rustClient ccfg up)} (h : Took n) (x : UInt64 × Event S (rustClient ccfg up)) :
    Took (step n x) := by
  have serve : ∀ {m : Net S (rustClient ccfg up)} (ts : UInt64) (e : ServerEvent S.Own), Took m → Took (m.serve ts e) := by
    intro m ts e hm u c hc
    rw [find_serve, Option.map_eq_some_iff] at hc
    obtain ⟨c0, h1, rfl⟩ := hc
    exact hm u c0 h1
  have set : ∀ {v : Uuid} {d d' : Conn (rustClient ccfg up)}, n.find v = some d → Client.arrived d'.client.past = d'.gotDown →
      Took (n.set v d') := by
    intro v d d' hd hd' u c hc
    by_cases e : u = v
    · subst e
      rw [find_set_self hd] at hc
      cases hc
      exact hd'
    · rw [find_set_other e] at hc
      exact h u c hc
  obtain ⟨ts, x⟩ := x
  cases x with
  | opened u =>
    unfold step
    dsimp only
    split
    · rename_i hu
      simp only [Bool.and_eq_true, Option.isNone_iff_eq_none] at hu
      refine serve _ _ (fun v c hc => ?_)
      rw [find_snoc hu.1] at hc
      split at hc
      · cases hc; rfl
      · exact h v c hc
    · exact h
  | lost u => exact serve _ _ h
  | toServer u k =>
    unfold step
    dsimp only
    cases hu : n.find u with
    | none => exact h
    | some c => exact serve _ _ (set hu (h u c hu))
  | toClient u k =>
    unfold step
    dsimp only
    cases hu : n.find u with
    | none => exact h
    | some c =>
      dsimp only
      split
      · rename_i hw
        refine set hu ?_
        show Client.arrived (Client.step ccfg c.client (.received _)).past = _
        rw [System.client_received _ hw, h u c hu]
        rfl
      · exact h
  | server i => exact serve _ _ h
  | client u i =>
    unfold step
    dsimp only
    cases hu : n.find u with
    | none => exact h
    | some c =>
      refine set hu ?_
      show Client.arrived ((rustClient ccfg up).step (.own i) c.client).past = _
      by_cases hi : System.ownClient i = true
      · rw [show (rustClient ccfg up).step (.own i) c.client = Client.step ccfg c.client i from if_pos hi, System.client_arrived i hi]
        exact h u c hu
      · rw [show (rustClient ccfg up).step (.own i) c.client = c.client from if_neg hi]
        exact h u c hu

theorem took_run {S : ServerProg} (es : List (UInt64 × Event S (rustClient ccfg up))) : Took (run es (.new : Net S (rustClient ccfg up))) := by
  have : ∀ n : Net S (rustClient ccfg up), Took n → Took (run es n) := by
    induction es with
    | nil => exact fun n h => h
    | cons e es ih => exact fun n h => ih _ (took_step h e)
  exact this _ (fun _ _ h => (nomatch h))

section
variable {n : Net (tsServer cfg env opts takes down) (rustClient ccfg up)} {es : List (ServerEvent TsServer.Input)}
  {u : Uuid} {c : Conn (rustClient ccfg up)}

/-- What a client looked at comes from what the server sent. -/
theorem rustTs_down (hi : InvWith n es) (ht : Took n) (hf : Framed n) (hc : n.find u = some c) :
    System.Sub (fun x (y : UInt32 × Client.In P) => x.1 = y.1 ∧ System.Arrives down ccfg.decoder x.1 x.2 y.2)
      (tsPosted takes u n.server.2.past) (Client.looked c.client.past) := by
  have hl := hi.links u c hc
  have hd := hl.down
  rw [show (tsServer cfg env opts takes down).sent n.server = tsServerSent takes n.server.2.past from rfl, sendsTo_tsServerSent] at hd
  obtain ⟨L, h1, h2⟩ := hd
  obtain ⟨fs, k1, k2, k3⟩ := System.frames_of (pack := down) (fun x : UInt32 × TsServer.Out => x.1) (fun x => x.2) L (by
    intro x hx ts
    have hx' : (x.2.1, x.2.2) ∈ tsPosted takes u n.server.2.past := by
      rw [← h1]
      exact List.mem_map_of_mem hx
    rw [← sendsTo_tsServerSent] at hx'
    exact hf.down u _ _ (mem_sendsTo.1 hx') ts)
  rw [h1] at k2
  obtain ⟨is, his, _⟩ := hl.client
  obtain ⟨js, hjs⟩ := rustClient_run (ccfg := ccfg) (up := up) is
  have hr := Client.reading_run ccfg js
  rw [← hjs, ← his] at hr
  obtain ⟨more, hm⟩ := System.observe_prefix ccfg.decoder (Client.ops c.client.past) .new fs c.down k1 (by
    rw [Client.fed_ops, ht u c hc, ← k3, ← h2]; rfl)
  have : (Rust.Reader.new : Rust.Reader (Client.In P)).queue = [] := rfl
  rw [this, List.nil_append] at hm
  have hs := System.sub_of_pairs (d := ccfg.decoder) k2
  rw [← hm, List.map_append] at hs
  have hs := hs.prefix
  rw [hr.looked]
  exact hs

/-- What the server looked at comes from what the client sent. -/
theorem rustTs_up (hi : InvWith n es) (hf : Framed n) (hs : Small n) (hc : n.find u = some c) :
    System.Sub (fun x (y : UInt32 × TsServer.Msg) => x.1 = y.1 ∧ System.Arrives up cfg.decoder x.1 x.2 y.2)
      (rustClientSent c.client.past) (tsHeard u n.server.2.past) := by
  obtain ⟨h1, h2⟩ := hi.once u c hc
  have hr := tsServer_reads (cfg := cfg) (env := env) (opts := opts) (takes := takes) (pack := down) h1
    (by rw [h2]; exact (hs u c hc).1)
  rw [← hi.server, h2] at hr
  exact sub_of_reads (hi.links u c hc).up (fun q o ho ts => hf.up u c hc q o ho ts) hr

theorem rustTs_client (hi : InvWith n es) (hc : n.find u = some c) : ∃ js, c.client = Client.run ccfg js .new := by
  obtain ⟨is, his, _⟩ := (hi.links u c hc).client
  obtain ⟨js, hjs⟩ := rustClient_run (ccfg := ccfg) (up := up) is
  exact ⟨js, his.trans hjs⟩

theorem rustTs_fine (hi : InvWith n es) : TsServer.AllFine cfg n.server.2.past := by
  rw [hi.server]; exact (tsKnown_run es).inv.fine

/-- No confirmation is looked at. -/
theorem rustTs_unconfirmed (hi : InvWith n es) (ht : Took n) (hf : Framed n) (ha : RustTsFaithful n) (hc : n.find u = some c)
    {q : UInt32} : .got q .confirmation ∉ c.client.past := by
  intro h
  obtain ⟨⟨q', o⟩, h1, h2, ts, h3⟩ := (rustTs_down hi ht hf hc).mem (System.mem_looked.2 h)
  obtain ⟨f, h4⟩ := mem_tsPosted h1
  have := ha.down f u q' o h4 ts _ h3
  cases this

theorem started_got {B : List Client.Ref} {h : List (Client.Act P)} {st : Client.Status P} (k : Client.Handled B h st) :
    (∀ n, .authStarted n ∈ h → ∃ q, .got q .confirmation ∈ h) ∧ (∀ q m, st = .open_ q m → .got q m ∈ h) := by
  induction k with
  | nil => exact ⟨fun _ h => (nomatch h), fun _ _ h => (nomatch h)⟩
  | other _ hn ih =>
    refine ⟨fun n hm => ?_, fun q m e => List.mem_cons_of_mem _ (ih.2 q m e)⟩
    rcases List.mem_cons.1 hm with rfl | hm
    · exact absurd trivial hn
    · obtain ⟨q, hq⟩ := ih.1 n hm
      exact ⟨q, List.mem_cons_of_mem _ hq⟩
  | got q m _ ih =>
    refine ⟨fun n hm => ?_, fun q' m' e => by cases e; simp⟩
    rcases List.mem_cons.1 hm with e | hm
    · cases e
    · obtain ⟨q, hq⟩ := ih.1 n hm
      exact ⟨q, List.mem_cons_of_mem _ hq⟩
  | started n' _ ih =>
    refine ⟨fun n hm => ?_, fun _ _ e => (nomatch e)⟩
    exact ⟨_, List.mem_cons_of_mem _ (ih.2 _ _ rfl)⟩
  | _ =>
    rename_i ih
    refine ⟨fun n hm => ?_, fun _ _ e => (nomatch e)⟩
    rcases List.mem_cons.1 hm with e | hm
    · cases e
    · obtain ⟨q, hq⟩ := ih.1 n hm
      exact ⟨q, List.mem_cons_of_mem _ hq⟩

theorem rustTs_unstarted (hi : InvWith n es) (ht : Took n) (hf : Framed n) (ha : RustTsFaithful n) (hc : n.find u = some c) (k : Nat) :
    .authStarted k ∉ c.client.past := by
  intro h
  obtain ⟨js, hjs⟩ := rustTs_client hi hc
  have hci := (Client.inv_run ccfg js).1
  rw [← hjs] at hci
  obtain ⟨q, hq⟩ := (started_got hci.handled).1 k h
  exact rustTs_unconfirmed hi ht hf ha hc hq

theorem rustTs_lawful (hi : InvWith n es) (hc : n.find u = some c) : Client.Lawful ccfg c.client.past := by
  obtain ⟨js, hjs⟩ := rustTs_client hi hc
  rw [hjs]
  exact (Client.inv_run ccfg js).1.lawful

theorem rustTs_unassigned (hi : InvWith n es) (ht : Took n) (hf : Framed n) (ha : RustTsFaithful n) (hc : n.find u = some c)
    {k : Nat} {r : Option (List Char)} : .authEnded k r ∉ c.client.past := by
  intro h
  have hl := rustTs_lawful hi hc
  obtain ⟨a, b, e⟩ := List.append_of_mem h
  rw [e] at hl
  exact rustTs_unstarted hi ht hf ha hc k (by rw [e]; simp [(Client.Lawful.at hl).2.1])

/-- Only calls send messages, without id. -/
theorem rustTs_sent (hi : InvWith n es) (ht : Took n) (hf : Framed n) (ha : RustTsFaithful n) (hc : n.find u = some c)
    {who : Client.Who} {q : UInt32} {o : Client.Out P} (h : .sent who q o ∈ c.client.past) :
    ∃ k job body ref, who = .call k ∧ .called k job body ∈ c.client.past ∧ job.Asks ref ∧ o = .msg none ref body ∧ q ≠ 0 := by
  have hl := rustTs_lawful hi hc
  obtain ⟨a, b, e⟩ := List.append_of_mem h
  rw [e] at hl
  have hm : ∀ x ∈ b, x ∈ c.client.past := fun x hx => by rw [e]; simp [hx]
  have hca := (Client.Lawful.at hl).1
  cases who with
  | auth k => exact absurd (hm _ hca.1) (rustTs_unstarted hi ht hf ha hc k)
  | call k =>
    obtain ⟨job, body, v, ref, h1, h2, h3, rfl, h4⟩ := hca
    refine ⟨k, job, body, ref, rfl, hm _ h1, h3, ?_, ?_⟩
    · cases v with
      | none => rfl
      | some v =>
        obtain ⟨j, w, h5, _⟩ := h4 v rfl
        exact absurd (hm _ h5) (rustTs_unassigned hi ht hf ha hc)
    · rintro rfl
      obtain ⟨js, hjs⟩ := rustTs_client hi hc
      have hn := Client.numbers_run ccfg js
      rw [← hjs] at hn
      obtain ⟨i, hi'⟩ := List.mem_iff_getElem?.1 (Client.mem_numbers (hm _ h2))
      have := hn.list i 0 hi'
      rw [Client.nth] at this
      simp at this
      omega

/-- The server finds no hash request of the client. -/
theorem rustTs_unhashed (hi : InvWith n es) (ht : Took n) (hf : Framed n) (hs : Small n) (ha : RustTsFaithful n) (hc : n.find u = some c)
    {m : TsServer.Msg} {q : UInt32} (h : .got u m q ∈ n.server.2.past) (b : TsServer.Js) :
    ¬ TsServer.Found m "InternalServiceGroup.HashRequest".toList b := by
  obtain ⟨⟨q', o⟩, h1, h2, ts, h3⟩ := (rustTs_up hi hf hs hc).mem (mem_tsHeard.2 h)
  obtain ⟨w, h1⟩ := mem_rustClientSent.1 h1
  obtain ⟨k, job, body, ref, rfl, _, _, rfl, _⟩ := rustTs_sent hi ht hf ha hc h1
  exact (ha.up u c hc _ q' none ref body h1 ts m h3).2 b

theorem mem_of_since {v : Uuid} {a : TsServer.Act} {h : List TsServer.Act} (hm : a ∈ TsServer.since v h) : a ∈ h := by
  induction h with
  | nil => exact hm
  | cons x h ih =>
    cases x with
    | opened w =>
      rw [TsServer.since] at hm
      split at hm
      · cases hm
      · rcases List.mem_cons.1 hm with rfl | hm
        · simp
        · exact List.mem_cons_of_mem _ (ih hm)
    | _ =>
      rcases List.mem_cons.1 hm with rfl | hm
      · simp
      · exact List.mem_cons_of_mem _ (ih hm)

/-- No code of the server's user runs for the client. -/
theorem rustTs_unserved (hi : InvWith n es) (ht : Took n) (hf : Framed n) (hs : Small n) (ha : RustTsFaithful n) (hc : n.find u = some c)
    {t : Nat} {ref : Flow.Ref} {b : TsServer.Js} {q : UInt32} :
    .respond t u ref b q ∉ n.server.2.past ∧ .beacon t u ref b q ∉ n.server.2.past := by
  have hfi := rustTs_fine hi
  have key : ∀ {x : TsServer.Act} {newer older : List TsServer.Act}, n.server.2.past = newer ++ x :: older →
      ¬ TsServer.Handshake cfg u older := by
    intro x newer older e hh
    obtain ⟨m, seq, ps, h1, h2, _⟩ := hh.hash
    exact rustTs_unhashed hi ht hf hs ha hc (q := seq)
      (by rw [e]; exact List.mem_append_right _ (List.mem_cons_of_mem _ (mem_of_since h1))) _ h2
  constructor
  · intro h
    obtain ⟨newer, older, e⟩ := List.append_of_mem h
    rw [e] at hfi
    exact key e (TsServer.allFine_at hfi).1.1
  · intro h
    obtain ⟨newer, older, e⟩ := List.append_of_mem h
    rw [e] at hfi
    exact key e (TsServer.allFine_at hfi).1.1

/-- A call gets no answer, but for the answer to a key. -/
theorem rustTs_delivered (hi : InvWith n es) (ht : Took n) (hf : Framed n) (hs : Small n) (ha : RustTsFaithful n) (hc : n.find u = some c)
    {who : Client.Who} {q : UInt32} {m : Client.In P} (h : .delivered who q m ∈ c.client.past) : ∃ v, m = .selfKey v := by
  have hl := rustTs_lawful hi hc
  obtain ⟨js, hjs⟩ := rustTs_client hi hc
  have hci := (Client.inv_run ccfg js).1
  rw [← hjs] at hci
  have hlk : (q, m) ∈ Client.looked c.client.past := 
    (System.delivs_looked hci.handled).1.subset (List.mem_map.2 ⟨(q, who, m), System.mem_delivs.2 h, rfl⟩)
  obtain ⟨⟨q', o⟩, h1, h2, ts, h3⟩ := (rustTs_down hi ht hf hc).mem hlk
  dsimp only at h2 h3
  subst h2
  obtain ⟨a, b, e⟩ := List.append_of_mem h
  rw [e] at hl
  obtain ⟨⟨o', h4⟩, _⟩ := Client.Lawful.at hl
  obtain ⟨_, _, _, _, _, _, _, _, h0⟩ := rustTs_sent hi ht hf ha hc (show .sent who q' o' ∈ c.client.past by rw [e]; simp [h4])
  obtain ⟨f, h5⟩ := mem_tsPosted h1
  have hk := ha.down f u q' o h5 ts _ h3
  obtain ⟨newer, older, e'⟩ := List.append_of_mem h5
  obtain ⟨x, hx⟩ := replies_of_fine (rustTs_fine hi) e' h0
  have no := fun {t ref b q} => rustTs_unserved hi ht hf hs ha hc (t := t) (ref := ref) (b := b) (q := q)
  cases hx with
  | selfKey _ => cases hk; exact ⟨_, rfl⟩
  | hash hfo _ => exact absurd hfo (rustTs_unhashed hi ht hf hs ha hc (q := q') (by rw [e']; simp) _)
  | @request t _ _ _ _ ref _ b _ _ _ _ _ => exact absurd (by rw [e']; simp) (no (t := t) (ref := ref) (b := b) (q := q')).1
  | @beacon t _ _ _ d b _ _ => exact absurd (by rw [e']; simp) (no (t := t) (ref := d.reference) (b := b) (q := q')).2

end

end Verif.Network
