import Verif.Spec.NetworkTsTs
import Verif.Proofs.NetworkTsServer
import Verif.Proofs.NetworkTsRustMore
set_option autoImplicit false
/-!
TypeScript clients of a TypeScript server.
-/
namespace Verif.Network

open Verif Verif.Spec

variable {cfg : TsServer.Cfg} {env : TsServer.Env} {opts : Server.Options}
  {takes : List TsServer.Act → Uuid → UInt32 → TsServer.Out → Bool}
  {down : UInt64 → UInt32 → TsServer.Out → Bytes} {ccfg : TsClient.Cfg} {cenv : TsClient.Env}
  {up : UInt64 → UInt32 → TsClient.Out → Bytes}

theorem growing_tsTs : Growing (tsServer cfg env opts takes down) (tsClient ccfg cenv up) :=
  ⟨tsServer_sent, tsClient_sent, rfl⟩

/-! ### Messages the server finds something in -/

theorem leads_reaches {w b : TsServer.Js} {ns : List TsServer.Name} (h : TsServer.Leads w ns b) : TsClient.Reaches w ns b := by
  induction h with
  | here => exact .here
  | step h1 _ ih => exact .step h1 ih

theorem found_holds {m : TsServer.Msg} {ref : Flow.Ref} {b : TsServer.Js} (h : TsServer.Found m ref b) : TsClient.Holds m ref b := by
  obtain ⟨ns, w, h1, h2, h3⟩ := h
  exact ⟨ns, w, h1, h2, leads_reaches h3⟩

/-- What is found under a reference that is apart from the type of the message is the message. -/
theorem holds_apart {m : TsServer.Msg} {a ref : Flow.Ref} {b : TsServer.Js} (hm : TsServer.Spells m.path a) (h : TsClient.Holds m ref b)
    (ha : Apart a ref) : a = ref ∧ b = m.body := by
  obtain ⟨ns, h1, h2, h3⟩ := holds_path h
  obtain rfl := ha _ _ hm h1 h2.symm
  exact ⟨rfl, h3 ((TsServer.spells_unique h1).trans (TsServer.spells_unique hm).symm)⟩

/-! ### Numbers -/

/-- A number occurs at one place. -/
theorem got_once {u : Uuid} {past a b a' b' : List TsServer.Act} {m m' : TsServer.Msg} {q : UInt32}
    (hp : (tsHeard u past).Pairwise (fun x y => x.1 < y.1)) (e : past = a ++ .got u m q :: b) (e' : past = a' ++ .got u m' q :: b') :
    a = a' ∧ m = m' ∧ b = b' := by
  have no : ∀ (a l b : List TsServer.Act) (m m' : TsServer.Msg), past = a ++ .got u m q :: (l ++ .got u m' q :: b) → False := by
    intro a l b m m' e
    rw [e, tsHeard_append] at hp
    have h1 := (List.pairwise_append.1 hp).1
    rw [show tsHeard u (.got u m q :: (l ++ .got u m' q :: b)) = tsHeard u (l ++ .got u m' q :: b) ++ [(q, m)] by simp [tsHeard]] at h1
    have := (List.pairwise_append.1 h1).2.2 (q, m') (mem_tsHeard.2 (by simp)) (q, m) (by simp)
    exact absurd this (by simp)
  rcases List.append_eq_append_iff.1 (e.symm.trans e') with ⟨l, h1, h2⟩ | ⟨l, h1, h2⟩
  · cases l with
    | nil => cases h2; exact ⟨by simpa using h1.symm, rfl, rfl⟩
    | cons x l =>
      simp only [List.cons_append, List.cons.injEq] at h2
      obtain ⟨rfl, h2⟩ := h2
      exact (no a l b' m m' (by rw [e, h2])).elim
  · cases l with
    | nil => cases h2; exact ⟨by simpa using h1, rfl, rfl⟩
    | cons x l =>
      simp only [List.cons_append, List.cons.injEq] at h2
      obtain ⟨rfl, h2⟩ := h2
      exact (no a' l b m' m (by rw [e', h2])).elim

/-- What a message with a number different from 0 answers: directly after the message of the client was
looked at, it was sent itself, or its handler was started. -/
inductive Replies (cfg : TsServer.Cfg) (u : Uuid) (q : UInt32) : TsServer.Origin → TsServer.Out → List TsServer.Act → TsServer.Msg → Prop where
  | selfKey {m : TsServer.Msg} {older : List TsServer.Act} {k : TsServer.Js} : TsServer.Found m cfg.selfKey k →
      Replies cfg u q .handshake (.selfKey u) (.got u m q :: older) m
  | hash {m : TsServer.Msg} {older : List TsServer.Act} {b : TsServer.Js} {e : Bool} :
      TsServer.Found m "InternalServiceGroup.HashRequest".toList b → (e = false ↔ TsServer.RightHash cfg b) →
      Replies cfg u q .handshake (.hash e) (.got u m q :: older) m
  | request {t : Nat} {m : TsServer.Msg} {mid older : List TsServer.Act} {r : Flow.Request} {ref resp : Flow.Ref} {b x : TsServer.Js} :
      r ∈ cfg.workflow.requests → r.request = some ref → AnswerOf r resp → TsServer.Found m ref b →
      Replies cfg u q (.answer t) (.msg resp x) (mid ++ .respond t u ref b q :: .got u m q :: older) m
  | beacon {t : Nat} {m : TsServer.Msg} {mid older : List TsServer.Act} {d : Flow.Broadcast} {b : TsServer.Js} :
      d ∈ cfg.workflow.beacons → TsServer.Found m d.reference b →
      Replies cfg u q (.answer t) .beacon (mid ++ .beacon t u d.reference b q :: .got u m q :: older) m

theorem replies_of_fine {past newer h : List TsServer.Act} {f : TsServer.Origin} {u : Uuid} {q : UInt32} {o : TsServer.Out}
    (ha : TsServer.AllFine cfg past) (e : past = newer ++ .send f u q o :: h) (hq : q ≠ 0) : ∃ m, Replies cfg u q f o h m := by
  rw [e] at ha
  have hf := TsServer.allFine_at ha
  have back : ∀ {mid : List TsServer.Act} {x : TsServer.Act} {older : List TsServer.Act}, h = mid ++ x :: older → TsServer.Fine cfg older x := by
    intro mid x older k
    rw [k] at ha
    exact TsServer.allFine_at (newer := newer ++ .send f u q o :: mid) (by simpa using ha)
  cases f with
  | handshake =>
    obtain ⟨m, older, rfl, ⟨k, h1, rfl⟩ | ⟨b, x, h1, rfl, h2⟩⟩ := hf
    · exact ⟨m, .selfKey h1⟩
    · exact ⟨m, .hash h1 h2⟩
  | cast t => exact absurd hf.1 hq
  | answer t =>
    rcases hf.1 with ⟨r, ref, b, resp, x, h1, h2, h3, rfl, h4⟩ | ⟨ref, b, h1, rfl⟩
    · obtain ⟨mid, older, rfl⟩ := List.append_of_mem h3
      obtain ⟨⟨_, _, _, m, older', rfl, h5⟩, _⟩ := back rfl
      exact ⟨m, .request h1 h2 (h4.symm.imp id id) h5⟩
    · obtain ⟨mid, older, rfl⟩ := List.append_of_mem h1
      obtain ⟨⟨_, _, _, m, older', rfl, h5⟩, d, h6, rfl⟩ := back rfl
      exact ⟨m, .beacon h6 h5⟩

/-- The act directly after the message: the answer itself, or the start of its handler. -/
theorem Replies.place {u : Uuid} {q : UInt32} {f : TsServer.Origin} {o : TsServer.Out} {h : List TsServer.Act} {m : TsServer.Msg}
    (hr : Replies cfg u q f o h m) {past newer : List TsServer.Act} (e : past = newer ++ .send f u q o :: h) :
    ∃ a x b, past = a ++ x :: .got u m q :: b ∧ ((f = .handshake ∧ x = .send f u q o ∧ a = newer) ∨
      ∃ t, f = .answer t ∧ ((∃ ref b, x = .respond t u ref b q) ∨ ∃ ref b, x = .beacon t u ref b q)) := by
  cases hr with
  | selfKey => exact ⟨_, _, _, e, .inl ⟨rfl, rfl, rfl⟩⟩
  | hash => exact ⟨_, _, _, e, .inl ⟨rfl, rfl, rfl⟩⟩
  | @request t m mid older =>
    exact ⟨newer ++ .send (.answer t) u q _ :: mid, _, older, e.trans (List.append_assoc newer (_ :: mid) _).symm, .inr ⟨t, rfl, .inl ⟨_, _, rfl⟩⟩⟩
  | @beacon t m mid older =>
    exact ⟨newer ++ .send (.answer t) u q _ :: mid, _, older, e.trans (List.append_assoc newer (_ :: mid) _).symm, .inr ⟨t, rfl, .inr ⟨_, _, rfl⟩⟩⟩

/-- A number is used for one answer. -/
theorem reply_once {u : Uuid} {q : UInt32} {past newer h : List TsServer.Act} {f f' : TsServer.Origin} {o o' : TsServer.Out}
    (ha : TsServer.AllFine cfg past) (hp : (tsHeard u past).Pairwise (fun x y => x.1 < y.1)) (hq : q ≠ 0)
    (e : past = newer ++ .send f u q o :: h) (hm : .send f' u q o' ∈ h) : False := by
  obtain ⟨m1, r1⟩ := replies_of_fine ha e hq
  obtain ⟨p, h', rfl⟩ := List.append_of_mem hm
  have e' : past = (newer ++ .send f u q o :: p) ++ .send f' u q o' :: h' := by rw [e]; simp
  obtain ⟨m2, r2⟩ := replies_of_fine ha e' hq
  obtain ⟨a1, x1, b1, k1, c1⟩ := r1.place e
  obtain ⟨a2, x2, b2, k2, c2⟩ := r2.place e'
  have k1' : past = (a1 ++ [x1]) ++ .got u m1 q :: b1 := by rw [k1]; simp
  have k2' : past = (a2 ++ [x2]) ++ .got u m2 q :: b2 := by rw [k2]; simp
  obtain ⟨ea, _, _⟩ := got_once hp k1' k2'
  obtain ⟨rfl, ex⟩ := List.append_inj' ea rfl
  cases ex
  rcases c1 with ⟨rfl, rfl, rfl⟩ | ⟨t, rfl, c1⟩
  · rcases c2 with ⟨rfl, _, k⟩ | ⟨t, _, c2⟩
    · have := congrArg List.length k
      simp at this
    · rcases c2 with ⟨_, _, k⟩ | ⟨_, _, k⟩ <;> cases k
  · rcases c2 with ⟨rfl, rfl, k⟩ | ⟨t', rfl, c2⟩
    · rcases c1 with ⟨_, _, k⟩ | ⟨_, _, k⟩ <;> cases k
    · have : t = t' := by
        rcases c1 with ⟨_, _, rfl⟩ | ⟨_, _, rfl⟩ <;> rcases c2 with ⟨_, _, k⟩ | ⟨_, _, k⟩ <;> cases k <;> rfl
      subst this
      rw [e] at ha
      exact (TsServer.allFine_at ha).2 _ _ _ hm

theorem posted_distinct {u : Uuid} {past : List TsServer.Act}
    (ha : TsServer.AllFine cfg past) (hp : (tsHeard u past).Pairwise (fun x y => x.1 < y.1)) :
    ((tsPosted takes u past).filter (fun x => x.1 ≠ 0)).Pairwise (fun a b => a.1 ≠ b.1) := by
  suffices h : ∀ l newer, past = newer ++ l → ((tsPosted takes u l).filter (fun x => x.1 ≠ 0)).Pairwise (fun a b => a.1 ≠ b.1) from
    h past [] rfl
  intro l
  induction l with
  | nil => intro _ _; exact .nil
  | cons x l ih =>
    intro newer e
    have ih := ih (newer ++ [x]) (by rw [e]; simp)
    cases x with
    | send f v q o =>
      rw [tsPosted]
      split
      · rename_i hv
        obtain ⟨rfl, _⟩ := hv
        rw [List.filter_append, List.pairwise_append]
        refine ⟨ih, by simp [List.filter_cons]; split <;> simp, ?_⟩
        rintro ⟨q1, o1⟩ h1 ⟨q2, o2⟩ h2 k
        obtain ⟨h1, _⟩ := List.mem_filter.1 h1
        obtain ⟨h2, h0⟩ := List.mem_filter.1 h2
        cases List.mem_singleton.1 h2
        cases (show q1 = q from k)
        obtain ⟨f', h1⟩ := mem_tsPosted h1
        exact reply_once ha hp (by simpa using h0) e h1
      · rwa [List.append_nil]
    | _ => exact ih

section
variable {n : Net (tsServer cfg env opts takes down) (tsClient ccfg cenv up)} {es : List (ServerEvent TsServer.Input)}
  {u : Uuid} {c : Conn (tsClient ccfg cenv up)}

theorem tsTs_law (hi : InvWith n es) (hc : n.find u = some c) : TsClient.Lawful ccfg c.client.2.past := by
  obtain ⟨is, h1, _⟩ := (hi.links u c hc).client
  obtain ⟨js, h2, _⟩ := tsClient_run (cfg := ccfg) (env := cenv) (pack := up) is
  rw [h1, h2]
  exact TsClient.lawful_run ccfg cenv js

theorem tsTs_fine (hi : InvWith n es) : TsServer.AllFine cfg n.server.2.past := by
  rw [hi.server]; exact (tsKnown_run es).inv.fine

theorem tsTs_reads_down (hi : InvWith n es) (hs : Small n) (hc : n.find u = some c) :
    Flows down (tsPosted takes u n.server.2.past) (c.gotDown ++ c.down) ∧
    ReadsOf ccfg.decoder c.gotDown (TsClient.looked c.client.2.past) := by
  have hl := hi.links u c hc
  obtain ⟨is, h1, h2⟩ := hl.client
  have hr := tsClient_reads (cfg := ccfg) (env := cenv) (pack := up) (is := is) (by rw [h2]; exact (hs u c hc).2)
  rw [← h1, h2] at hr
  have hd := hl.down
  rw [show (tsServer cfg env opts takes down).sent n.server = tsServerSent takes n.server.2.past from rfl, sendsTo_tsServerSent] at hd
  exact ⟨hd, hr⟩

theorem tsTs_framed_down (hf : Framed n) (q : UInt32) (o : TsServer.Out) (ho : (q, o) ∈ tsPosted takes u n.server.2.past) (ts : UInt64) :
    System.IsFrame q (down ts q o) := by
  rw [← sendsTo_tsServerSent] at ho
  exact hf.down u q o (mem_sendsTo.1 ho) ts

/-- What a client looked at comes from what the server sent. -/
theorem tsTs_down (hi : InvWith n es) (hf : Framed n) (hs : Small n) (hc : n.find u = some c) :
    System.Sub (fun x (y : UInt32 × TsServer.Msg) => x.1 = y.1 ∧ System.Arrives down ccfg.decoder x.1 x.2 y.2)
      (tsPosted takes u n.server.2.past) (TsClient.looked c.client.2.past) :=
  sub_of_reads (tsTs_reads_down hi hs hc).1 (tsTs_framed_down hf) (tsTs_reads_down hi hs hc).2

theorem tsTs_reads_up (hi : InvWith n es) (hs : Small n) (hc : n.find u = some c) :
    ReadsOf cfg.decoder c.gotUp (tsHeard u n.server.2.past) := by
  obtain ⟨h1, h2⟩ := hi.once u c hc
  have hr := tsServer_reads (cfg := cfg) (env := env) (opts := opts) (takes := takes) (pack := down) h1
    (by rw [h2]; exact (hs u c hc).1)
  rw [← hi.server, h2] at hr
  exact hr

/-- What the server looked at comes from what the client sent. -/
theorem tsTs_up (hi : InvWith n es) (hf : Framed n) (hs : Small n) (hc : n.find u = some c) :
    System.Sub (fun x (y : UInt32 × TsServer.Msg) => x.1 = y.1 ∧ System.Arrives up cfg.decoder x.1 x.2 y.2)
      (tsSent c.client.2.past) (tsHeard u n.server.2.past) :=
  sub_of_reads (hi.links u c hc).up (fun q o ho ts => hf.up u c hc q o ho ts) (tsTs_reads_up hi hs hc)

theorem tsTs_increasing (hi : InvWith n es) (hf : Framed n) (hs : Small n) (hc : n.find u = some c) :
    (tsHeard u n.server.2.past).Pairwise (fun a b => a.1 < b.1) :=
  sub_increasing (fun _ _ h => h.1) (tsTs_up hi hf hs hc) (tsSent_increasing (tsTs_law hi hc))

theorem Replies.got {f : TsServer.Origin} {o : TsServer.Out} {h : List TsServer.Act} {m : TsServer.Msg} {q : UInt32}
    (hr : Replies cfg u q f o h m) : .got u m q ∈ h := by
  cases hr <;> simp

/-- The answer a client gets is the server's answer to its very message. -/
theorem tsTs_answer (hi : InvWith n es) (hf : Framed n) (hs : Small n) (hc : n.find u = some c) {w : TsClient.Waiter}
    {q : UInt32} {m : TsServer.Msg} (hd : .delivered w q m ∈ c.client.2.past) :
    ∃ o f out x newer h, .sent w q.toNat o ∈ c.client.2.past ∧ System.Arrives up cfg.decoder q o x ∧
      n.server.2.past = newer ++ .send f u q out :: h ∧ Replies cfg u q f out h x ∧
      System.Arrives down ccfg.decoder q out m := by
  have hl := tsTs_law hi hc
  obtain ⟨l1, l2, e⟩ := List.append_of_mem hd
  have hl' := hl
  rw [e] at hl'
  obtain ⟨⟨o, h1⟩, _, h', rfl⟩ := hl'.at
  have hs1 : .sent w q.toNat o ∈ c.client.2.past := by rw [e]; simp [h1]
  have hg : (q, m) ∈ TsClient.looked c.client.2.past := mem_tsLooked.2 (by rw [e]; simp)
  obtain ⟨⟨q', out⟩, k1, rfl, k2⟩ := (tsTs_down hi hf hs hc).mem hg
  have h1q : 1 ≤ q'.toNat ∧ q'.toNat < 4294967296 := by
    obtain ⟨a, b, e2⟩ := List.append_of_mem hs1
    rw [e2] at hl
    exact ⟨(hl.at).1, (hl.at).2.1⟩
  have hq0 : q' ≠ 0 := by rintro rfl; exact absurd h1q.1 (by decide)
  obtain ⟨f, k3⟩ := mem_tsPosted k1
  obtain ⟨newer, h, e3⟩ := List.append_of_mem k3
  obtain ⟨x, hr⟩ := replies_of_fine (tsTs_fine hi) e3 hq0
  have hx : (q', x) ∈ tsHeard u n.server.2.past := mem_tsHeard.2 (by rw [e3]; simp [hr.got])
  obtain ⟨⟨q2, o2⟩, g1, g2, g3⟩ := (tsTs_up hi hf hs hc).mem hx
  cases (show q2 = q' from g2)
  obtain ⟨w2, k, g4, g5⟩ := mem_tsSent.1 g1
  have hk : k = q'.toNat := by
    obtain ⟨a, b, e2⟩ := List.append_of_mem g4
    rw [e2] at hl
    have := (hl.at).2.1
    rw [← g5]
    simp only [Nat.toUInt32_eq, UInt32.toNat_ofNat']
    omega
  subst hk
  obtain ⟨rfl, rfl⟩ := TsClient.law_sent_number hl g4 hs1
  exact ⟨_, f, out, x, newer, h, hs1, g3, e3, hr, k2⟩

/-- A value of an answer that a request waits for comes from user code of the server. -/
theorem tsTs_told {t : TsTerms} (hi : InvWith n es) (hf : Framed n) (hs : Small n) (ha : TsFaithful t n)
    (hc : n.find u = some c) {k o : Nat} {q : UInt32} {m : TsServer.Msg} (hd : .delivered (.call k o) q m ∈ c.client.2.past)
    {r : Flow.Request} {b : TsServer.Js} (hr : .created o (.request r) b ∈ c.client.2.past) {ref : Flow.Ref}
    {v : TsServer.Js} (hv : TsClient.Holds m ref v) (hw : AnswerOf r ref) (hcl : Clear cfg.workflow r) :
    ∃ x task newer mid older served, .sent (.call k o) q.toNat (.msg (r.request.getD []) b) ∈ c.client.2.past ∧
      n.server.2.past = newer ++ .send (.answer task) u q (.msg ref v) :: (mid ++
        .respond task u (r.request.getD []) b q :: .got u x q :: older) ∧
      TsServer.IsA x (r.request.getD []) ∧ x.body = b ∧
      served ∈ cfg.workflow.requests ∧ served.request = some (r.request.getD []) ∧ AnswerOf served ref := by
  obtain ⟨o', f, out, x, newer, h, h1, ⟨ts1, h2⟩, h3, h4, ⟨ts2, h5⟩⟩ := tsTs_answer hi hf hs hc hd
  obtain ⟨asked, e1, rfl⟩ := sent_request (tsTs_law hi hc) hr h1
  obtain ⟨p1, p2⟩ := ha.up u c hc _ _ _ h1 ts1 x (by simpa using h2)
  have hdown := ha.down f u q out (by rw [h3]; simp) ts2 m h5
  obtain ⟨hfo, hap⟩ := hcl.answers ref hw
  cases e1
  cases h4 with
  | selfKey => exact (service_foreign hdown.1 hfo hv).elim
  | hash => exact (service_foreign hdown.1 hfo hv).elim
  | beacon => exact (service_foreign hdown.1 hfo hv).elim
  | @request task x mid older served ref' resp b' v' k1 k2 k3 k4 =>
    obtain ⟨d1, d2⟩ := hdown
    obtain ⟨ns, f1, f2, f3⟩ := holds_path hv
    obtain rfl : ref = resp := hap _ k1 _ k3 ns m.path f1 d1 f2
    obtain rfl : v = m.body := f3 ((TsServer.spells_unique f1).trans (TsServer.spells_unique d1).symm)
    obtain ⟨rfl, rfl⟩ := holds_apart p1 (found_holds k4) (hcl.requests _ k1 _ k2)
    subst d2 p2
    exact ⟨x, task, newer, mid, older, served, h1, h3, p1, rfl, k1, k2, k3⟩

/-- A confirmation that a beacon waits for comes from the server: it has no error, and user code took the
beacon. -/
theorem tsTs_confirmed {t : TsTerms} (hi : InvWith n es) (hf : Framed n) (hs : Small n) (ha : TsFaithful t n)
    (hc : n.find u = some c) {k o : Nat} {q : UInt32} {m : TsServer.Msg} (hd : .delivered (.call k o) q m ∈ c.client.2.past)
    {ref : Flow.Ref} {b : TsServer.Js} (hr : .created o (.beacon ref) b ∈ c.client.2.past) {e : Bool}
    (hv : TsClient.Confirms m e) (ho : TsOutside cfg.workflow) (hap : ∀ d ∈ cfg.workflow.beacons, Apart ref d.reference) :
    e = false ∧ ∃ x task newer mid older d, .sent (.call k o) q.toNat (.msg ref b) ∈ c.client.2.past ∧
      n.server.2.past = newer ++ .send (.answer task) u q .beacon :: (mid ++ .beacon task u ref b q :: .got u x q :: older) ∧
      TsServer.IsA x ref ∧ x.body = b ∧ d ∈ cfg.workflow.beacons ∧ d.reference = ref := by
  obtain ⟨body, hv, he⟩ := hv
  rw [beacon_name] at hv
  obtain ⟨o', f, out, x, newer, h, h1, ⟨ts1, h2⟩, h3, h4, ⟨ts2, h5⟩⟩ := tsTs_answer hi hf hs hc hd
  obtain ⟨asked, rfl, rfl⟩ := sent_request (tsTs_law hi hc) hr h1
  obtain ⟨p1, p2⟩ := ha.up u c hc _ _ _ h1 ts1 x (by simpa using h2)
  have hdown := ha.down f u q out (by rw [h3]; simp) ts2 m h5
  cases h4 with
  | selfKey =>
    have := (service_same hdown.1 (by decide) hv).1
    exact absurd this (by decide)
  | hash =>
    have := (service_same hdown.1 (by decide) hv).1
    exact absurd this (by decide)
  | request k1 k2 k3 k4 => exact (foreign_service hdown.1 (ho _ k1 _ k3) hv).elim
  | @beacon task x mid older d b' k1 k2 =>
    obtain ⟨e1, e2⟩ := holds_apart p1 (found_holds k2) (hap d k1)
    obtain ⟨_, rfl⟩ := service_same hdown.1 (by decide) hv
    obtain ⟨_, ps, e3, e4⟩ := hdown
    subst e2 p2
    refine ⟨?_, x, task, newer, mid, older, d, h1, by rw [h3, e1], p1, rfl, k1, e1.symm⟩
    cases e with
    | false => rfl
    | true =>
      obtain ⟨ps', x, e5, e6⟩ := he.1 rfl
      rw [e3] at e5
      cases e5
      rw [e4] at e6
      cases e6

end

/-- Together with what happened: user code decided on the answer. -/
theorem tsTs_served {t : TsTerms} {es : List (UInt64 × Event (tsServer cfg env opts takes down) (tsClient ccfg cenv up))}
    {es' : List (ServerEvent TsServer.Input)} {u : Uuid} {c : Conn (tsClient ccfg cenv up)} (hi : InvWith (run es .new) es')
    (hf : Framed (run es .new)) (hs : Small (run es .new)) (ha : TsFaithful t (run es .new))
    (hc : (run es .new).find u = some c) {k o : Nat} {q : UInt32} {m : TsServer.Msg} (hd : .delivered (.call k o) q m ∈ c.client.2.past)
    {r : Flow.Request} {b : TsServer.Js} (hr : .created o (.request r) b ∈ c.client.2.past) {ref : Flow.Ref}
    {v : TsServer.Js} (hv : TsClient.Holds m ref v) (hw : AnswerOf r ref) (hcl : Clear cfg.workflow r) :
    TsServed es u (run es .new).server.2.past c.client.2.past k o r b ref v := by
  obtain ⟨x, task, newer, mid, older, served, h1, h2, h3, h4, h5, h6, h7⟩ := tsTs_told hi hf hs ha hc hd hr hv hw hcl
  obtain ⟨ts, y, h8, h9⟩ := tsServer_decided es (t := task) (u := u) (q := q) (o := .msg ref v) (by rw [h2]; simp)
  rcases h9 with ⟨resp, body, calls, rfl, h9⟩ | ⟨_, h9⟩
  · cases h9
    exact ⟨q, x, task, newer, mid, older, served, ts, calls, h1, h2, h3, h4, h5, h6, h7, h8⟩
  · cases h9

theorem hashRequest_name : "InternalServiceGroup.HashRequest".toList =
    "InternalServiceGroup".toList ++ '.' :: "HashRequest".toList := by decide

/-- Of two answers of the handshake, the one to the message with the smaller number comes first. -/
theorem shakes_order {u : Uuid} {past newer1 newer2 older1 older2 : List TsServer.Act} {q1 q2 : UInt32} {x1 x2 : TsServer.Act}
    {m1 m2 : TsServer.Msg} (hp : (tsHeard u past).Pairwise (fun a b => a.1 < b.1)) (hq : q1 < q2)
    (hx : ∀ m q, x1 ≠ .got u m q) (hx' : ∀ m q, x2 ≠ .got u m q)
    (e1 : past = newer1 ++ x1 :: .got u m1 q1 :: older1) (e2 : past = newer2 ++ x2 :: .got u m2 q2 :: older2) :
    ∃ mid, older2 = mid ++ x1 :: .got u m1 q1 :: older1 := by
  have hne : q1 ≠ q2 := by rintro rfl; exact absurd hq (by simp)
  rcases List.append_eq_append_iff.1 (e1.symm.trans e2) with ⟨l, rfl, k⟩ | ⟨l, rfl, k⟩
  · rcases l with _ | ⟨a, l⟩
    · cases k; exact absurd rfl hne
    · simp only [List.cons_append, List.cons.injEq] at k
      obtain ⟨rfl, k⟩ := k
      rcases l with _ | ⟨b, l⟩
      · cases k; exact absurd rfl (hx' _ _)
      · simp only [List.cons_append, List.cons.injEq] at k
        obtain ⟨rfl, rfl⟩ := k
        rw [e1, tsHeard_append] at hp
        have hp2 := (List.pairwise_append.1 hp).1
        have e3 : tsHeard u (x1 :: .got u m1 q1 :: (l ++ x2 :: .got u m2 q2 :: older2)) =
            tsHeard u (l ++ x2 :: .got u m2 q2 :: older2) ++ [(q1, m1)] ++ tsHeard u [x1] := by
          rw [show x1 :: .got u m1 q1 :: (l ++ x2 :: .got u m2 q2 :: older2) =
            [x1] ++ (.got u m1 q1 :: (l ++ x2 :: .got u m2 q2 :: older2)) from rfl, tsHeard_append]
          simp [tsHeard]
        rw [e3] at hp2
        have := (List.pairwise_append.1 (List.pairwise_append.1 hp2).1).2.2 (q2, m2) (mem_tsHeard.2 (by simp)) (q1, m1) (by simp)
        have h1 := UInt32.lt_iff_toNat_lt.1 this
        have h2 := UInt32.lt_iff_toNat_lt.1 hq
        dsimp only at h1
        omega
  · rcases l with _ | ⟨a, l⟩
    · cases k; exact absurd rfl hne
    · simp only [List.cons_append, List.cons.injEq] at k
      obtain ⟨rfl, k⟩ := k
      rcases l with _ | ⟨b, l⟩
      · cases k; exact absurd rfl (hx _ _)
      · simp only [List.cons_append, List.cons.injEq] at k
        obtain ⟨rfl, k⟩ := k
        exact ⟨l, k⟩

end Verif.Network
