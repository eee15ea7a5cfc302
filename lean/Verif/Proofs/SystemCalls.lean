import Verif.Proofs.SystemLink
set_option autoImplicit false
/-!
Every answer a client is handed was made by the server for what this client sent.
-/
namespace Verif.System

open Verif Verif.Spec

variable {P : Type} {w : Setup P}

/-- Who is handed `m` sent a message with this number, the server looked at it, and answered it. -/
def Linked (w : Setup P) (n : Net P) (u : Uuid) (c : Conn P) (who : Client.Who) (q : UInt32) (m : Client.In P) : Prop :=
  ∃ o x y, .sent who q o ∈ c.client.past ∧ Arrives w.up w.server.decoder q o x ∧
    Answered w u n.server.past q x y ∧ Arrives w.down w.client.decoder q y m

theorem looked_append (a b : List (Client.Act P)) : Client.looked (a ++ b) = Client.looked b ++ Client.looked a := by
  induction a with
  | nil => simp [Client.looked]
  | cons x a ih => cases x <;> simp [Client.looked, ih]

/-- The moment an answer is handed over. -/
theorem linked_at {n n' : Net P} {u : Uuid} {c c' : Conn P} (hj : J w.server w.env n.server)
    (hl : Links w n u c) (hl' : Links w n' u c') (hc : n.find u = some c)
    (hs : n'.server = n.server) (hf : Framed w n) (hf' : Framed w n') {a b b0 : List (Client.Act P)} {who : Client.Who}
    {q : UInt32} {m : Client.In P} (hq : q ≠ 0) (hp : c'.client.past = a ++ .delivered who q m :: b)
    (hb : b = b0 ++ c.client.past) : Linked w n' u c' who q m := by
  obtain ⟨is, his⟩ := hl'.client
  have hi := (Client.inv_run w.client is).1
  rw [← his] at hi
  have hlaw := hi.lawful
  have hhan := hi.handled
  rw [hp] at hlaw hhan
  have hlaw := hlaw.tail
  obtain ⟨st, hhan⟩ := hhan.tail
  generalize hh : Client.Act.delivered who q m :: b = h at *
  obtain ⟨op, o1, o2, o3, o4⟩ := sents_delivs (q := q) hlaw
  obtain rfl := o4 who m b hh.symm
  rw [List.append_nil] at o1
  have s1 := ((delivs_looked hhan).1).filter (fun x => decide (x.1 = q))
  have s2 := (looked_sub hl' hf').filter (fun x => decide (x.1 = q)) (fun y => decide (y.1 = q)) (by
    rintro a b ⟨e, _⟩; rw [e])
  rw [hp, looked_append, List.filter_append, hs] at s2
  have s2 := s2.prefix
  have s3 := answers_sub (w := w) (u := u) hq n.server.past.length n.server.past (Nat.le_refl _) [] rfl hj
  have s4 := (heard_sub hl hc hf).filter (fun x => decide (x.1 = q)) (fun y => decide (y.1 = q)) (by
    rintro a b ⟨e, _⟩; rw [e])
  have s5 : (sents h).filter (fun x => decide (x.1 = q)) = (sents c.client.past).filter (fun x => decide (x.1 = q)) ++
      (sents (Client.Act.delivered who q m :: b0)).filter (fun x => decide (x.1 = q)) := by
    rw [← hh, hb, ← List.cons_append, sents_append, List.filter_append]
  have l1 := s1.length_le
  have l2 := s2.length
  have l3 := s3.length
  have l4 := s4.length
  have l5 := congrArg List.length o1
  have l6 := congrArg List.length s5
  have dm : ((delivs h).map (fun x => (x.1, x.2.2))).filter (fun x => decide (x.1 = q)) =
      ((delivs h).filter (fun x => decide (x.1 = q))).map (fun x => (x.1, x.2.2)) := by
    rw [List.filter_map]; rfl
  have dl : (delivs h).filter (fun x => decide (x.1 = q)) = (delivs b).filter (fun x => decide (x.1 = q)) ++ [(q, who, m)] := by
    rw [← hh]; simp [delivs, List.filter_append]
  rw [dm] at l1 s1
  simp only [List.length_map, List.length_append] at l1 l5 l6
  have e1 := s1.eq_of_length (by simp only [List.length_map]; omega)
  rw [← e1, dl, List.map_append] at s2
  have p2 := s2.full (by rw [dl] at l1 l5; simp only [List.length_map, List.length_append] at *; omega)
  obtain ⟨S0, ⟨q', y⟩, f1, f2, f3⟩ := p2.last
  dsimp only at f2
  subst f2
  have p3 := s3.full (by omega)
  rw [f1] at p3
  obtain ⟨H0, ⟨qq, x⟩, g1, g2⟩ := p3.last
  have p4 := s4.full (by omega)
  rw [g1] at p4
  obtain ⟨T0, ⟨q1, who1, o⟩, t1, t2, t3⟩ := p4.last
  dsimp only at t2 t3
  have hm1 : (q1, who1, o) ∈ (sents c.client.past).filter (fun x => decide (x.1 = q')) := by
    rw [t1]; simp
  simp only [List.mem_filter, decide_eq_true_eq] at hm1
  obtain ⟨hm1, rfl⟩ := hm1
  have l7 : (sents (Client.Act.delivered who q1 m :: b0)).filter (fun x => decide (x.1 = q1)) = [] := by
    rw [← List.length_eq_zero_iff]; omega
  rw [l7, List.append_nil, t1] at s5
  rw [s5, dl, List.map_append, List.map_append] at o1
  have := (List.append_inj' o1 rfl).2
  simp only [List.map_cons, List.map_nil, List.cons.injEq, and_true] at this
  subst this
  refine ⟨o, x, y, ?_, t3, ?_, f3⟩
  · rw [hp, ← hh, hb]
    have := mem_sents.1 hm1
    simp [this]
  · rw [hs]; exact g2

/-! ### In every run -/

theorem Answered.mono {u : Uuid} {l past : List (Server.Act P)} {q : UInt32} {m : Server.In P} {o : Server.Out P}
    (h : Answered w u past q m o) : Answered w u (l ++ past) q m o := by
  obtain ⟨newer, h0, h1, h2⟩ := h
  exact ⟨l ++ newer, h0, by rw [h1, List.append_assoc], h2⟩

/-- Histories only grow. -/
structure Grows (n n' : Net P) : Prop where
  server : ∃ l, n'.server.past = l ++ n.server.past
  conn : ∀ u c, n.find u = some c → ∃ c', n'.find u = some c' ∧ ∃ l, c'.client.past = l ++ c.client.past

theorem Grows.refl (n : Net P) : Grows n n := ⟨⟨[], rfl⟩, fun _ c h => ⟨c, h, [], rfl⟩⟩

theorem Grows.framed {n n' : Net P} (h : Grows n n') (hf : Framed w n') : Framed w n := by
  obtain ⟨l, hl⟩ := h.server
  refine ⟨fun u q o hm => hf.down u q o (by rw [hl]; exact List.mem_append_right _ hm), fun u c hc who q o hm => ?_⟩
  obtain ⟨c', h1, l, h2⟩ := h.conn u c hc
  exact hf.up u c' h1 who q o (by rw [h2]; exact List.mem_append_right _ hm)

theorem grows_serve (ts : UInt64) (i : Server.Input P) (n : Net P) : Grows n (n.serve w ts i) := by
  refine ⟨serverStep_grows (w := w) n.exit i n.server, fun u c hc => ?_⟩
  rw [find_serve, hc]
  exact ⟨_, rfl, [], rfl⟩

theorem Grows.trans {a b c : Net P} (h : Grows a b) (k : Grows b c) : Grows a c := by
  obtain ⟨l1, h1⟩ := h.server
  obtain ⟨l2, h2⟩ := k.server
  refine ⟨⟨l2 ++ l1, by rw [h2, h1, List.append_assoc]⟩, fun u x hx => ?_⟩
  obtain ⟨y, e1, m1, e2⟩ := h.conn u x hx
  obtain ⟨z, e3, m2, e4⟩ := k.conn u y e1
  exact ⟨z, e3, m2 ++ m1, by rw [e4, e2, List.append_assoc]⟩

theorem grows_set {n : Net P} {u : Uuid} {c d : Conn P} (hd : n.find u = some d)
    (h : ∃ l, c.client.past = l ++ d.client.past) : Grows n (n.set u c) := by
  refine ⟨⟨[], rfl⟩, fun v x hx => ?_⟩
  by_cases e : v = u
  · subst e
    rw [hd] at hx
    obtain rfl := Option.some.inj hx
    exact ⟨c, Net.find_set_self hd, h⟩
  · exact ⟨x, by rw [Net.find_set_other e]; exact hx, [], rfl⟩

theorem goOn_suffix (ts : UInt64) (i : Client.Input P) (c : Conn P) :
    ∃ l, (c.goOn w ts i).client.past = l ++ c.client.past := Client.step_suffix w.client c.client i

/-- What one event does: either the clients stay as they are, except that one may be new, or the server
does and one client goes on. -/
theorem step_cases (n : Net P) (e : UInt64 × Event P) :
    (∀ u c', (step w n e).find u = some c' →
      (∃ c, n.find u = some c ∧ c'.client.past = c.client.past) ∨ c'.client.past = []) ∨
    ∃ u c c', n.find u = some c ∧ (step w n e).find u = some c' ∧ (step w n e).server = n.server ∧
      (∃ l, c'.client.past = l ++ c.client.past) ∧ ∀ v, v ≠ u → (step w n e).find v = n.find v := by
  have same : ∀ {m : Net P}, m = n → (∀ u c', m.find u = some c' →
      (∃ c, n.find u = some c ∧ c'.client.past = c.client.past) ∨ c'.client.past = []) := by
    rintro m rfl u c' h
    exact .inl ⟨c', h, rfl⟩
  obtain ⟨ts, e⟩ := e
  have hserve : ∀ (m : Net P) i, (∀ u c, m.find u = some c →
      (∃ c0, n.find u = some c0 ∧ c.client.past = c0.client.past) ∨ c.client.past = []) → (∀ u c', (m.serve w ts i).find u = some c' →
      (∃ c, n.find u = some c ∧ c'.client.past = c.client.past) ∨ c'.client.past = []) := by
    intro m i hm u c' h
    rw [find_serve, Option.map_eq_some_iff] at h
    obtain ⟨c, h1, rfl⟩ := h
    exact hm u c h1
  cases e with
  | opened u =>
    left
    simp only [step]
    split
    · rename_i hcond
      refine hserve _ _ (fun v c hv => ?_)
      rw [find_snoc] at hv
      split at hv
      · rename_i e; subst e
        split at hv
        · cases hv; exact .inr rfl
        · cases hv; exact .inl ⟨c, by assumption, rfl⟩
      · exact .inl ⟨c, hv, rfl⟩
    · exact same rfl
  | lost u => exact .inl (hserve n _ (same rfl))
  | toServer u count =>
    left
    simp only [step]
    split
    · rename_i c hc
      refine hserve _ _ (fun v d hd => ?_)
      by_cases e : v = u
      · subst e
        rw [Net.find_set_self hc] at hd
        obtain rfl := Option.some.inj hd
        exact .inl ⟨c, hc, rfl⟩
      · rw [Net.find_set_other e] at hd
        exact .inl ⟨d, hd, rfl⟩
    · exact same rfl
  | toClient u count =>
    simp only [step]
    split
    · rename_i c hc
      split
      · exact .inr ⟨u, c, _, hc, Net.find_set_self hc, rfl,
          goOn_suffix ts _ { c with down := c.down.drop count }, fun v hv => Net.find_set_other hv⟩
      · exact .inl (same rfl)
    · exact .inl (same rfl)
  | server i =>
    left
    simp only [step]
    split
    · exact hserve n _ (same rfl)
    · exact same rfl
  | client u i =>
    simp only [step]
    split
    · rename_i c hc
      split
      · exact .inr ⟨u, c, _, hc, Net.find_set_self hc, rfl, goOn_suffix ts i c,
          fun v hv => Net.find_set_other hv⟩
      · exact .inl (same rfl)
    · exact .inl (same rfl)

theorem grows_step (n : Net P) (e : UInt64 × Event P) : Grows n (step w n e) := by
  obtain ⟨ts, e⟩ := e
  cases e with
  | opened u =>
    simp only [step]
    split
    · rename_i hcond
      simp only [Bool.and_eq_true, Option.isNone_iff_eq_none] at hcond
      refine Grows.trans ?_ (grows_serve ts _ _)
      refine ⟨⟨[], rfl⟩, fun v c hc => ⟨c, ?_, [], rfl⟩⟩
      rw [find_snoc, if_neg]
      · exact hc
      · rintro rfl; rw [hcond.1] at hc; cases hc
    · exact .refl n
  | lost u => exact grows_serve ts _ n
  | toServer u count =>
    simp only [step]
    split
    · rename_i c hc
      exact (grows_set (c := { c with up := c.up.drop count }) hc ⟨[], rfl⟩).trans (grows_serve ts _ _)
    · exact .refl n
  | toClient u count =>
    simp only [step]
    split
    · rename_i c hc
      split
      · exact grows_set hc (goOn_suffix ts _ { c with down := c.down.drop count })
      · exact .refl n
    · exact .refl n
  | server i =>
    simp only [step]
    split
    · exact grows_serve ts i n
    · exact .refl n
  | client u i =>
    simp only [step]
    split
    · rename_i c hc
      split
      · exact grows_set hc (goOn_suffix ts i c)
      · exact .refl n
    · exact .refl n

/-- Every answer handed over is linked. -/
def AllLinked (w : Setup P) (n : Net P) : Prop :=
  ∀ u c, n.find u = some c → ∀ who q m, q ≠ 0 → .delivered who q m ∈ c.client.past → Linked w n u c who q m

theorem Linked.grow {n n' : Net P} {u : Uuid} {c c' : Conn P} {who : Client.Who} {q : UInt32} {m : Client.In P}
    (h : Linked w n u c who q m) (hs : ∃ l, n'.server.past = l ++ n.server.past)
    (hc : ∃ l, c'.client.past = l ++ c.client.past) : Linked w n' u c' who q m := by
  obtain ⟨o, x, y, h1, h2, h3, h4⟩ := h
  obtain ⟨l, hl⟩ := hs
  obtain ⟨k, hk⟩ := hc
  exact ⟨o, x, y, by rw [hk]; exact List.mem_append_right _ h1, h2, by rw [hl]; exact h3.mono, h4⟩

theorem linked_step {n : Net P} (hi : Inv w n) (e : UInt64 × Event P) (hf : Framed w (step w n e))
    (h : AllLinked w n) : AllLinked w (step w n e) := by
  have hg := grows_step (w := w) n e
  have hi' := inv_step hi e
  rcases step_cases (w := w) n e with k | ⟨v, d, d', k1, k2, k3, ⟨l, k4⟩, k5⟩
  · intro u c' hc' who q m hq hm
    rcases k u c' hc' with ⟨c, h1, h2⟩ | h1
    · rw [h2] at hm
      exact (h u c h1 who q m hq hm).grow hg.server ⟨[], h2⟩
    · rw [h1] at hm; cases hm
  · intro u c' hc' who q m hq hm
    by_cases e : u = v
    · subst e
      rw [k2] at hc'
      obtain rfl := Option.some.inj hc'
      rw [k4] at hm
      rcases List.mem_append.1 hm with hm | hm
      · obtain ⟨a, b, rfl⟩ := List.append_of_mem hm
        exact linked_at hi.just (hi.conn u d k1) (hi'.conn u d' k2) k1 k3 (hg.framed hf) hf hq
          (a := a) (b := b ++ d.client.past) (b0 := b) (by rw [k4]; simp) rfl
      · exact (h u d k1 who q m hq hm).grow hg.server ⟨l, k4⟩
    · rw [k5 u e] at hc'
      exact (h u c' hc' who q m hq hm).grow hg.server ⟨[], rfl⟩

theorem run_snoc (es : List (UInt64 × Event P)) (e : UInt64 × Event P) (n : Net P) :
    run w (es ++ [e]) n = step w (run w es n) e := by
  simp [run, List.foldl_append]

theorem linked_run (es : List (UInt64 × Event P)) (hf : Framed w (run w es .new)) :
    AllLinked w (run w es .new) := by
  have key : ∀ k (es : List (UInt64 × Event P)), es.length = k → Framed w (run w es .new) →
      AllLinked w (run w es .new) := by
    intro k
    induction k with
    | zero =>
      intro es hk _
      obtain rfl := List.length_eq_zero_iff.1 hk
      intro u c hc
      cases hc
    | succ k ih =>
      intro es hk hf
      have hne : es ≠ [] := by rintro rfl; simp at hk
      rw [← List.dropLast_concat_getLast hne] at hf ⊢
      rw [run_snoc] at hf ⊢
      have hg := grows_step (w := w) (run w es.dropLast .new) (es.getLast hne)
      exact linked_step (inv_run _) _ hf (ih _ (by simp [hk]) (hg.framed hf))
  exact key _ es rfl hf

/-! ### Broadcasts -/

/-- Broadcasts are raised in the order in which they are looked at. -/
theorem casts_looked {B : List Client.Ref} {h : List (Client.Act P)} {st : Client.Status P} (k : Client.Handled B h st) :
    Sub (fun (x : UInt32 × Client.In P) (y : Client.Ref × P) => x.2 = .msg y.1 y.2) (Client.looked h) (casts h) ∧
    ∀ q m, (st = .open_ q m ∨ st = .refused q m) → ∃ L, Client.looked h = L ++ [(q, m)] ∧
      Sub (fun (x : UInt32 × Client.In P) (y : Client.Ref × P) => x.2 = .msg y.1 y.2) L (casts h) := by
  induction k with
  | nil => exact ⟨.nil, fun _ _ h => by rcases h with h | h <;> cases h⟩
  | other h hn ih =>
    rename_i a h st
    cases a with
    | got => exact absurd trivial hn
    | emitted e => cases e <;> first | exact ih | exact absurd trivial hn
    | _ => exact ih
  | got q m h ih =>
    refine ⟨?_, fun q' m' e => ?_⟩
    · simp only [casts, Client.looked]
      simpa using ih.1.append (Sub.empty [(q, m)])
    · rcases e with e | e
      · cases e; exact ⟨_, rfl, ih.1⟩
      · cases e
  | delivered who h hm ih => exact ⟨ih.1, fun _ _ h => by rcases h with h | h <;> cases h⟩
  | started n h ih => exact ⟨ih.1, fun _ _ h => by rcases h with h | h <;> cases h⟩
  | failed h ih =>
    refine ⟨ih.1, fun _ _ e => ?_⟩
    rcases e with e | e
    · cases e
    · cases e; exact ih.2 _ _ (.inl rfl)
  | broadcast h hs hb ih =>
    refine ⟨?_, fun _ _ h => by rcases h with h | h <;> cases h⟩
    obtain ⟨L, h1, h2⟩ := ih.2 _ _ hs
    simp only [casts, Client.looked, h1]
    exact h2.append (.keep rfl .nil)
  | unknown h hs hn hb ih => exact ⟨ih.1, fun _ _ h => by rcases h with h | h <;> cases h⟩

/-- Two steps at once. -/
theorem Sub.trans {α β γ : Type} {R : α → β → Prop} {S : β → γ → Prop} {T : α → γ → Prop} {as : List α} {bs : List β}
    {cs : List γ} (h : Sub R as bs) (k : Sub S bs cs)
    (ht : ∀ a b c, a ∈ as → R a b → S b c → T a c) : Sub T as cs := by
  induction h generalizing cs with
  | nil => cases k; exact .nil
  | skip _ ih => exact .skip (ih k (fun a b c ha => ht a b c (List.mem_cons_of_mem _ ha)))
  | keep r _ ih =>
    cases k with
    | skip k => exact .skip (ih k (fun a b c ha => ht a b c (List.mem_cons_of_mem _ ha)))
    | keep s k => exact .keep (ht _ _ _ List.mem_cons_self r s) (ih k (fun a b c ha => ht a b c (List.mem_cons_of_mem _ ha)))

theorem lawful_of {n : Net P} {u : Uuid} {c : Conn P} (h : Links w n u c) : Client.Lawful w.client c.client.past := by
  obtain ⟨is, his⟩ := h.client
  have hi := (Client.inv_run w.client is).1
  rw [← his] at hi
  exact hi.lawful

theorem handled_of {n : Net P} {u : Uuid} {c : Conn P} (h : Links w n u c) :
    ∃ st, Client.Handled w.client.broadcasts c.client.past st := by
  obtain ⟨is, his⟩ := h.client
  have hi := (Client.inv_run w.client is).1
  rw [← his] at hi
  exact ⟨_, hi.handled⟩

theorem delivered_looked {n : Net P} {u : Uuid} {c : Conn P} (h : Links w n u c) {who : Client.Who} {q : UInt32}
    {m : Client.In P} (hd : .delivered who q m ∈ c.client.past) : (q, m) ∈ Client.looked c.client.past := by
  obtain ⟨st, hh⟩ := handled_of h
  exact (delivs_looked hh).1.subset (List.mem_map.2 ⟨(q, who, m), mem_delivs.2 hd, rfl⟩)

theorem justified_mem {cfg : Server.Cfg P} {env : Server.Env P} {h : List (Server.Act P)} (hj : Justified cfg env h)
    {u : Uuid} {q : UInt32} {o : Server.Out P} {ok : Bool} (hm : .send u q o ok ∈ h) :
    (q = 0 ∧ (o = .confirmation ∨ ∃ ref p, o = .msg ref p)) ∨
      ∃ newer older m, h = newer ++ .send u q o ok :: older ∧ Answer cfg env u q older m o := by
  induction h with
  | nil => cases hm
  | cons a h ih =>
    rcases List.mem_cons.1 hm with rfl | hm
    · rcases hj.1 with k | ⟨m, k⟩
      · exact .inl k
      · exact .inr ⟨[], h, m, rfl, k⟩
    · have hj' : Justified cfg env h := by cases a <;> first | exact hj | exact hj.2
      rcases ih hj' hm with k | ⟨newer, older, m, k1, k2⟩
      · exact .inl k
      · exact .inr ⟨a :: newer, older, m, by rw [k1]; rfl, k2⟩

/-- The id a client is told is its own. -/
theorem selfKey_own {n : Net P} {name : Uuid → List Char} {hashes : List Char × List Char} (hi : Inv w n) (hf : Framed w n)
    (hfa : Faithful w name hashes n)
    {u : Uuid} {c : Conn P} (hc : n.find u = some c) {who : Client.Who} {q : UInt32} {x : List Char}
    (hd : .delivered who q (.selfKey x) ∈ c.client.past) :
    x = name u ∧ ∃ newer older k, n.server.past = newer ++ .send u q (.selfKey u) true ::
      .got u (.msg w.server.selfKey k) q :: older := by
  have hl := hi.conn u c hc
  obtain ⟨⟨q', o⟩, h1, h2, ts, h3⟩ := (looked_sub hl hf).mem (delivered_looked hl hd)
  dsimp only at h2 h3
  subst h2
  have hs := mem_sends.1 h1
  have hm := hfa.answer u q' o hs ts _ h3
  cases o with
  | selfKey v =>
    rcases justified_mem hi.just hs with ⟨_, k | ⟨_, _, k⟩⟩ | ⟨newer, older, m, k1, k2⟩
    · cases k
    · cases k
    · cases k2 with
      | selfKey =>
        cases (show _ = _ from hm)
        exact ⟨rfl, newer, _, _, k1⟩
      | request _ _ _ hd => cases hd
  | _ => cases (show _ = _ from hm)

/-! ### Places -/

theorem Sub.split {α β : Type} {R : α → β → Prop} {as : List α} {bs cs : List β} {b : β} (h : Sub R as (bs ++ b :: cs)) :
    ∃ as1 a as2, as = as1 ++ a :: as2 ∧ R a b ∧ Sub R as1 bs ∧ Sub R as2 cs := by
  generalize e : bs ++ b :: cs = ds at h
  induction h generalizing bs with
  | nil => simp at e
  | skip _ ih =>
    obtain ⟨as1, a, as2, rfl, h1, h2, h3⟩ := ih e
    exact ⟨_ :: as1, a, as2, rfl, h1, .skip h2, h3⟩
  | keep r h ih =>
    cases bs with
    | nil =>
      cases e
      exact ⟨[], _, _, rfl, r, .nil, h⟩
    | cons b' bs =>
      cases e
      obtain ⟨as1, a, as2, rfl, h1, h2, h3⟩ := ih rfl
      exact ⟨_ :: as1, a, as2, rfl, h1, .keep r h2, h3⟩

theorem sends_split {u : Uuid} {h : List (Server.Act P)} {l1 l2 : List (UInt32 × Server.Out P)} {q : UInt32}
    {o : Server.Out P} (e : sends u h = l1 ++ (q, o) :: l2) :
    ∃ newer older, h = newer ++ .send u q o true :: older ∧ sends u older = l1 := by
  induction h generalizing l2 with
  | nil => simp [sends] at e
  | cons x h ih =>
    have skip : sends u (x :: h) = sends u h → ∃ newer older, x :: h = newer ++ .send u q o true :: older ∧
        sends u older = l1 := by
      intro k
      rw [k] at e
      obtain ⟨newer, older, h1, h2⟩ := ih e
      exact ⟨x :: newer, older, by rw [h1]; rfl, h2⟩
    cases x with
    | send v q' o' ok =>
      cases ok with
      | false => exact skip rfl
      | true =>
        by_cases hv : v = u
        · subst hv
          simp only [sends, if_true] at e
          rcases List.eq_nil_or_concat l2 with rfl | ⟨l2, y, rfl⟩
          · have := List.append_inj' e rfl
            cases this.2
            exact ⟨[], h, rfl, this.1⟩
          · rw [List.concat_eq_append, ← List.cons_append, ← List.append_assoc] at e
            have := List.append_inj' e rfl
            obtain ⟨newer, older, h1, h2⟩ := ih this.1
            exact ⟨_ :: newer, older, by rw [h1]; rfl, h2⟩
        · exact skip (by simp [sends, hv])
    | _ => exact skip rfl

theorem justified_at {cfg : Server.Cfg P} {env : Server.Env P} {newer older : List (Server.Act P)}
    {u : Uuid} {q : UInt32} {o : Server.Out P} {ok : Bool}
    (hj : Justified cfg env (newer ++ .send u q o ok :: older)) :
    (q = 0 ∧ (o = .confirmation ∨ ∃ ref p, o = .msg ref p)) ∨ ∃ m, Answer cfg env u q older m o := by
  induction newer with
  | nil => exact hj.1
  | cons a newer ih =>
    cases a with
    | send => exact ih hj.2
    | _ => exact ih hj

theorem Answer.got {cfg : Server.Cfg P} {env : Server.Env P} {u : Uuid} {q : UInt32} {h : List (Server.Act P)}
    {m : Server.In P} {o : Server.Out P} (k : Answer cfg env u q h m o) : .got u m q ∈ h := by
  cases k <;> simp

theorem mem_heard {u : Uuid} {h : List (Server.Act P)} {q : UInt32} {m : Server.In P} :
    (q, m) ∈ heard u h ↔ .got u m q ∈ h := by
  induction h with
  | nil => simp [heard]
  | cons x h ih =>
    cases x with
    | got v m' q' =>
      by_cases hv : v = u
      · subst hv
        simp [heard, ih]
        constructor
        · rintro (h | ⟨rfl, rfl⟩)
          · exact .inr h
          · exact .inl ⟨rfl, rfl⟩
        · rintro (⟨rfl, rfl⟩ | h)
          · exact .inr ⟨rfl, rfl⟩
          · exact .inl h
      · simp [heard, hv, ih, Ne.symm hv]
    | _ => simp [heard, ih]

/-- The message a client sent for what the server looked at. -/
theorem got_sent {n : Net P} {name : Uuid → List Char} {hashes : List Char × List Char} (hi : Inv w n) (hf : Framed w n)
    (hfa : Faithful w name hashes n) {u : Uuid} {c : Conn P} (hc : n.find u = some c) {q : UInt32} {m : Server.In P}
    (h : .got u m q ∈ n.server.past) : ∃ who o, .sent who q o ∈ c.client.past ∧ SameCall w hashes o m := by
  obtain ⟨⟨q', who, o⟩, h1, h2, ts, h3⟩ := (heard_sub (hi.conn u c hc) hc hf).mem (mem_heard.2 h)
  dsimp only at h2 h3
  subst h2
  have hs := mem_sents.1 h1
  exact ⟨who, o, hs, hfa.call u c hc who q' o hs ts _ h3⟩

/-- All decodable messages: nothing is skipped. -/
theorem pairs_of_readable {O T X : Type} {pack : UInt64 → UInt32 → O → Bytes} {d : Rust.Decoder T} {num : X → UInt32}
    {out : X → O} {xs : List X} {fs : List Frame}
    (h : Pairs (fun x f => Packed pack (num x) (out x) f) xs fs)
    (hr : ∀ x ∈ xs, ∀ ts, ∃ m, Decodes d (pack ts (num x) (out x)) m) :
    Pairs (fun x (y : UInt32 × T) => num x = y.1 ∧ Arrives pack d (num x) (out x) y.2) xs
      ((fs.filterMap (Spec.delivered d)).map tagged) := by
  refine (sub_of_pairs h).full ?_
  induction h with
  | nil => simp
  | cons r _ ih =>
    rename_i x f xs fs _
    obtain ⟨h1, h2, ts, h3⟩ := r
    obtain ⟨m, g, y, k1, k2, k3, _⟩ := hr x List.mem_cons_self ts
    obtain ⟨rfl, _⟩ := frame_inj (a := []) (b := []) h1 k1 (by rw [h3, k2])
    have := ih (fun x hx => hr x (List.mem_cons_of_mem _ hx))
    rw [List.filterMap_cons, k3]
    simpa using this

theorem Pairs.take {α β : Type} {R : α → β → Prop} {as : List α} {bs cs : List β} (h : Pairs R as (bs ++ cs)) :
    Pairs R (as.take bs.length) bs := by
  induction bs generalizing as with
  | nil => simpa using Pairs.nil
  | cons b bs ih =>
    cases h with
    | cons r h => exact .cons r (ih h)

theorem Pairs.mono {α β : Type} {R R' : α → β → Prop} {as : List α} {bs : List β} (h : Pairs R as bs)
    (hr : ∀ a b, a ∈ as → R a b → R' a b) : Pairs R' as bs := by
  induction h with
  | nil => exact .nil
  | cons r _ ih => exact .cons (hr _ _ List.mem_cons_self r) (ih (fun a b ha => hr a b (List.mem_cons_of_mem _ ha)))

end Verif.System
