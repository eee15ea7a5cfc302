import Verif.Spec.Network
import Verif.Proofs.SystemLink
set_option autoImplicit false
/-!
What holds in every run of clients and a server of any kind: the bytes that arrived and those under way
are the messages that were sent.
-/
namespace Verif.Network

open Verif Verif.Spec

variable {S : ServerProg} {C : ClientProg}

/-! ### Programs alone -/

/-- The server after these events. -/
def serverRun (S : ServerProg) (es : List (ServerEvent S.Own)) : S.State := es.foldl (fun s e => S.step e s) S.new

/-- The client after these events. -/
def clientRun (C : ClientProg) (is : List (ClientEvent C.Own)) : C.State := is.foldl (fun s e => C.step e s) C.new

theorem serverRun_snoc (es : List (ServerEvent S.Own)) (e : ServerEvent S.Own) :
    serverRun S (es ++ [e]) = S.step e (serverRun S es) := by
  simp [serverRun, List.foldl_append]

theorem clientRun_snoc (is : List (ClientEvent C.Own)) (i : ClientEvent C.Own) :
    clientRun C (is ++ [i]) = C.step i (clientRun C is) := by
  simp [clientRun, List.foldl_append]

/-- The data of `u`. -/
def dataOf {Own : Type} (u : Uuid) : List (ServerEvent Own) → Bytes
  | [] => []
  | .data v b :: es => if v = u then b ++ dataOf u es else dataOf u es
  | _ :: es => dataOf u es

/-- The data of a client. -/
def fedWith {Own : Type} : List (ClientEvent Own) → Bytes
  | [] => []
  | .data b :: is => b ++ fedWith is
  | _ :: is => fedWith is

theorem dataOf_append {Own : Type} (u : Uuid) (a b : List (ServerEvent Own)) : dataOf u (a ++ b) = dataOf u a ++ dataOf u b := by
  induction a with
  | nil => rfl
  | cons x a ih =>
    cases x with
    | data v c =>
      simp only [List.cons_append, dataOf, ih]
      split <;> simp
    | _ => simpa [dataOf] using ih

theorem fedWith_append {Own : Type} (a b : List (ClientEvent Own)) : fedWith (a ++ b) = fedWith a ++ fedWith b := by
  induction a with
  | nil => rfl
  | cons x a ih => cases x <;> simp [fedWith, ih]

/-- The event is about the beginning or the data of `u`. -/
def Touches {Own : Type} (u : Uuid) (e : ServerEvent Own) : Prop := e = .opened u ∨ ∃ b, e = .data u b

/-- The connection of `u` begins once, and nothing of it is there before. -/
def Once {Own : Type} (u : Uuid) (es : List (ServerEvent Own)) : Prop :=
  ∃ a b, es = a ++ .opened u :: b ∧ (∀ e ∈ a, ¬ Touches u e) ∧ .opened u ∉ b

theorem dataOf_untouched {Own : Type} {u : Uuid} {es : List (ServerEvent Own)} (h : ∀ e ∈ es, ¬ Touches u e) : dataOf u es = [] := by
  induction es with
  | nil => rfl
  | cons x es ih =>
    have ih := ih (fun e he => h e (List.mem_cons_of_mem _ he))
    cases x with
    | data v b =>
      rw [dataOf, if_neg, ih]
      rintro rfl
      exact h _ List.mem_cons_self (.inr ⟨b, rfl⟩)
    | _ => exact ih

theorem Once.snoc {Own : Type} {u : Uuid} {es : List (ServerEvent Own)} (h : Once u es) {e : ServerEvent Own} (he : e ≠ .opened u) :
    Once u (es ++ [e]) := by
  obtain ⟨a, b, h1, h2, h3⟩ := h
  refine ⟨a, b ++ [e], by rw [h1]; simp, h2, ?_⟩
  simp only [List.mem_append, List.mem_singleton]
  rintro (k | k)
  · exact h3 k
  · exact he k.symm

theorem Once.cases {Own : Type} {u : Uuid} {es : List (ServerEvent Own)} {e : ServerEvent Own} (h : Once u (es ++ [e])) :
    (e = .opened u ∧ ∀ x ∈ es, ¬ Touches u x) ∨ (e ≠ .opened u ∧ Once u es) := by
  obtain ⟨a, b, h1, h2, h3⟩ := h
  rcases List.eq_nil_or_concat b with rfl | ⟨b', x, rfl⟩
  · obtain ⟨rfl, h4⟩ := List.append_inj' h1 rfl
    exact .inl ⟨(List.cons.inj h4).1, h2⟩
  · rw [List.concat_eq_append] at h1 h3
    rw [show a ++ .opened u :: (b' ++ [x]) = (a ++ .opened u :: b') ++ [x] by simp] at h1
    obtain ⟨rfl, h4⟩ := List.append_inj' h1 rfl
    obtain rfl := (List.cons.inj h4).1
    refine .inr ⟨fun k => h3 (by simp [k]), a, b', rfl, h2, fun k => h3 (List.mem_append_left _ k)⟩

/-- The lists of sent messages only grow. -/
structure Growing (S : ServerProg) (C : ClientProg) : Prop where
  server : ∀ e s, ∃ l, S.sent (S.step e s) = S.sent s ++ l
  client : ∀ e s, ∃ l, C.sent (C.step e s) = C.sent s ++ l
  empty : C.sent C.new = []

/-! ### Messages -/

theorem sendsTo_append {Out : Type} (u : Uuid) (a b : List (Uuid × UInt32 × Out)) :
    sendsTo u (a ++ b) = sendsTo u a ++ sendsTo u b := by
  induction a with
  | nil => rfl
  | cons x a ih =>
    simp only [List.cons_append, sendsTo, ih]
    split <;> simp

theorem mem_sendsTo {Out : Type} {u : Uuid} {l : List (Uuid × UInt32 × Out)} {q : UInt32} {o : Out} :
    (q, o) ∈ sendsTo u l ↔ (u, q, o) ∈ l := by
  induction l with
  | nil => simp [sendsTo]
  | cons x l ih =>
    obtain ⟨v, y⟩ := x
    simp only [sendsTo]
    split
    · rename_i e; subst e; simp [ih]
    · rename_i e
      simp only [ih, List.mem_cons, Prod.mk.injEq]
      constructor
      · exact .inr
      · rintro (⟨k, _⟩ | k)
        · exact absurd k.symm e
        · exact k

/-- The messages are these bytes, each packed at some time. -/
def Flows {Out : Type} (pack : UInt64 → UInt32 → Out → Bytes) (sent : List (UInt32 × Out)) (bytes : Bytes) : Prop :=
  ∃ L : List (UInt64 × UInt32 × Out), L.map Prod.snd = sent ∧ bytes = L.flatMap (fun x => pack x.1 x.2.1 x.2.2)

theorem Flows.more {Out : Type} {pack : UInt64 → UInt32 → Out → Bytes} {sent : List (UInt32 × Out)} {bytes : Bytes}
    (h : Flows pack sent bytes) (ts : UInt64) (l : List (UInt32 × Out)) :
    Flows pack (sent ++ l) (bytes ++ packAll pack ts l) := by
  obtain ⟨L, h1, h2⟩ := h
  refine ⟨L ++ l.map (fun x => (ts, x)), ?_, ?_⟩
  · rw [List.map_append, h1, System.map_const_snd]
  · rw [h2, packAll, List.flatMap_append, List.flatMap_map]

/-! ### The invariant -/

structure Links (n : Net S C) (u : Uuid) (c : Conn C) : Prop where
  client : ∃ is, c.client = clientRun C is ∧ fedWith is = c.gotDown
  down : Flows S.pack (sendsTo u (S.sent n.server)) (c.gotDown ++ c.down)
  up : Flows C.pack (C.sent c.client) (c.gotUp ++ c.up)

structure InvWith (n : Net S C) (es : List (ServerEvent S.Own)) : Prop where
  server : n.server = serverRun S es
  none : ∀ u, n.find u = none → ∀ e ∈ es, ¬ Touches u e
  once : ∀ u c, n.find u = some c → Once u es ∧ dataOf u es = c.gotUp
  links : ∀ u c, n.find u = some c → Links n u c

theorem find_set_self {n : Net S C} {u : Uuid} {c d : Conn C} (h : n.find u = some d) : (n.set u c).find u = some c := by
  unfold Net.find Net.set at *
  dsimp only
  revert h
  generalize n.conns = l0
  intro h
  induction l0 with
  | nil => cases h
  | cons x l ih =>
    obtain ⟨v, y⟩ := x
    rw [List.map_cons]
    by_cases e : v = u
    · subst e; simp
    · have : (u == v) = false := by simpa using fun k => e k.symm
      rw [List.lookup_cons, this] at h
      rw [if_neg e, List.lookup_cons, this]
      exact ih h

theorem find_set_other {n : Net S C} {u v : Uuid} {c : Conn C} (hv : v ≠ u) : (n.set u c).find v = n.find v := by
  unfold Net.find Net.set
  dsimp only
  induction n.conns with
  | nil => rfl
  | cons x l ih =>
    obtain ⟨t, y⟩ := x
    rw [List.map_cons]
    by_cases e : t = u
    · subst e
      have : (v == t) = false := by simpa using hv
      rw [if_pos rfl, List.lookup_cons, List.lookup_cons, this]
      exact ih
    · rw [if_neg e, List.lookup_cons, List.lookup_cons]
      split
      · rfl
      · exact ih

theorem find_serve (ts : UInt64) (e : ServerEvent S.Own) (n : Net S C) (u : Uuid) :
    (n.serve ts e).find u = (n.find u).map (fun c => { c with
      down := c.down ++ packAll S.pack ts (sendsTo u ((S.sent (S.step e n.server)).drop (S.sent n.server).length)) }) := by
  unfold Net.find Net.serve
  dsimp only
  rw [System.lookup_map_snd n.conns (fun v (c : Conn C) => { c with
      down := c.down ++ packAll S.pack ts (sendsTo v ((S.sent (S.step e n.server)).drop (S.sent n.server).length)) }) u]

theorem find_snoc {n : Net S C} {u v : Uuid} {c : Conn C} (h : n.find u = none) :
    ({ n with conns := n.conns ++ [(u, c)] } : Net S C).find v = if v = u then some c else n.find v := by
  unfold Net.find at *
  dsimp only
  rw [List.lookup_append]
  by_cases e : v = u
  · subst e
    rw [if_pos rfl, h]
    simp
  · rw [if_neg e]
    have : (v == u) = false := by simpa using e
    rw [List.lookup_cons, this]
    cases n.conns.lookup v <;> rfl

/-- The server gets an event. -/
theorem Links.serve (g : Growing S C) {n : Net S C} {u : Uuid} {c : Conn C} (h : Links n u c) (ts : UInt64)
    (e : ServerEvent S.Own) : Links (n.serve ts e) u { c with
      down := c.down ++ packAll S.pack ts (sendsTo u ((S.sent (S.step e n.server)).drop (S.sent n.server).length)) } := by
  refine ⟨h.client, ?_, h.up⟩
  obtain ⟨l, hl⟩ := g.server e n.server
  show Flows S.pack (sendsTo u (S.sent (S.step e n.server))) _
  rw [hl, List.drop_left, sendsTo_append]
  have := h.down.more ts (sendsTo u l)
  rw [List.append_assoc] at this
  exact this

/-- An event of the server that does not touch any connection but, perhaps, `t`. -/
theorem InvWith.serve (g : Growing S C) {n : Net S C} {es : List (ServerEvent S.Own)} (h : InvWith n es) (ts : UInt64)
    (e : ServerEvent S.Own) (he : ∀ u, ¬ Touches u e) : InvWith (n.serve ts e) (es ++ [e]) := by
  refine ⟨?_, fun u hu x hx => ?_, fun u c hc => ?_, fun u c hc => ?_⟩
  · rw [serverRun_snoc, ← h.server]; rfl
  · rw [find_serve, Option.map_eq_none_iff] at hu
    rcases List.mem_append.1 hx with hx | hx
    · exact h.none u hu x hx
    · rw [List.mem_singleton.1 hx]; exact he u
  · rw [find_serve, Option.map_eq_some_iff] at hc
    obtain ⟨c0, k1, rfl⟩ := hc
    obtain ⟨k2, k3⟩ := h.once u c0 k1
    refine ⟨k2.snoc (fun k => he u (.inl k)), ?_⟩
    rw [dataOf_append, k3, dataOf_untouched (es := [e])]
    · simp
    · intro x hx
      rw [List.mem_singleton.1 hx]; exact he u
  · rw [find_serve, Option.map_eq_some_iff] at hc
    obtain ⟨c0, k1, rfl⟩ := hc
    exact (h.links u c0 k1).serve g ts e

/-- A client gets an event. -/
theorem Links.goOn (g : Growing S C) {n : Net S C} {u : Uuid} {c : Conn C} (h : Links n u c) (ts : UInt64)
    (e : ClientEvent C.Own) {c0 : Conn C} (h1 : c0.client = c.client) (h2 : c0.up = c.up) (h3 : c0.gotUp = c.gotUp)
    (h4 : c0.gotDown ++ c0.down = c.gotDown ++ c.down) (h5 : c0.gotDown = c.gotDown ++ fedWith [e]) :
    Links n u (c0.goOn ts e) := by
  obtain ⟨is, k1, k2⟩ := h.client
  obtain ⟨l, hl⟩ := g.client e c.client
  refine ⟨⟨is ++ [e], ?_, ?_⟩, ?_, ?_⟩
  · show C.step e c0.client = _
    rw [clientRun_snoc, ← k1, h1]
  · show _ = c0.gotDown
    rw [fedWith_append, k2, h5]
  · show Flows _ _ (c0.gotDown ++ c0.down)
    rw [h4]; exact h.down
  · show Flows C.pack (C.sent (C.step e c0.client)) (c0.gotUp ++ (c0.up ++ packAll C.pack ts ((C.sent (C.step e c0.client)).drop (C.sent c0.client).length)))
    rw [h1, h2, h3, hl, List.drop_left, ← List.append_assoc]
    exact h.up.more ts l

theorem InvWith.set {n : Net S C} {es : List (ServerEvent S.Own)} (h : InvWith n es) {u : Uuid} {c d : Conn C}
    (hd : n.find u = some d) (hc : Links n u c) (hg : c.gotUp = d.gotUp) : InvWith (n.set u c) es := by
  refine ⟨h.server, fun v hv => ?_, fun v e he => ?_, fun v e he => ?_⟩
  · by_cases k : v = u
    · subst k; rw [find_set_self hd] at hv; cases hv
    · rw [find_set_other k] at hv; exact h.none v hv
  · by_cases k : v = u
    · subst k
      rw [find_set_self hd] at he
      obtain rfl := Option.some.inj he
      rw [hg]
      exact h.once v d hd
    · rw [find_set_other k] at he; exact h.once v e he
  · by_cases k : v = u
    · subst k
      rw [find_set_self hd] at he
      obtain rfl := Option.some.inj he
      exact ⟨hc.client, hc.down, hc.up⟩
    · rw [find_set_other k] at he
      have := h.links v e he
      exact ⟨this.client, this.down, this.up⟩

theorem inv_step (g : Growing S C) {n : Net S C} {es : List (ServerEvent S.Own)} (h : InvWith n es) (x : UInt64 × Event S C) :
    ∃ es', InvWith (step n x) es' := by
  obtain ⟨ts, x⟩ := x
  cases x with
  | opened u =>
    unfold step
    dsimp only
    split
    · rename_i hc
      simp only [Bool.and_eq_true, Option.isNone_iff_eq_none, List.isEmpty_iff] at hc
      obtain ⟨hf, hu⟩ := hc
      generalize hm : ({ n with conns := n.conns ++ [(u, ⟨C.new, [], [], [], []⟩)] } : Net S C) = m
      have hms : m.server = n.server := by rw [← hm]
      have hmf : ∀ v, m.find v = if v = u then some ⟨C.new, [], [], [], []⟩ else n.find v := by
        intro v; rw [← hm]; exact find_snoc hf
      have hl : ∀ v c, m.find v = some c → Links m v c := by
        intro v c hc
        rw [hmf] at hc
        by_cases e : v = u
        · subst e
          rw [if_pos rfl] at hc
          obtain rfl := Option.some.inj hc
          refine ⟨⟨[], rfl, rfl⟩, ⟨[], ?_, rfl⟩, ⟨[], ?_, rfl⟩⟩
          · rw [hms, hu]; rfl
          · show _ = C.sent C.new
            rw [g.empty]; rfl
        · rw [if_neg e] at hc
          have := h.links v c hc
          exact ⟨this.client, by rw [hms]; exact this.down, this.up⟩
      refine ⟨es ++ [.opened u], ?_, fun v hv y hy => ?_, fun v c hc => ?_, fun v c hc => ?_⟩
      · rw [serverRun_snoc, ← h.server, ← hms]; rfl
      · rw [find_serve, Option.map_eq_none_iff, hmf] at hv
        by_cases e : v = u
        · rw [if_pos e] at hv; cases hv
        · rw [if_neg e] at hv
          rcases List.mem_append.1 hy with hy | hy
          · exact h.none v hv y hy
          · rw [List.mem_singleton.1 hy]
            rintro (k | ⟨b, k⟩)
            · cases k; exact e rfl
            · cases k
      · rw [find_serve, Option.map_eq_some_iff] at hc
        obtain ⟨c0, k1, rfl⟩ := hc
        rw [hmf] at k1
        by_cases e : v = u
        · subst e
          rw [if_pos rfl] at k1
          obtain rfl := Option.some.inj k1
          refine ⟨⟨es, [], rfl, h.none v hf, by simp⟩, ?_⟩
          rw [dataOf_append, dataOf_untouched (h.none v hf)]; rfl
        · rw [if_neg e] at k1
          obtain ⟨k2, k3⟩ := h.once v c0 k1
          refine ⟨k2.snoc (by simp; exact fun k => e k.symm), ?_⟩
          rw [dataOf_append, k3]
          exact List.append_nil _
      · rw [find_serve, Option.map_eq_some_iff] at hc
        obtain ⟨c0, k1, rfl⟩ := hc
        exact (hl v c0 k1).serve g ts _
    · exact ⟨es, h⟩
  | lost u =>
    exact ⟨_, h.serve g ts _ (by rintro v (k | ⟨b, k⟩) <;> cases k)⟩
  | toServer u count =>
    unfold step
    dsimp only
    split
    · rename_i c hc
      generalize hb : c.up.take count = b
      have hup : c.up = b ++ c.up.drop count := by rw [← hb]; exact (List.take_append_drop _ _).symm
      generalize hm : n.set u { c with up := c.up.drop count, gotUp := c.gotUp ++ b } = m
      have hms : m.server = n.server := by rw [← hm]; rfl
      have hself : m.find u = some { c with up := c.up.drop count, gotUp := c.gotUp ++ b } := by
        rw [← hm]; exact find_set_self hc
      have hother : ∀ v, v ≠ u → m.find v = n.find v := fun v hv => by rw [← hm]; exact find_set_other hv
      refine ⟨es ++ [.data u b], ?_, fun v hv y hy => ?_, fun v d hd => ?_, fun v d hd => ?_⟩
      · rw [serverRun_snoc, ← h.server, ← hms]; rfl
      · rw [find_serve, Option.map_eq_none_iff] at hv
        by_cases e : v = u
        · subst e; rw [hself] at hv; cases hv
        · rw [hother v e] at hv
          rcases List.mem_append.1 hy with hy | hy
          · exact h.none v hv y hy
          · rw [List.mem_singleton.1 hy]
            rintro (k | ⟨b, k⟩)
            · cases k
            · cases k; exact e rfl
      · rw [find_serve, Option.map_eq_some_iff] at hd
        obtain ⟨c0, k1, rfl⟩ := hd
        by_cases e : v = u
        · subst e
          rw [hself] at k1
          obtain rfl := Option.some.inj k1
          obtain ⟨k2, k3⟩ := h.once v c hc
          refine ⟨k2.snoc (by simp), ?_⟩
          rw [dataOf_append, k3]
          simp [dataOf]
        · rw [hother v e] at k1
          obtain ⟨k2, k3⟩ := h.once v c0 k1
          refine ⟨k2.snoc (by simp), ?_⟩
          rw [dataOf_append, k3]
          simp [dataOf, Ne.symm e]
      · rw [find_serve, Option.map_eq_some_iff] at hd
        obtain ⟨c0, k1, rfl⟩ := hd
        refine Links.serve g ?_ ts _
        by_cases e : v = u
        · subst e
          rw [hself] at k1
          obtain rfl := Option.some.inj k1
          have hl := h.links v c hc
          refine ⟨hl.client, by rw [hms]; exact hl.down, ?_⟩
          show Flows _ _ ((c.gotUp ++ b) ++ c.up.drop count)
          rw [List.append_assoc, ← hup]
          exact hl.up
        · rw [hother v e] at k1
          have hl := h.links v c0 k1
          exact ⟨hl.client, by rw [hms]; exact hl.down, hl.up⟩
    · exact ⟨es, h⟩
  | toClient u count =>
    unfold step
    dsimp only
    split
    · rename_i c hc
      split
      · refine ⟨es, h.set hc (Links.goOn g (h.links u c hc) ts _ rfl rfl rfl ?_ ?_) rfl⟩
        · show (c.gotDown ++ c.down.take count) ++ c.down.drop count = _
          rw [List.append_assoc, List.take_append_drop]
        · simp [fedWith]
      · exact ⟨es, h⟩
    · exact ⟨es, h⟩
  | server i =>
    exact ⟨_, h.serve g ts _ (by rintro v (k | ⟨b, k⟩) <;> cases k)⟩
  | client u i =>
    unfold step
    dsimp only
    split
    · rename_i c hc
      exact ⟨es, h.set hc (Links.goOn g (h.links u c hc) ts _ rfl rfl rfl rfl (by simp [fedWith])) rfl⟩
    · exact ⟨es, h⟩

theorem inv_run (g : Growing S C) (es : List (UInt64 × Event S C)) : ∃ es', InvWith (run es (.new : Net S C)) es' := by
  have : ∀ (n : Net S C) es0, InvWith n es0 → ∃ es', InvWith (run es n) es' := by
    induction es with
    | nil => exact fun n es0 h => ⟨es0, h⟩
    | cons e es ih =>
      intro n es0 h
      obtain ⟨es1, h1⟩ := inv_step g h e
      exact ih _ es1 h1
  exact this _ [] ⟨rfl, fun _ _ _ he => absurd he (List.not_mem_nil), fun _ _ h => (nomatch h), fun _ _ h => (nomatch h)⟩

/-! ### What arrives comes from what was sent -/

/-- The messages a program looked at are the beginning of those in the bytes it got. -/
def ReadsOf {T : Type} (d : Rust.Decoder T) (bytes : Bytes) (looked : List (UInt32 × T)) : Prop :=
  ∃ fs b rest, (∀ f ∈ fs, Frame.Ok f) ∧ bytes = stream fs ++ b ∧
    (fs.filterMap (Spec.delivered d)).map System.tagged = looked ++ rest

/-- What was looked at is the beginning of what is in the frames of what was sent. -/
theorem frames_of_reads {Out T : Type} {pack : UInt64 → UInt32 → Out → Bytes} {d : Rust.Decoder T} {sent : List (UInt32 × Out)}
    {got under : Bytes} {looked : List (UInt32 × T)} (hf : Flows pack sent (got ++ under))
    (hfr : ∀ q o, (q, o) ∈ sent → ∀ ts, System.IsFrame q (pack ts q o)) (hr : ReadsOf d got looked) :
    ∃ fs more, System.Pairs (fun x f => System.Packed pack x.1 x.2 f) sent fs ∧
      (fs.filterMap (Spec.delivered d)).map System.tagged = looked ++ more := by
  obtain ⟨L, h1, h2⟩ := hf
  obtain ⟨fs, k1, k2, k3⟩ := System.frames_of (pack := pack) (fun x : UInt32 × Out => x.1) (fun x => x.2) L (by
    intro x hx ts
    refine hfr _ _ ?_ ts
    rw [← h1]
    exact List.mem_map_of_mem hx)
  rw [h1] at k2
  obtain ⟨gs, b, rest, e1, e2, e3⟩ := hr
  rw [k3, e2, List.append_assoc] at h2
  obtain ⟨hs, e4, _⟩ := System.stream_inj e1 k1 h2
  refine ⟨fs, rest ++ (hs.filterMap (Spec.delivered d)).map System.tagged, k2, ?_⟩
  rw [e4, List.filterMap_append, List.map_append, e3, List.append_assoc]

/-- What was looked at comes from what was sent, in order. -/
theorem sub_of_reads {Out T : Type} {pack : UInt64 → UInt32 → Out → Bytes} {d : Rust.Decoder T} {sent : List (UInt32 × Out)}
    {got under : Bytes} {looked : List (UInt32 × T)} (hf : Flows pack sent (got ++ under))
    (hfr : ∀ q o, (q, o) ∈ sent → ∀ ts, System.IsFrame q (pack ts q o)) (hr : ReadsOf d got looked) :
    System.Sub (fun x (y : UInt32 × T) => x.1 = y.1 ∧ System.Arrives pack d x.1 x.2 y.2) sent looked := by
  obtain ⟨fs, more, h1, h2⟩ := frames_of_reads hf hfr hr
  have := System.sub_of_pairs (d := d) h1
  rw [h2] at this
  exact this.prefix

end Verif.Network
