import Verif.Proofs.SystemReads
import Verif.Proofs.RustClientAlive
import Verif.Proofs.ServerServe
set_option autoImplicit false
/-!
What holds in every run of the composed system: the bytes that arrived and those under way are the
messages that were sent.
-/
namespace Verif.System

open Verif Verif.Spec

variable {P : Type} {w : Setup P}

/-! ### Histories -/

theorem sents_append (a b : List (Client.Act P)) : sents (a ++ b) = sents b ++ sents a := by
  induction a with
  | nil => simp [sents]
  | cons x a ih => cases x <;> simp [sents, ih]

theorem sends_append (u : Uuid) (a b : List (Server.Act P)) : sends u (a ++ b) = sends u b ++ sends u a := by
  induction a with
  | nil => simp [sends]
  | cons x a ih =>
    cases x with
    | send v q o ok =>
      cases ok with
      | false => simp only [List.cons_append, sends, ih]
      | true =>
        simp only [List.cons_append, sends, ih]
        split <;> simp
    | _ => simp [sends, ih]

theorem sentUp_eq (ts : UInt64) (h : List (Client.Act P)) :
    sentUp w ts h = (sents h).flatMap (fun x => w.up ts x.1 x.2.2) := by
  induction h with
  | nil => rfl
  | cons x h ih => cases x <;> simp [sentUp, sents, ih]

theorem sentDown_eq (ts : UInt64) (u : Uuid) (h : List (Server.Act P)) :
    sentDown w ts u h = (sends u h).flatMap (fun x => w.down ts x.1 x.2) := by
  induction h with
  | nil => rfl
  | cons x h ih =>
    cases x with
    | send v q o ok =>
      cases ok with
      | false => simp only [sentDown, sends, ih]
      | true =>
        simp only [sentDown, sends, ih]
        split <;> simp
    | _ => simp only [sentDown, sends, ih]

theorem added_append {α : Type} (l h : List α) : added h (l ++ h) = l := by
  simp [added]

theorem usedFor_false {u : Uuid} {h : List (Server.Act P)} (k : usedFor u h = false) : sends u h = [] := by
  induction h with
  | nil => rfl
  | cons x h ih =>
    cases x with
    | send v q o ok =>
      cases ok with
      | false => exact ih k
      | true =>
        simp only [usedFor, Bool.or_eq_false_iff, decide_eq_false_iff_not] at k
        simp only [sends, if_neg k.1]
        exact ih k.2
    | _ => exact ih k

theorem arrived_step {c c' : List (Client.Act P)} {l : List (Client.Act P)} (h : c' = l ++ c)
    (hn : ∀ b, .chunk b ∉ l) : Client.arrived c' = Client.arrived c := by
  subst h
  induction l with
  | nil => rfl
  | cons x l ih =>
    have ih := ih (fun b hb => hn b (List.mem_cons_of_mem _ hb))
    cases x <;> simp only [List.cons_append, Client.arrived, ih]
    rename_i b
    exact absurd List.mem_cons_self (hn b)

/-! ### Connections -/

theorem lookup_map_snd {α β : Type} [BEq α] (l : List (α × β)) (f : α → β → β) (u : α) [LawfulBEq α] :
    (l.map (fun p => (p.1, f p.1 p.2))).lookup u = (l.lookup u).map (f u) := by
  induction l with
  | nil => rfl
  | cons p l ih =>
    obtain ⟨x, y⟩ := p
    simp only [List.map_cons, List.lookup_cons, ih]
    by_cases e : u = x
    · subst e; simp
    · have : (u == x) = false := by simpa using e
      simp [this]

theorem Net.find_set_self {n : Net P} {u : Uuid} {c d : Conn P} (h : n.find u = some d) :
    (n.set u c).find u = some c := by
  unfold Net.find Net.set at *
  generalize n.conns = l at h
  dsimp only
  induction l with
  | nil => cases h
  | cons p l ih =>
    obtain ⟨x, y⟩ := p
    rw [List.map_cons]
    by_cases e : x = u
    · subst e; simp
    · rw [if_neg e, List.lookup_cons]
      have : (u == x) = false := by simp; exact fun k => e k.symm
      rw [this]
      rw [List.lookup_cons, this] at h
      exact ih h

theorem Net.find_set_other {n : Net P} {u v : Uuid} {c : Conn P} (hv : v ≠ u) :
    (n.set u c).find v = n.find v := by
  unfold Net.find Net.set
  generalize n.conns = l
  dsimp only
  induction l with
  | nil => rfl
  | cons p l ih =>
    obtain ⟨x, y⟩ := p
    rw [List.map_cons]
    by_cases e : x = u
    · subst e
      have : (v == x) = false := by simpa using hv
      rw [if_pos rfl, List.lookup_cons, List.lookup_cons, this, ih]
    · rw [if_neg e, List.lookup_cons, List.lookup_cons, ih]

theorem find_serve (ts : UInt64) (i : Server.Input P) (n : Net P) (u : Uuid) :
    (n.serve w ts i).find u = (n.find u).map (fun c => { c with down :=
      (c.down ++ sentDown w ts u (added n.server.past (serverStep w n.exit i n.server).2.past)) }) := by
  unfold Net.serve Net.find
  exact lookup_map_snd n.conns (fun v c => { c with down :=
      (c.down ++ sentDown w ts v (added n.server.past (serverStep w n.exit i n.server).2.past)) }) u

/-! ### The server -/

/-- What one event does to the server. -/
theorem serverStep_cases (e : Server.Exit) (i : Server.Input P) (s : Server.State P) :
    (serverStep w e i s = (e, s) ∧ e ≠ .running) ∨
    (e = .running ∧ (serverStep w e i s).2 = (Server.step w.server w.env w.opts i s).2 ∧
      ((serverStep w e i s).1 = .running → (Server.step w.server w.env w.opts i s).1 = .ok ())) := by
  cases e with
  | running =>
    right
    refine ⟨rfl, ?_⟩
    unfold serverStep
    dsimp only
    unfold Server.listen
    split
    · rename_i e; cases e
    · rename_i e; cases e; exact ⟨rfl, fun h => by cases h⟩
    · rename_i e; cases e; exact ⟨rfl, fun h => by cases h⟩
    · rename_i e; cases e
      split
      · rename_i e; rw [e]; exact ⟨rfl, fun _ => rfl⟩
      · rename_i e; rw [e]; exact ⟨rfl, fun h => by cases h⟩
      · rename_i e; rw [e]; exact ⟨rfl, fun h => by cases h⟩
  | _ => exact .inl ⟨rfl, by simp⟩

theorem serverStep_grows (e : Server.Exit) (i : Server.Input P) (s : Server.State P) :
    ∃ l, (serverStep w e i s).2.past = l ++ s.past := by
  rcases serverStep_cases (w := w) e i s with ⟨h, _⟩ | ⟨_, h, _⟩
  · exact ⟨[], by rw [h]; rfl⟩
  · rw [h]; exact Server.step_grows w.env i s

theorem serverStep_j {e : Server.Exit} {i : Server.Input P} {s : Server.State P}
    (hj : J w.server w.env s) : J w.server w.env (serverStep w e i s).2 := by
  rcases serverStep_cases (w := w) e i s with ⟨h, _⟩ | ⟨_, h, _⟩
  · rw [h]; exact hj
  · rw [h]; exact j_step i s hj

theorem serverStep_still {u : Uuid} (e : Server.Exit) {i : Server.Input P} (s : Server.State P)
    (h1 : i ≠ .connected u) (h2 : ∀ b, i ≠ .received u b) : Still u s (serverStep w e i s).2 := by
  rcases serverStep_cases (w := w) e i s with ⟨h, _⟩ | ⟨_, h, _⟩
  · rw [h]; exact .refl u s
  · rw [h]; exact still_step i h1 h2 s

theorem Heard.weaken {d : Rust.Decoder (Server.In P)} {u : Uuid} {G : Bytes} {A B : Prop} {s : Server.State P}
    (h : Heard d u G A s) (hab : B → A) : Heard d u G B s := ⟨h.part, fun hb => h.alive (hab hb)⟩

theorem serverStep_heard {u : Uuid} {G : Bytes} {e : Server.Exit} {i : Server.Input P} {s : Server.State P}
    (h : Heard w.server.decoder u G (e = .running) s) (h1 : i ≠ .connected u) (h2 : ∀ b, i ≠ .received u b) :
    Heard w.server.decoder u G ((serverStep w e i s).1 = .running) (serverStep w e i s).2 := by
  rcases serverStep_cases (w := w) e i s with ⟨k, k'⟩ | ⟨rfl, k, k'⟩
  · rw [k]; exact h
  · rw [k]
    exact (h.weaken (fun _ => rfl)).still (still_step i h1 h2 s)

theorem serverStep_received {u : Uuid} {G b : Bytes} {e : Server.Exit} {s : Server.State P}
    (h : Heard w.server.decoder u G (e = .running) s) :
    Heard w.server.decoder u (G ++ b) ((serverStep w e (.received u b) s).1 = .running)
      (serverStep w e (.received u b) s).2 := by
  rcases serverStep_cases (w := w) e (.received u b) s with ⟨k, k'⟩ | ⟨rfl, k, k'⟩
  · rw [k]
    exact ⟨h.more b, fun hr => absurd hr k'⟩
  · rw [k]
    exact (heard_received b (h.weaken (fun _ => rfl))).weaken k'

/-! ### The invariant -/

/-- The messages of the server to `u` are the bytes that arrived and those under way. -/
def Down (w : Setup P) (sent : List (UInt32 × Server.Out P)) (c : Conn P) : Prop :=
  ∃ L : List (UInt64 × UInt32 × Server.Out P), L.map Prod.snd = sent ∧
    Client.arrived c.client.past ++ c.down = L.flatMap (fun x => w.down x.1 x.2.1 x.2.2)

/-- The messages of the client are the bytes the server got and those under way. -/
def Up (w : Setup P) (u : Uuid) (e : Server.Exit) (s : Server.State P) (c : Conn P) : Prop :=
  ∃ (L : List (UInt64 × UInt32 × Client.Who × Client.Out P)) (G : Bytes), L.map Prod.snd = sents c.client.past ∧
    G ++ c.up = L.flatMap (fun x => w.up x.1 x.2.1 x.2.2.2) ∧
    Heard w.server.decoder u G (e = .running) s

structure Links (w : Setup P) (n : Net P) (u : Uuid) (c : Conn P) : Prop where
  client : ∃ is, c.client = Client.run w.client is .new
  down : Down w (sends u n.server.past) c
  up : Up w u n.exit n.server c

structure Inv (w : Setup P) (n : Net P) : Prop where
  just : J w.server w.env n.server
  conn : ∀ u c, n.find u = some c → Links w n u c
  none : ∀ u, n.find u = none → n.server.find u = none ∧ heard u n.server.past = []

theorem map_const_snd {α β : Type} (a : α) (l : List β) : (l.map (fun x => (a, x))).map Prod.snd = l := by
  induction l with
  | nil => rfl
  | cons x l ih => simp only [List.map_cons, ih]

theorem Down.serve {u : Uuid} {c : Conn P} {past l : List (Server.Act P)} (h : Down w (sends u past) c)
    (ts : UInt64) : Down w (sends u (l ++ past)) { c with down := c.down ++ sentDown w ts u l } := by
  obtain ⟨L, h1, h2⟩ := h
  refine ⟨L ++ (sends u l).map (fun x => (ts, x)), ?_, ?_⟩
  · rw [List.map_append, h1, map_const_snd, sends_append]
  · rw [← List.append_assoc, h2, sentDown_eq, List.flatMap_append, List.flatMap_map]

theorem Links.serve {n : Net P} {u : Uuid} {c : Conn P} (ts : UInt64) (i : Server.Input P)
    (h : Links w n u c) (h1 : i ≠ .connected u) (h2 : ∀ b, i ≠ .received u b) :
    Links w (n.serve w ts i) u { c with down :=
      (c.down ++ sentDown w ts u (added n.server.past (serverStep w n.exit i n.server).2.past)) } := by
  obtain ⟨l, hl⟩ := serverStep_grows (w := w) n.exit i n.server
  refine ⟨h.client, ?_, ?_⟩
  · show Down w (sends u (serverStep w n.exit i n.server).2.past) _
    rw [hl, added_append]
    exact h.down.serve ts
  · obtain ⟨L, G, k1, k2, k3⟩ := h.up
    exact ⟨L, G, k1, k2, serverStep_heard k3 h1 h2⟩

theorem Inv.serve {n : Net P} (h : Inv w n) (ts : UInt64) (i : Server.Input P)
    (h1 : ∀ u, i ≠ .connected u) (h2 : ∀ u b, i ≠ .received u b) : Inv w (n.serve w ts i) := by
  refine ⟨serverStep_j h.just, fun u c hc => ?_, fun u hu => ?_⟩
  · rw [find_serve, Option.map_eq_some_iff] at hc
    obtain ⟨c0, k1, rfl⟩ := hc
    exact (h.conn u c0 k1).serve ts i (h1 u) (h2 u)
  · rw [find_serve, Option.map_eq_none_iff] at hu
    have := serverStep_still (w := w) n.exit (i := i) n.server (h1 u) (h2 u)
    exact ⟨still_none this (h.none u hu).1, this.heard.trans (h.none u hu).2⟩

theorem client_run_snoc {cfg : Client.Cfg P} (is : List (Client.Input P)) (i : Client.Input P) :
    Client.step cfg (Client.run cfg is .new) i = Client.run cfg (is ++ [i]) .new := by
  simp [Client.run, List.foldl_append]

theorem client_arrived {cfg : Client.Cfg P} {s : Client.State P} (i : Client.Input P) (hi : ownClient i = true) :
    Client.arrived (Client.step cfg s i).past = Client.arrived s.past := by
  by_cases h1 : ∃ b, i = .api b
  · obtain ⟨b, rfl⟩ := h1
    rcases Client.api_step b s with f | ⟨a, n, k1, k2, k3, _⟩ | ⟨t, c, a, q, m, cs, f, _, k, _⟩
    · obtain ⟨xs, h, hx⟩ := f.past
      rw [← Client.fed_ops, ← Client.fed_ops, Client.step, h, (Client.ops_minor hx).1]
    · rw [Client.step, k3]; rfl
    · obtain ⟨xs, h, hx⟩ := f.past
      rw [← Client.fed_ops, ← Client.fed_ops, Client.step, k]
      exact congrArg Spec.fed ((congrArg Client.ops h).trans (Client.ops_minor hx).1)
  · by_cases h2 : ∃ b, i = .received b
    · obtain ⟨b, rfl⟩ := h2; cases hi
    · by_cases h3 : i = .work
      · subst h3
        have off : ∀ (q : UInt32) (m : Client.In P) (s : Client.State P),
            Client.arrived (Client.offer cfg q m s).past = Client.arrived s.past := by
          intro q m s
          obtain ⟨e, he, _⟩ := Client.offer_past cfg q m s
          rw [he]; rfl
        simp only [Client.step, Client.work]
        split
        · split
          · rfl
          · split
            · rfl
            · split
              · rw [off]; rfl
              · rfl
        · split
          · rfl
          · rfl
          · rw [off]
          · rw [off]; rfl
        · rfl
      · obtain ⟨xs, h, hx⟩ := (Client.frame_step cfg s i (fun b e => h1 ⟨b, e⟩) (fun b e => h2 ⟨b, e⟩) h3).past
        rw [← Client.fed_ops, ← Client.fed_ops, h, (Client.ops_minor hx).1]

theorem client_received {cfg : Client.Cfg P} {s : Client.State P} (b : Bytes) (hi : waits s = true) :
    Client.arrived (Client.step cfg s (.received b)).past = Client.arrived s.past ++ b := by
  unfold waits at hi
  split at hi
  · rename_i r u e
    simp only [Client.step, Client.received, e]
    split <;> rfl
  · cases hi

theorem Links.goOn {n : Net P} {u : Uuid} {c : Conn P} (ts : UInt64) (i : Client.Input P)
    (h : Links w n u c) {c0 : Conn P} (h0 : c0.client = c.client) (hu : c0.up = c.up)
    (hd : Client.arrived (Client.step w.client c.client i).past ++ c0.down = Client.arrived c.client.past ++ c.down) :
    Links w n u (c0.goOn w ts i) := by
  obtain ⟨is, his⟩ := h.client
  refine ⟨⟨is ++ [i], ?_⟩, ?_, ?_⟩
  · show Client.step w.client c0.client i = _
    rw [h0, his, client_run_snoc]
  · obtain ⟨L, k1, k2⟩ := h.down
    refine ⟨L, k1, ?_⟩
    show Client.arrived (Client.step w.client c0.client i).past ++ c0.down = _
    rw [h0, hd, k2]
  · obtain ⟨L, G, k1, k2, k3⟩ := h.up
    obtain ⟨l, hl⟩ := Client.step_suffix w.client c.client i
    refine ⟨L ++ (sents l).map (fun x => (ts, x)), G, ?_, ?_, k3⟩
    · show _ = sents (Client.step w.client c0.client i).past
      rw [h0, hl, sents_append, List.map_append, k1, map_const_snd]
    · show G ++ (c0.up ++ sentUp w ts (added c0.client.past (Client.step w.client c0.client i).past)) = _
      rw [h0, hu, hl, added_append, ← List.append_assoc, k2, sentUp_eq, List.flatMap_append, List.flatMap_map]

/-- Only the connection of `u` changes. -/
theorem Inv.set {n : Net P} (h : Inv w n) {u : Uuid} {c d : Conn P} (hd : n.find u = some d)
    (hc : Links w n u c) : Inv w (n.set u c) := by
  refine ⟨h.just, fun v e he => ?_, fun v hv => ?_⟩
  · by_cases k : v = u
    · subst k
      rw [Net.find_set_self hd] at he
      obtain rfl := Option.some.inj he
      exact ⟨hc.client, hc.down, hc.up⟩
    · rw [Net.find_set_other k] at he
      have := h.conn v e he
      exact ⟨this.client, this.down, this.up⟩
  · by_cases k : v = u
    · subst k
      rw [Net.find_set_self hd] at hv
      cases hv
    · rw [Net.find_set_other k] at hv
      exact h.none v hv

theorem find_snoc {n : Net P} {u v : Uuid} {c : Conn P} :
    ({ n with conns := n.conns ++ [(u, c)] } : Net P).find v =
      if v = u then (match n.find u with | none => some c | some d => some d) else n.find v := by
  unfold Net.find
  dsimp only
  rw [List.lookup_append]
  by_cases e : v = u
  · subst e
    rw [if_pos rfl]
    cases n.conns.lookup v <;> simp
  · rw [if_neg e]
    have : (v == u) = false := by simpa using e
    rw [List.lookup_cons, this]
    cases n.conns.lookup v <;> rfl

theorem inv_step {n : Net P} (h : Inv w n) (e : UInt64 × Event P) : Inv w (step w n e) := by
  obtain ⟨ts, e⟩ := e
  cases e with
  | opened u =>
    unfold step
    dsimp only
    split
    · rename_i hc
      simp only [Bool.and_eq_true, Option.isNone_iff_eq_none, Bool.not_eq_true'] at hc
      obtain ⟨hf, hu⟩ := hc
      obtain ⟨hn, hh⟩ := h.none u hf
      generalize hm : ({ n with conns := n.conns ++ [(u, ⟨.new, [], []⟩)] } : Net P) = m
      have hms : m.server = n.server := by rw [← hm]
      have hme : m.exit = n.exit := by rw [← hm]
      have hmf : ∀ v, m.find v = if v = u then some ⟨.new, [], []⟩ else n.find v := by
        intro v
        rw [← hm, find_snoc, hf]
      refine ⟨serverStep_j (by rw [hms]; exact h.just), fun v c hc => ?_, fun v hv => ?_⟩
      · rw [find_serve, Option.map_eq_some_iff] at hc
        obtain ⟨c0, k1, rfl⟩ := hc
        rw [hmf] at k1
        by_cases e : v = u
        · subst e
          rw [if_pos rfl] at k1
          obtain rfl := Option.some.inj k1
          obtain ⟨l, hl⟩ := serverStep_grows (w := w) m.exit (.connected v) m.server
          refine ⟨⟨[], rfl⟩, ?_, ⟨[], [], rfl, rfl, ?_⟩⟩
          · show Down w (sends v (serverStep w m.exit (.connected v) m.server).2.past) _
            rw [hl, added_append]
            refine Down.serve ⟨[], ?_, rfl⟩ ts
            rw [hms, usedFor_false hu]; rfl
          · show Heard w.server.decoder v [] ((serverStep w m.exit (.connected v) m.server).1 = .running)
              (serverStep w m.exit (.connected v) m.server).2
            have key : heard v (serverStep w m.exit (.connected v) m.server).2.past = [] ∧
                ∀ c, (serverStep w m.exit (.connected v) m.server).2.find v = some c → c.reader = ⟨[], []⟩ := by
              rcases serverStep_cases (w := w) m.exit (.connected v) m.server with ⟨k, _⟩ | ⟨_, k, _⟩
              · rw [k, hms]
                exact ⟨hh, fun c hc => by rw [hn] at hc; cases hc⟩
              · rw [k, hms]
                have := opened_step (cfg := w.server) (env := w.env) (opts := w.opts) hn
                exact ⟨this.1.trans hh, this.2⟩
            refine ⟨⟨[], [], [], by simp, rfl, by rw [key.1]; rfl⟩, fun _ c hc _ => ⟨[], by simp, ?_, ?_,
              .inl (by rw [key.2 c hc]; exact ⟨noFrame_nil, rfl⟩)⟩⟩
            · rw [key.2 c hc]; rfl
            · rw [key.1, key.2 c hc]; rfl
        · rw [if_neg e] at k1
          have hl := h.conn v c0 k1
          have : Links w m v c0 := ⟨hl.client, by rw [hms]; exact hl.down, by rw [hms, hme]; exact hl.up⟩
          exact this.serve ts (.connected u) (by simp; exact fun k => e k.symm) (by simp)
      · rw [find_serve, Option.map_eq_none_iff, hmf] at hv
        by_cases e : v = u
        · rw [if_pos e] at hv; cases hv
        · rw [if_neg e] at hv
          have := serverStep_still (w := w) (u := v) m.exit (i := .connected u) m.server
            (by simp; exact fun k => e k.symm) (by simp)
          rw [hms] at this
          show (serverStep w m.exit (.connected u) m.server).2.find v = none ∧ _
          rw [hms]
          refine ⟨still_none this (h.none v hv).1, ?_⟩
          show heard v (serverStep w m.exit (.connected u) m.server).2.past = []
          rw [hms]
          exact this.heard.trans (h.none v hv).2
    · exact h
  | lost u => exact h.serve ts _ (by simp) (by simp)
  | toServer u count =>
    unfold step
    dsimp only
    split
    · rename_i c hc
      generalize hb : c.up.take count = b
      have hup : c.up = b ++ c.up.drop count := by rw [← hb]; exact (List.take_append_drop _ _).symm
      have hl := h.conn u c hc
      generalize hm : n.set u { c with up := c.up.drop count } = m
      have hms : m.server = n.server := by rw [← hm]; rfl
      have hme : m.exit = n.exit := by rw [← hm]; rfl
      have hself : m.find u = some { c with up := c.up.drop count } := by rw [← hm]; exact Net.find_set_self hc
      have hother : ∀ v, v ≠ u → m.find v = n.find v := fun v hv => by rw [← hm]; exact Net.find_set_other hv
      refine ⟨serverStep_j (by rw [hms]; exact h.just), fun v d hd => ?_, fun v hv => ?_⟩
      · rw [find_serve, Option.map_eq_some_iff] at hd
        obtain ⟨c0, k1, rfl⟩ := hd
        by_cases e : v = u
        · subst e
          rw [hself] at k1
          obtain rfl := Option.some.inj k1
          obtain ⟨l, hgl⟩ := serverStep_grows (w := w) m.exit (.received v b) m.server
          refine ⟨hl.client, ?_, ?_⟩
          · show Down w (sends v (serverStep w m.exit (.received v b) m.server).2.past) _
            rw [hgl, added_append]
            refine Down.serve ?_ ts
            rw [hms]
            exact hl.down
          · obtain ⟨L, G, k1, k2, k3⟩ := hl.up
            refine ⟨L, G ++ b, k1, ?_, ?_⟩
            · rw [← k2, List.append_assoc]
              exact congrArg (G ++ ·) hup.symm
            · show Heard w.server.decoder v (G ++ b) ((serverStep w m.exit (.received v b) m.server).1 = .running)
                (serverStep w m.exit (.received v b) m.server).2
              rw [hms, hme]
              exact serverStep_received k3
        · rw [hother v e] at k1
          have hl := h.conn v c0 k1
          have : Links w m v c0 := ⟨hl.client, by rw [hms]; exact hl.down, by rw [hms, hme]; exact hl.up⟩
          exact this.serve ts _ (by simp) (by simp; exact fun k => absurd k.symm e)
      · rw [find_serve, Option.map_eq_none_iff] at hv
        by_cases e : v = u
        · subst e; rw [hself] at hv; cases hv
        · rw [hother v e] at hv
          have := serverStep_still (w := w) (u := v) m.exit (i := .received u b) m.server
            (by simp) (by simp; exact fun k => absurd k.symm e)
          rw [hms] at this
          show (serverStep w m.exit (.received u b) m.server).2.find v = none ∧
            heard v (serverStep w m.exit (.received u b) m.server).2.past = []
          rw [hms]
          exact ⟨still_none this (h.none v hv).1, this.heard.trans (h.none v hv).2⟩
    · exact h
  | toClient u count =>
    unfold step
    dsimp only
    split
    · rename_i c hc
      split
      · rename_i hw
        refine h.set hc (Links.goOn ts _ (h.conn u c hc) rfl rfl ?_)
        rw [client_received _ hw, List.append_assoc]
        exact congrArg (_ ++ ·) (List.take_append_drop _ _)
      · exact h
    · exact h
  | server i =>
    unfold step
    dsimp only
    split
    · rename_i hi
      refine h.serve ts i ?_ ?_
      · rintro u rfl; cases hi
      · rintro u b rfl; cases hi
    · exact h
  | client u i =>
    unfold step
    dsimp only
    split
    · rename_i c hc
      split
      · rename_i hi
        refine h.set hc (Links.goOn ts i (h.conn u c hc) rfl rfl ?_)
        rw [client_arrived i hi]
      · exact h
    · exact h

theorem inv_new : Inv w (Net.new : Net P) :=
  ⟨trivial, (fun u c h => by cases h), fun u _ => ⟨rfl, rfl⟩⟩

theorem inv_run (es : List (UInt64 × Event P)) : Inv w (run w es .new) := by
  have : ∀ n : Net P, Inv w n → Inv w (run w es n) := by
    induction es with
    | nil => exact fun n h => h
    | cons e es ih => exact fun n h => ih _ (inv_step h e)
  exact this _ inv_new

end Verif.System
