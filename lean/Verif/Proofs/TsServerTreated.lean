import Verif.Proofs.TsServerServe
import Verif.Proofs.TsServerInv2
import Verif.Proofs.TsServerCasts
set_option autoImplicit false
/-!
What a TypeScript server does directly after it looked at a message.
-/
namespace Verif.TsServer

open Verif

variable {cfg : Cfg} {env : Env} {opts : Server.Options}

/-- What has to be done directly after the message `m` of `u` with number `q` was looked at. -/
inductive Due (cfg : Cfg) (u : Uuid) (m : Msg) (q : UInt32) (older : List Act) : (Act → Prop) → Prop where
  | call : Declared cfg m → (∀ k, ¬ Found m cfg.selfKey k) → (∀ b, ¬ Found m hashRequest b) →
      Due cfg u m q older (fun a => a = .drop u ∨
        (∃ t, ∃ r ∈ cfg.workflow.requests, ∃ ref b, r.request = some ref ∧ Found m ref b ∧ a = .respond t u ref b q) ∨
        ∃ t, ∃ x ∈ cfg.workflow.beacons, ∃ b, Found m x.reference b ∧ a = .beacon t u x.reference b q)
  | hash {b : Js} : (∀ k, ¬ Found m cfg.selfKey k) → Found m hashRequest b → (∀ e, cfg.packs (.hash e) = true) →
      Due cfg u m q older (fun a => ∃ e, a = .send .handshake u q (.hash e))
  | key {k : Js} : Found m cfg.selfKey k → ¬ HashShown cfg u older → cfg.packs (.selfKey u) = true →
      Due cfg u m q older (fun a => a = .send .handshake u q (.selfKey u))

/-- It was done for every message that was looked at. -/
def Treated (cfg : Cfg) (h : List Act) : Prop :=
  ∀ l u m q older, h = l ++ .got u m q :: older → ∀ P, Due cfg u m q older P → ∃ l' a, l = l' ++ [a] ∧ P a

theorem Treated.adds {l h : List Act} (ht : Treated cfg h) (hl : ∀ a ∈ l, ∀ u m q, a ≠ .got u m q) : Treated cfg (l ++ h) := by
  intro k u m q older e P hP
  rcases List.append_eq_append_iff.1 e with ⟨t, e1, e2⟩ | ⟨t, e1, e2⟩
  · obtain ⟨l', a, k1, k2⟩ := ht t u m q older e2 P hP
    exact ⟨l ++ l', a, by rw [e1, k1, List.append_assoc], k2⟩
  · cases t with
    | nil =>
      obtain ⟨l', a, k1, k2⟩ := ht [] u m q older (by simpa using e2.symm) P hP
      simp at k1
    | cons b t =>
      simp only [List.cons_append, List.cons.injEq] at e2
      exact absurd e2.1.symm (hl b (by rw [e1]; simp) u m q)

theorem Treated.message {h l : List Act} {u : Uuid} {q : UInt32} {m : Msg} (ht : Treated cfg h)
    (ha : ∀ P, Due cfg u m q h P → ∃ l' a, l = l' ++ [a] ∧ P a)
    (hl : ∀ b ∈ l, ∀ u m q, b ≠ .got u m q) : Treated cfg (l ++ .got u m q :: h) := by
  intro k u' m' q' older e P hP
  rcases List.append_eq_append_iff.1 e with ⟨t, e1, e2⟩ | ⟨t, e1, e2⟩
  · cases t with
    | nil =>
      simp only [List.nil_append, List.cons.injEq, Act.got.injEq] at e2
      obtain ⟨⟨rfl, rfl, rfl⟩, rfl⟩ := e2
      rw [List.append_nil] at e1
      subst e1
      exact ha P hP
    | cons b t =>
      simp only [List.cons_append, List.cons.injEq] at e2
      obtain ⟨rfl, e2⟩ := e2
      obtain ⟨l', a, k1, k2⟩ := ht t u' m' q' older e2 P hP
      exact ⟨l ++ .got u m q :: l', a, by rw [e1, k1]; simp, k2⟩
  · cases t with
    | nil =>
      simp only [List.nil_append, List.cons.injEq, Act.got.injEq] at e2
      obtain ⟨⟨rfl, rfl, rfl⟩, rfl⟩ := e2
      rw [List.append_nil] at e1
      subst e1
      exact ha P hP
    | cons b t =>
      simp only [List.cons_append, List.cons.injEq] at e2
      exact absurd e2.1.symm (hl b (by rw [e1]; simp) u' m' q')

theorem enter_first (a : Act) (s : State) : ∃ l, (enter cfg env a s).past = l ++ [a] ++ s.past := by
  obtain ⟨l, h, _⟩ := enter_past cfg env a s
  exact ⟨l, by rw [h]; simp⟩

theorem kick_first (u : Uuid) (s : State) : ∃ l, (kick cfg env u s).2.past = l ++ [.drop u] ++ s.past := by
  unfold kick Proc.andThen Proc.note callUser
  dsimp only
  obtain ⟨l, h⟩ := enter_first (cfg := cfg) (env := env) (.error (some u)) (s.push (.drop u))
  exact ⟨l ++ [.error (some u)], by rw [h]; simp [State.push]⟩

/-- The first act after the message. -/
theorem onMessage_first {u : Uuid} {c : Consumer} {m : Msg} {q : UInt32} {s : State} {older : List Act} {P : Act → Prop}
    (hk : c.hash = true → HashShown cfg u older) (hP : Due cfg u m q older P) :
    ∃ l a, (onMessage cfg env opts u c m q s).2.past = l ++ [a] ++ s.past ∧ P a := by
  cases hP with
  | call hd h1 h2 =>
    have e : onMessage cfg env opts u c m q s = onOther cfg env opts u c m q s := by
      unfold onMessage
      rw [extract_none h1, extract_none h2]
    rw [e]
    unfold onOther
    split
    · obtain ⟨l, h⟩ := kick_first (cfg := cfg) (env := env) u s
      exact ⟨l, _, h, .inl rfl⟩
    split
    · obtain ⟨l, h⟩ := kick_first (cfg := cfg) (env := env) u s
      exact ⟨l, _, h, .inl rfl⟩
    rw [isAssigned_true, if_neg (by simp)]
    unfold dispatch
    cases e : cfg.workflow.requests.findSome? (fun r =>
        r.request.bind (fun ref => (m.extract ref).map (fun b => (r, ref, b)))) with
    | some y =>
      obtain ⟨r, hr, e⟩ := List.exists_of_findSome?_eq_some e
      obtain ⟨ref, e1, e⟩ := Option.bind_eq_some_iff.1 e
      obtain ⟨b, e2, rfl⟩ := Option.map_eq_some_iff.1 e
      unfold start
      dsimp only
      obtain ⟨l, h⟩ := enter_first (cfg := cfg) (env := env) (.respond s.next u ref b q)
        { s with tasks := s.tasks ++ [(s.next, ⟨u, q, .request r, .user⟩)], next := s.next + 1 }
      exact ⟨l, _, h, .inr (.inl ⟨_, r, hr, ref, b, e1, (extract_iff _ _ _).1 e2, rfl⟩)⟩
    | none =>
      dsimp only
      cases e2 : cfg.workflow.beacons.findSome? (fun x =>
          (m.extract x.reference).map (fun b => (x.reference, b))) with
      | some y =>
        obtain ⟨x, hx, e3⟩ := List.exists_of_findSome?_eq_some e2
        obtain ⟨b, e4, rfl⟩ := Option.map_eq_some_iff.1 e3
        unfold start
        dsimp only
        obtain ⟨l, h⟩ := enter_first (cfg := cfg) (env := env) (.beacon s.next u x.reference b q)
          { s with tasks := s.tasks ++ [(s.next, ⟨u, q, .beacon, .user⟩)], next := s.next + 1 }
        exact ⟨l, _, h, .inr (.inr ⟨_, x, hx, b, (extract_iff _ _ _).1 e4, rfl⟩)⟩
      | none =>
        exfalso
        rw [List.findSome?_eq_none_iff] at e e2
        rcases hd with ⟨r, hr, ref, b, h1, h2⟩ | ⟨x, hx, b, h2⟩
        · have := e r hr
          rw [h1, Option.bind_some, (extract_iff _ _ _).2 h2] at this
          cases this
        · have := e2 x hx
          rw [(extract_iff _ _ _).2 h2] at this
          cases this
  | @hash b h1 h2 hp =>
    have e : onMessage cfg env opts u c m q s = onHash cfg env u c b q s := by
      unfold onMessage
      rw [extract_none h1, (extract_iff _ _ _).2 h2]
    rw [e]
    unfold onHash Proc.andThen post
    dsimp only
    rw [if_pos (hp _)]
    dsimp only
    split
    · exact ⟨[], _, rfl, _, rfl⟩
    · obtain ⟨l, h⟩ := kick_first (cfg := cfg) (env := env) u (s.push (.send .handshake u q (.hash !rightHash cfg b)))
      exact ⟨l ++ [.drop u], .send .handshake u q (.hash !rightHash cfg b), by rw [h]; simp [State.push], _, rfl⟩
  | @key k h1 h2 hp =>
    have hh : c.hash = false := by
      cases h : c.hash with
      | false => rfl
      | true => exact absurd (hk h) h2
    have e : onMessage cfg env opts u c m q s = onSelfKey cfg u c k q s := by
      unfold onMessage
      rw [(extract_iff _ _ _).2 h1, hh]
    rw [e]
    unfold onSelfKey post
    rw [if_pos hp]
    exact ⟨[], _, rfl, rfl⟩

theorem treated_onMessages {u : Uuid} : ∀ (ms : List (Rust.Income Msg)) {s : State}, Inv cfg none (some u) s → Treated cfg s.past →
    Treated cfg (onMessages cfg env opts u ms s).2.past
  | [], _, _, h => h
  | m :: ms, s, hs, ht => by
    unfold onMessages
    split
    · exact ht
    · rename_i c hc
      have h0 := hs.during u rfl
      have h1 : Inv cfg none (some u) ((s.set u { c with reader := ⟨c.reader.buffer, ms⟩ }).push
          (.got u m.msg m.header.sequence)) := by
        refine inv_push (inv_set hs hc (known_reader (hs.known u c hc) _)) trivial ?_ (by simp [taskOf])
        exact ⟨(hs.known u c hc).online, h0.2⟩
      have h2 := onMessage_inv (env := env) (opts := opts) (m := m.msg) (seq := m.header.sequence)
        (c := { c with reader := ⟨c.reader.buffer, ms⟩ })
        ⟨h1, find_set_self hc, s.past, rfl⟩
      obtain ⟨l, hl⟩ := frames_onMessage (G := fun _ => False) (cfg := cfg) (env := env) (opts := opts)
        (u := u) (c := { c with reader := ⟨c.reader.buffer, ms⟩ }) (m := m.msg) (seq := m.header.sequence)
        ((s.set u { c with reader := ⟨c.reader.buffer, ms⟩ }).push (.got u m.msg m.header.sequence))
      have h3 : Treated cfg (onMessage cfg env opts u { c with reader := ⟨c.reader.buffer, ms⟩ } m.msg m.header.sequence
          ((s.set u { c with reader := ⟨c.reader.buffer, ms⟩ }).push (.got u m.msg m.header.sequence))).2.past := by
        have e := hl.past
        rw [e]
        refine Treated.message (h := s.past) ht (fun P hP => ?_) ?_
        · obtain ⟨l', a, k1, k2⟩ := onMessage_first (cfg := cfg) (env := env) (opts := opts) (c := { c with reader := ⟨c.reader.buffer, ms⟩ })
            (s := (s.set u { c with reader := ⟨c.reader.buffer, ms⟩ }).push (.got u m.msg m.header.sequence))
            (hs.known u c hc).hash hP
          exact ⟨l', a, List.append_cancel_right (e.symm.trans k1), k2⟩
        · rintro b hb v m' q' rfl
          rcases hl.acts _ hb with k | ⟨v, k⟩
          · exact k.2.1 _ _ _ rfl
          · rcases k with k | k | k <;> cases k
      unfold Proc.andThen
      dsimp only
      split
      · rename_i s' e
        rw [e] at h2 h3
        exact treated_onMessages ms h2 h3
      · exact h3

theorem treated_step (i : Input) {s : State} (hs : Inv cfg none none s) (ht : Treated cfg s.past) :
    Treated cfg (step cfg env opts i s).2.past := by
  by_cases hi : ∃ u b, i = .received u b
  · obtain ⟨u, b, rfl⟩ := hi
    show Treated cfg (received cfg env opts u b s).2.past
    have h0 : Treated cfg (s.push (.chunk u)).past := Treated.adds (l := [.chunk u]) ht (by simp)
    have h1 := inv_chunk hs (u := u)
    have err : ∀ k s', Treated cfg s'.past → Treated cfg (receivingErr cfg env opts u k s').2.past := by
      intro k s' h
      obtain ⟨l, hl⟩ := frames_receivingErr (P := Inner u) (U := fun _ => False) (G := fun _ => False) (cfg := cfg) (env := env) (opts := opts)
        (u := u) (k := k) ⟨rfl, by simp, by simp⟩ ⟨rfl, by simp, by simp⟩ ⟨trivial, by simp, by simp⟩ s'
      rw [hl.past]
      refine h.adds ?_
      rintro b hb v m' q' rfl
      rcases hl.acts _ hb with k | ⟨v, k⟩
      · exact k.2.1 _ _ _ rfl
      · rcases k with k | k | k <;> cases k
    unfold received
    dsimp only
    cases hc : (s.push (.chunk u)).find u with
    | none => exact err _ _ h0
    | some c =>
      have hk := h1.known u c hc
      dsimp only
      split
      · exact err _ _ h0
      · rename_i hd
        have hset : ∀ r, Inv cfg none none ((s.push (.chunk u)).set u { c with reader := r }) :=
          fun r => inv_set h1 hc (known_reader hk r)
        split
        · exact h0
        · exact h0
        · exact err _ _ h0
        · rename_i r _
          refine treated_onMessages _ (inv_enter (hset r) (u := u) ?_ ?_) h0
          · rw [find_set_self hc]; rfl
          · refine ⟨[], s.past, rfl, by simp, by simp, ?_⟩
            exact (hs.known u c hc).trusted (by simpa using hd)
  · obtain ⟨l, hl⟩ := frames_step (cfg := cfg) (env := env) (opts := opts) i s
    rw [hl.past]
    refine ht.adds ?_
    rintro b hb v m' q' rfl
    rcases hl.acts _ hb with k | ⟨v, k⟩
    · obtain ⟨b, e⟩ := k.1 _ _ _ rfl
      exact hi ⟨_, b, e⟩
    · rcases k with k | k | k <;> cases k

theorem treated_run_from : ∀ (is : List Input) {s : State}, Inv cfg none none s → Treated cfg s.past →
    Treated cfg (run cfg env opts is s).2.past
  | [], _, _, h => h
  | i :: is, s, hs, ht => by
    have h1 := step_inv (env := env) (opts := opts) i s hs
    have h2 := treated_step (env := env) (opts := opts) i hs ht
    unfold run
    split
    · rename_i s' e
      rw [e] at h2
      exact h2
    · rename_i s' _ e
      rw [e] at h1 h2
      exact treated_run_from is h1 h2

theorem treated_new : Treated cfg State.new.past := by
  intro l u m q older e
  simp [State.new] at e

end Verif.TsServer
