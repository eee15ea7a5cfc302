import Verif.Proofs.ServerTreated
set_option autoImplicit false
/-!
What a Rust server does directly after it looked at a message of a handshake.
-/
namespace Verif.Server

open Verif

variable {P : Type} {cfg : Cfg P} {opts : Options} {env : Env P}

/-- The answer to a message of a handshake; `l` is what happened after it. A client with other hashes is dropped
after the answer, if it was not dropped before. -/
structure ShakeReply (cfg : Cfg P) (env : Env P) (u : Uuid) (m : In P) (q : UInt32) (older l : List (Act P)) : Prop where
  key : ∀ k, m = .msg cfg.selfKey k → ¬ HashShown u cfg.protocolHash cfg.workflowHash older → cfg.packs (.selfKey u) = true →
    ∃ l' s, l = l' ++ [.send u q (.selfKey u) (env.send s u q (.selfKey u))]
  hash : ∀ p w, m = .hash p w → (∀ e, cfg.packs (.hash e) = true) →
    ∃ l' s e, l = l' ++ [.send u q (.hash e) (env.send s u q (.hash e))] ∧ (e = false → p = cfg.protocolHash ∧ w = cfg.workflowHash) ∧
      (e = true → env.send s u q (.hash e) = true → .drop u ∈ l' ∨ .drop u ∈ older)

theorem ShakeReply.more {u : Uuid} {m : In P} {q : UInt32} {older l : List (Act P)} (k : List (Act P))
    (h : ShakeReply cfg env u m q older l) : ShakeReply cfg env u m q older (k ++ l) := by
  refine ⟨fun x h1 h2 h3 => ?_, fun p w h1 h2 => ?_⟩
  · obtain ⟨l', s, e⟩ := h.key x h1 h2 h3
    exact ⟨k ++ l', s, by rw [e, List.append_assoc]⟩
  · obtain ⟨l', s, e, h3, h4, h5⟩ := h.hash p w h1 h2
    exact ⟨k ++ l', s, e, by rw [h3, List.append_assoc], h4, fun h6 h7 => (h5 h6 h7).imp_left (List.mem_append_right _)⟩

/-- Every message of a handshake has such an answer. -/
def Shaken (cfg : Cfg P) (env : Env P) (h : List (Act P)) : Prop :=
  ∀ l u m q older, h = l ++ .got u m q :: older → ShakeReply cfg env u m q older l

theorem Shaken.adds {l h : List (Act P)} (ht : Shaken cfg env h) (hl : ∀ a ∈ l, ∀ u m q, a ≠ .got u m q) :
    Shaken cfg env (l ++ h) := by
  intro k u m q older e
  rcases List.append_eq_append_iff.1 e with ⟨t, e1, e2⟩ | ⟨t, e1, e2⟩
  · rw [e1]
    exact (ht t u m q older e2).more l
  · cases t with
    | nil =>
      rw [List.append_nil] at e1
      subst e1
      have := (ht [] u m q older (by simpa using e2.symm)).more l
      rwa [List.append_nil] at this
    | cons b t =>
      simp only [List.cons_append, List.cons.injEq] at e2
      exact absurd e2.1.symm (hl b (by rw [e1]; simp) u _ q)

theorem Shaken.message {h l : List (Act P)} {u : Uuid} {q : UInt32} {m : In P} (ht : Shaken cfg env h)
    (ha : ShakeReply cfg env u m q h l) (hl : ∀ b ∈ l, ∀ u m q, b ≠ .got u m q) : Shaken cfg env (l ++ .got u m q :: h) := by
  intro k u' m' q' older e
  rcases List.append_eq_append_iff.1 e with ⟨t, e1, e2⟩ | ⟨t, e1, e2⟩
  · cases t with
    | nil =>
      simp only [List.nil_append, List.cons.injEq, Act.got.injEq] at e2
      obtain ⟨⟨rfl, rfl, rfl⟩, rfl⟩ := e2
      rw [List.append_nil] at e1
      subst e1
      exact ha
    | cons b t =>
      simp only [List.cons_append, List.cons.injEq] at e2
      obtain ⟨rfl, e2⟩ := e2
      have := (ht t u' m' q' older e2).more (l ++ [.got u m q])
      rw [e1]
      simpa using this
  · cases t with
    | nil =>
      simp only [List.nil_append, List.cons.injEq, Act.got.injEq] at e2
      obtain ⟨⟨rfl, rfl, rfl⟩, rfl⟩ := e2
      rw [List.append_nil] at e1
      subst e1
      exact ha
    | cons b t =>
      simp only [List.cons_append, List.cons.injEq] at e2
      exact absurd e2.1.symm (hl b (by rw [e1]; simp) u' _ q')

/-! ### One message -/

theorem answer_past {u : Uuid} {q : UInt32} {o : Out P} {s : State P} (hp : cfg.packs o = true) :
    ∃ l, (answer cfg env opts u q o s).2.past = l ++ .send u q o (env.send s u q o) :: s.past := by
  unfold answer
  rw [if_neg (by simp [hp])]
  unfold send
  cases env.send s u q o with
  | true => exact ⟨[], rfl⟩
  | false =>
    obtain ⟨l, h⟩ := responsingErr_past (env := env) (opts := opts) u (s.push (.send u q o false))
    exact ⟨l, h⟩

theorem answer_taken {u : Uuid} {q : UInt32} {o : Out P} {s : State P} (hp : cfg.packs o = true) (hs : env.send s u q o = true) :
    answer cfg env opts u q o s = (.ok (), s.push (.send u q o true)) := by
  unfold answer
  rw [if_neg (by simp [hp])]
  unfold send
  rw [hs]

theorem kick_past (u : Uuid) (s : State P) : ∃ l, (kick env u s).2.past = l ++ s.past := by
  obtain ⟨l, h, _⟩ := (kick_local env u s).past
  exact ⟨l, h⟩

theorem onMessage_shaken {u : Uuid} {a k : Bool} {m : In P} {q : UInt32} {s : State P}
    (hi : Inv cfg opts (some (u, a, k)) s) (ht : Shaken cfg env s.past) :
    Shaken cfg env (onMessage cfg env opts u a k m q s).2.past := by
  cases hc : s.find u with
  | none =>
    unfold onMessage
    rw [hc]
    exact ht
  | some c =>
    have key : ∀ {t : State P}, Local (Inner u) u (s.push (.got u m q)) t →
        (∀ l, t.past = l ++ (s.push (.got u m q)).past → ShakeReply cfg env u m q s.past l) → Shaken cfg env t.past := by
      intro t hl ho
      obtain ⟨l, h1, h2⟩ := hl.past
      rw [h1, past_push]
      refine ht.message (ho l h1) ?_
      rintro b hb v m' q' rfl
      exact h2 _ hb
    unfold onMessage
    rw [hc]
    dsimp only
    split
    · rename_i p w
      refine key (onHash_local env u _ _ _ _ _) (fun l hl => ⟨(by rintro _ h; cases h), ?_⟩)
      rintro p' w' h hp
      cases h
      unfold onHash at hl
      split at hl
      · rename_i hne
        by_cases hs : env.send (s.push (.got u (.hash p w) q)) u q (.hash true) = true
        · unfold Proc.andThen at hl
          rw [answer_taken (hp true) hs] at hl
          dsimp only at hl
          have hc' : ((s.push (.got u (.hash p w) q)).push (.send u q (.hash true) true)).find u = some c := by
            rw [find_push, find_push]; exact hc
          cases hx : c.discredited with
          | false =>
            obtain ⟨l', h'⟩ := kick_drops (env := env) hc' hx
            rw [h'] at hl
            refine ⟨l' ++ [.drop u], s.push (.got u (.hash p w) q), true, ?_, (fun k => nomatch k), fun _ _ => .inl (by simp)⟩
            rw [hs]
            refine (List.append_cancel_right (bs := (s.push (.got u (.hash p w) q)).past) ?_).symm
            rw [← hl]
            simp [past_push]
          | true =>
            obtain ⟨l', h'⟩ := kick_past (env := env) u ((s.push (.got u (.hash p w) q)).push (.send u q (.hash true) true))
            rw [h'] at hl
            refine ⟨l', s.push (.got u (.hash p w) q), true, ?_, (fun k => nomatch k),
              fun _ _ => .inr (since_sub ((hi.known u c hc).discredited.1 hx))⟩
            rw [hs]
            refine (List.append_cancel_right (bs := (s.push (.got u (.hash p w) q)).past) ?_).symm
            rw [← hl]
            simp [past_push]
        · obtain ⟨l1, h1⟩ := answer_past (cfg := cfg) (env := env) (opts := opts) (u := u) (q := q) (s := s.push (.got u (.hash p w) q)) (hp true)
          obtain ⟨l2, h2⟩ := andThen_past (q := kick env u) h1 (kick_past u)
          rw [h2] at hl
          refine ⟨l2 ++ l1, s.push (.got u (.hash p w) q), true, ?_, (fun k => nomatch k), fun _ h => absurd h hs⟩
          refine (List.append_cancel_right (bs := (s.push (.got u (.hash p w) q)).past) ?_).symm
          rw [← hl]
          simp
      · rename_i heq
        obtain ⟨l1, h1⟩ := answer_past (cfg := cfg) (env := env) (opts := opts) (u := u) (q := q)
          (s := (s.push (.got u (.hash p w) q)).set u { c with hashAccepted := true }) (hp false)
        rw [h1] at hl
        refine ⟨l1, (s.push (.got u (.hash p w) q)).set u { c with hashAccepted := true }, false, ?_, fun _ => ?_, (fun k => nomatch k)⟩
        · refine (List.append_cancel_right (bs := (s.push (.got u (.hash p w) q)).past) ?_).symm
          rw [← hl]
          simp [past_set]
        · exact ⟨Classical.byContradiction (fun h => heq (.inl h)), Classical.byContradiction (fun h => heq (.inr h))⟩
    · rename_i ref p
      split
      · rename_i hk
        refine key (onSelfKey_local env u _ _ _ _) (fun l hl => ⟨?_, by rintro _ _ h; cases h⟩)
        rintro x h _ hp
        unfold onSelfKey at hl
        obtain ⟨l1, h1⟩ := answer_past (cfg := cfg) (env := env) (opts := opts) (u := u) (q := q)
          (s := (s.push (.got u (.msg ref p) q)).set u (c.setKey cfg.mergeKey p true)) hp
        rw [h1] at hl
        refine ⟨l1, (s.push (.got u (.msg ref p) q)).set u (c.setKey cfg.mergeKey p true), ?_⟩
        refine (List.append_cancel_right (bs := (s.push (.got u (.msg ref p) q)).past) ?_).symm
        rw [← hl]
        simp [past_set]
      · rename_i hk
        refine key (onOther_local env u _ _ _ _ _ _ _) (fun l hl => ⟨?_, by rintro _ _ h; cases h⟩)
        rintro x h hn _
        cases h
        refine absurd ⟨rfl, ?_⟩ hk
        cases hx : c.hashAccepted with
        | false => rfl
        | true => exact absurd ((hi.known u c hc).hash.1 hx) hn

theorem onMessages_shaken {u : Uuid} {a k : Bool} (ms : List (Rust.Income (In P))) {s : State P}
    (hi : Inv cfg opts (some (u, a, k)) s) (ht : Shaken cfg env s.past) :
    Shaken cfg env (onMessages cfg env opts u a k ms s).2.past := by
  induction ms generalizing s with
  | nil => exact ht
  | cons m ms ih =>
    rw [onMessages]
    have h1 := onMessage_keeps env (cfg := cfg) (opts := opts) (u := u) (a := a) (k := k) m.msg m.header.sequence s hi
    have h2 := onMessage_shaken (env := env) (m := m.msg) (q := m.header.sequence) hi ht
    unfold Proc.andThen
    split
    · rename_i t e
      rw [e] at h1 h2
      exact ih h1 h2
    · rename_i t e; rw [e] at h2; exact h2
    · rename_i t e; rw [e] at h2; exact h2

theorem shaken_of_still {s t : State P} (hg : ∃ l, t.past = l ++ s.past) (hs : ∀ u, System.heard u t.past = System.heard u s.past)
    (ht : Shaken cfg env s.past) : Shaken cfg env t.past := by
  obtain ⟨l, e⟩ := hg
  rw [e]
  refine ht.adds ?_
  rintro a ha u m q rfl
  have h := hs u
  rw [e, System.heard_append] at h
  have h' : System.heard u l = [] := by simpa using h
  have hm : (q, m) ∈ System.heard u l := System.mem_heard.2 ha
  rw [h'] at hm
  cases hm

theorem received_shaken (u : Uuid) (bytes : Bytes) {s : State P} (hi : Inv cfg opts none s) (ht : Shaken cfg env s.past) :
    Shaken cfg env (received cfg env opts u bytes s).2.past := by
  have h0 : Shaken cfg env (s.push (.chunk u)).past := ht.adds (l := [.chunk u]) (by simp)
  have quiet : ∀ {p : Proc P} (t : State P), (∀ v, System.IsStill v p) → (∃ l, (p t).2.past = l ++ t.past) → t.past = (s.push (.chunk u)).past →
      Shaken cfg env (p t).2.past := by
    intro p t h1 h2 h3
    exact shaken_of_still h2 (fun v => (h1 v t).heard) (by rw [h3]; exact h0)
  unfold received
  dsimp only
  split
  · exact quiet _ (fun v => System.still_responsingErr v u) (responsingErr_past u _) rfl
  · rename_i c hc
    split
    · exact quiet _ (fun v => System.still_kick v u) (kick_past u _) rfl
    · rename_i hcf
      split
      · exact h0
      · rename_i hd
        split
        · exact h0
        · rename_i r _
          exact onMessages_shaken r.queue (received_enters hc hcf hd hi r) h0
        · exact quiet _ (fun v => System.still_responsingErr v u) (responsingErr_past u _) rfl

theorem step_shaken (i : Input P) {s : State P} (hi : Inv cfg opts none s) (ht : Shaken cfg env s.past) :
    Shaken cfg env (step cfg env opts i s).2.past := by
  have hg : ∃ l, (step cfg env opts i s).2.past = l ++ s.past := step_grows env i s
  by_cases hr : ∃ u b, i = .received u b
  · obtain ⟨u, b, rfl⟩ := hr
    exact received_shaken u b hi ht
  · by_cases hcn : ∃ u, i = .connected u ∧ (s.find u).isSome = true
    · obtain ⟨u, rfl, hu⟩ := hcn
      have : step cfg env opts (.connected u) s = (.err, s) := by
        show addConnection cfg env u s = _
        unfold addConnection
        rw [if_pos hu]
      rw [this]
      exact ht
    · refine shaken_of_still hg (fun u => ?_) ht
      by_cases hcu : i = .connected u
      · subst hcu
        refine (System.opened_step ?_).1
        cases h : s.find u with
        | none => rfl
        | some c => exact absurd ⟨u, rfl, by rw [h]; rfl⟩ hcn
      · exact (System.still_step i hcu (fun b e => hr ⟨u, b, e⟩) s).heard

end Verif.Server
