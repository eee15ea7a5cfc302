import Verif.Proofs.NetworkInv
set_option autoImplicit false
/-!
What was sent stays sent, and connections stay: so what holds of all messages at the end of a run holds of them
before.
-/
namespace Verif.Network

open Verif Verif.Spec

variable {S : ServerProg} {C : ClientProg}

/-- The connection later. -/
structure Conn.Later (c c' : Conn C) : Prop where
  sent : ∃ l, C.sent c'.client = C.sent c.client ++ l
  gotUp : ∃ b, c'.gotUp = c.gotUp ++ b
  gotDown : ∃ b, c'.gotDown = c.gotDown ++ b

theorem Conn.Later.refl (c : Conn C) : c.Later c := ⟨⟨[], by simp⟩, ⟨[], by simp⟩, ⟨[], by simp⟩⟩

/-- All of it later. -/
structure Later (n n' : Net S C) : Prop where
  server : ∃ l, S.sent n'.server = S.sent n.server ++ l
  conns : ∀ u c, n.find u = some c → ∃ c', n'.find u = some c' ∧ c.Later c'

theorem Later.refl (n : Net S C) : Later n n := ⟨⟨[], by simp⟩, fun _ c h => ⟨c, h, .refl c⟩⟩

theorem later_serve (g : Growing S C) (ts : UInt64) (e : ServerEvent S.Own) (n : Net S C) : Later n (n.serve ts e) := by
  refine ⟨g.server e n.server, fun u c h => ?_⟩
  rw [find_serve, h]
  exact ⟨_, rfl, ⟨[], by simp⟩, ⟨[], by simp⟩, ⟨[], by simp⟩⟩

theorem Later.trans {a b c : Net S C} (h : Later a b) (k : Later b c) : Later a c := by
  obtain ⟨l, hl⟩ := h.server
  obtain ⟨m, hm⟩ := k.server
  refine ⟨⟨l ++ m, by rw [hm, hl, List.append_assoc]⟩, fun u x hx => ?_⟩
  obtain ⟨y, hy, ⟨l1, e1⟩, ⟨l2, e2⟩, ⟨l3, e3⟩⟩ := h.conns u x hx
  obtain ⟨z, hz, ⟨m1, f1⟩, ⟨m2, f2⟩, ⟨m3, f3⟩⟩ := k.conns u y hy
  exact ⟨z, hz, ⟨l1 ++ m1, by rw [f1, e1, List.append_assoc]⟩, ⟨l2 ++ m2, by rw [f2, e2, List.append_assoc]⟩,
    ⟨l3 ++ m3, by rw [f3, e3, List.append_assoc]⟩⟩

theorem later_set {n : Net S C} {u : Uuid} {c c' : Conn C} (hc : n.find u = some c) (h : c.Later c') : Later n (n.set u c') := by
  refine ⟨⟨[], by simp [Net.set]⟩, fun v x hx => ?_⟩
  by_cases e : v = u
  · subst e
    obtain rfl : c = x := Option.some.inj (hc.symm.trans hx)
    exact ⟨_, find_set_self hc, h⟩
  · exact ⟨x, by rw [find_set_other e]; exact hx, .refl x⟩

theorem later_step (g : Growing S C) (n : Net S C) (x : UInt64 × Event S C) : Later n (step n x) := by
  obtain ⟨ts, x⟩ := x
  cases x with
  | opened u =>
    unfold step
    dsimp only
    split
    · rename_i hc
      simp only [Bool.and_eq_true, Option.isNone_iff_eq_none] at hc
      refine Later.trans (b := { n with conns := n.conns ++ [(u, ⟨C.new, [], [], [], []⟩)] }) ⟨⟨[], by simp⟩, fun v c h => ?_⟩
        (later_serve g ts _ _)
      rw [find_snoc hc.1]
      split
      · rename_i e; subst e; rw [hc.1] at h; cases h
      · exact ⟨c, h, .refl c⟩
    · exact .refl n
  | lost u => exact later_serve g ts _ n
  | toServer u k =>
    unfold step
    dsimp only
    cases h : n.find u with
    | none => exact .refl n
    | some c => exact (later_set h ⟨⟨[], by simp⟩, ⟨_, rfl⟩, ⟨[], by simp⟩⟩).trans (later_serve g ts _ _)
  | toClient u k =>
    unfold step
    dsimp only
    cases h : n.find u with
    | none => exact .refl n
    | some c =>
      dsimp only
      split
      · exact later_set h ⟨g.client _ c.client, ⟨[], by simp [Conn.goOn]⟩, ⟨_, rfl⟩⟩
      · exact .refl n
  | server i => exact later_serve g ts _ n
  | client u i =>
    unfold step
    dsimp only
    cases h : n.find u with
    | none => exact .refl n
    | some c => exact later_set h ⟨g.client _ c.client, ⟨[], by simp [Conn.goOn]⟩, ⟨[], by simp [Conn.goOn]⟩⟩

theorem Framed.before {n n' : Net S C} (h : Framed n') (k : Later n n') : Framed n := by
  obtain ⟨l, hl⟩ := k.server
  refine ⟨fun u q o ho => h.down u q o (by rw [hl]; exact List.mem_append_left _ ho), fun u c hc q o ho => ?_⟩
  obtain ⟨c', h1, ⟨l, h2⟩, _⟩ := k.conns u c hc
  exact h.up u c' h1 q o (by rw [h2]; exact List.mem_append_left _ ho)

theorem Small.before {n n' : Net S C} (h : Small n') (k : Later n n') : Small n := by
  intro u c hc
  obtain ⟨c', h1, _, ⟨a, h2⟩, ⟨b, h3⟩⟩ := k.conns u c hc
  have := h u c' h1
  rw [h2, h3, List.length_append, List.length_append] at this
  omega

/-- A client after an event: it is new, or it did nothing, or it did something and the server nothing. -/
theorem step_conn {n : Net S C} {x : UInt64 × Event S C} {u : Uuid} {c' : Conn C} (h : (step n x).find u = some c') :
    c'.client = C.new ∨ ∃ c, n.find u = some c ∧
      (c'.client = c.client ∨ (step n x).server = n.server ∧ ∃ e, c'.client = C.step e c.client) := by
  have serve : ∀ {m : Net S C} {ts : UInt64} {e : ServerEvent S.Own}, (m.serve ts e).find u = some c' →
      ∃ c, m.find u = some c ∧ c'.client = c.client := by
    intro m ts e h
    rw [find_serve, Option.map_eq_some_iff] at h
    obtain ⟨c, h1, rfl⟩ := h
    exact ⟨c, h1, rfl⟩
  have set : ∀ {v : Uuid} {d d' : Conn C}, n.find v = some d → (n.set v d').find u = some c' →
      (u = v ∧ c' = d') ∨ n.find u = some c' := by
    intro v d d' hd h
    by_cases e : u = v
    · subst e
      rw [find_set_self hd] at h
      exact .inl ⟨rfl, (Option.some.inj h).symm⟩
    · rw [find_set_other e] at h; exact .inr h
  obtain ⟨ts, x⟩ := x
  cases x with
  | opened v =>
    unfold step at h
    dsimp only at h
    split at h
    · rename_i hc
      simp only [Bool.and_eq_true, Option.isNone_iff_eq_none] at hc
      obtain ⟨c, h1, h2⟩ := serve h
      rw [find_snoc hc.1] at h1
      split at h1
      · obtain rfl := Option.some.inj h1
        exact .inl h2
      · exact .inr ⟨c, h1, .inl h2⟩
    · exact .inr ⟨c', h, .inl rfl⟩
  | lost v =>
    obtain ⟨c, h1, h2⟩ := serve h
    exact .inr ⟨c, h1, .inl h2⟩
  | toServer v k =>
    unfold step at h
    dsimp only at h
    cases hv : n.find v with
    | none =>
      rw [hv] at h
      exact .inr ⟨c', h, .inl rfl⟩
    | some d =>
      rw [hv] at h
      obtain ⟨c, h1, h2⟩ := serve h
      by_cases e : u = v
      · subst e
        rw [find_set_self hv] at h1
        obtain rfl := Option.some.inj h1
        exact .inr ⟨d, hv, .inl h2⟩
      · rw [find_set_other e] at h1
        exact .inr ⟨c, h1, .inl h2⟩
  | toClient v k =>
    unfold step at h ⊢
    dsimp only at h ⊢
    cases hv : n.find v with
    | none =>
      rw [hv] at h
      exact .inr ⟨c', h, .inl rfl⟩
    | some d =>
      rw [hv] at h
      dsimp only at h ⊢
      split at h
      · rename_i hw
        rw [if_pos hw]
        rcases set hv h with ⟨rfl, rfl⟩ | h
        · exact .inr ⟨d, hv, .inr ⟨rfl, _, rfl⟩⟩
        · exact .inr ⟨c', h, .inl rfl⟩
      · exact .inr ⟨c', h, .inl rfl⟩
  | server i =>
    obtain ⟨c, h1, h2⟩ := serve h
    exact .inr ⟨c, h1, .inl h2⟩
  | client v i =>
    unfold step at h ⊢
    dsimp only at h ⊢
    cases hv : n.find v with
    | none =>
      rw [hv] at h
      exact .inr ⟨c', h, .inl rfl⟩
    | some d =>
      rw [hv] at h
      dsimp only at h ⊢
      rcases set hv h with ⟨rfl, rfl⟩ | h
      · exact .inr ⟨d, hv, .inr ⟨rfl, _, rfl⟩⟩
      · exact .inr ⟨c', h, .inl rfl⟩

end Verif.Network
