import Verif.Spec.ServerQuiet
import Verif.Proofs.SystemReads
import Verif.Proofs.ServerLoop
import Verif.Proofs.SystemCalls
set_option autoImplicit false
/-!
What a Rust server does directly after it looked at a message.
-/
namespace Verif.Server

open Verif

variable {P : Type} {cfg : Cfg P} {opts : Options} {env : Env P}

/-- What became of a message that was looked at; `l` is what happened after it. -/
def Outcome (cfg : Cfg P) (env : Env P) (opts : Options) (u : Uuid) (q : UInt32) (ref : Ref) (p : P) (older l : List (Act P)) : Prop :=
  .drop u ∈ l ∨ (∃ o, .send u q o true ∈ l) ∨ Unanswered cfg env opts u q ref p older l

theorem Outcome.more {u : Uuid} {q : UInt32} {ref : Ref} {p : P} {older l : List (Act P)} (k : List (Act P))
    (h : Outcome cfg env opts u q ref p older l) : Outcome cfg env opts u q ref p older (k ++ l) := by
  rcases h with h | ⟨o, h⟩ | h
  · exact .inl (List.mem_append_right _ h)
  · exact .inr (.inl ⟨o, List.mem_append_right _ h⟩)
  · refine .inr (.inr ?_)
    cases h with
    | unassigned h1 => rw [← List.append_assoc]; exact .unassigned h1
    | unpacked h1 h2 h3 h4 h5 => rw [← List.append_assoc]; exact .unpacked h1 h2 h3 h4 h5
    | unsent h1 h2 h3 h4 h5 => rw [← List.append_assoc]; exact .unsent h1 h2 h3 h4 h5
    | beacon h1 h2 h3 h4 => rw [← List.append_assoc]; exact .beacon h1 h2 h3 h4
    | unconfirmed h1 h2 h3 h4 => rw [← List.append_assoc]; exact .unconfirmed h1 h2 h3 h4

/-- Every message the server expects has such an outcome. -/
def Treated (cfg : Cfg P) (env : Env P) (opts : Options) (h : List (Act P)) : Prop :=
  ∀ l u ref p q older, h = l ++ .got u (.msg ref p) q :: older → Expected cfg ref → .drop u ∉ older →
    Outcome cfg env opts u q ref p older l

theorem Treated.adds {l h : List (Act P)} (ht : Treated cfg env opts h) (hl : ∀ a ∈ l, ∀ u m q, a ≠ .got u m q) :
    Treated cfg env opts (l ++ h) := by
  intro k u ref p q older e he hd
  rcases List.append_eq_append_iff.1 e with ⟨t, e1, e2⟩ | ⟨t, e1, e2⟩
  · rw [e1]
    exact (ht t u ref p q older e2 he hd).more l
  · cases t with
    | nil =>
      rw [List.append_nil] at e1
      subst e1
      have := (ht [] u ref p q older (by simpa using e2.symm) he hd).more l
      rwa [List.append_nil] at this
    | cons b t =>
      simp only [List.cons_append, List.cons.injEq] at e2
      exact absurd e2.1.symm (hl b (by rw [e1]; simp) u _ q)

theorem Treated.message {h l : List (Act P)} {u : Uuid} {q : UInt32} {m : In P} (ht : Treated cfg env opts h)
    (ha : ∀ ref p, m = .msg ref p → Expected cfg ref → .drop u ∉ h → Outcome cfg env opts u q ref p h l)
    (hl : ∀ b ∈ l, ∀ u m q, b ≠ .got u m q) : Treated cfg env opts (l ++ .got u m q :: h) := by
  intro k u' ref p q' older e he hd
  rcases List.append_eq_append_iff.1 e with ⟨t, e1, e2⟩ | ⟨t, e1, e2⟩
  · cases t with
    | nil =>
      simp only [List.nil_append, List.cons.injEq, Act.got.injEq] at e2
      obtain ⟨⟨rfl, rfl, rfl⟩, rfl⟩ := e2
      rw [List.append_nil] at e1
      subst e1
      exact ha ref p rfl he hd
    | cons b t =>
      simp only [List.cons_append, List.cons.injEq] at e2
      obtain ⟨rfl, e2⟩ := e2
      have := (ht t u' ref p q' older e2 he hd).more (l ++ [.got u m q])
      rw [e1]
      simpa using this
  · cases t with
    | nil =>
      simp only [List.nil_append, List.cons.injEq, Act.got.injEq] at e2
      obtain ⟨⟨rfl, rfl, rfl⟩, rfl⟩ := e2
      rw [List.append_nil] at e1
      subst e1
      exact ha ref p rfl he hd
    | cons b t =>
      simp only [List.cons_append, List.cons.injEq] at e2
      exact absurd e2.1.symm (hl b (by rw [e1]; simp) u' _ q')

/-! ### One message -/

theorem disconnect_drops {u : Uuid} {s : State P} {c : Consumer P} (hc : s.find u = some c) (hd : c.discredited = false) :
    (disconnect env u s).2.past = .drop u :: s.past := by
  unfold disconnect
  rw [hc]
  dsimp only
  rw [if_neg (by simp [hd])]
  rfl

theorem andThen_past {p q : Proc P} {s : State P} {h : List (Act P)} (hp : (p s).2.past = h)
    (hq : ∀ t, ∃ l, (q t).2.past = l ++ t.past) : ∃ l, (p.andThen q s).2.past = l ++ h := by
  unfold Proc.andThen
  split
  · rename_i t e
    rw [e] at hp
    obtain ⟨l, hl⟩ := hq t
    exact ⟨l, by rw [hl]; exact congrArg (l ++ ·) hp⟩
  · rename_i t e; rw [e] at hp; exact ⟨[], hp⟩
  · rename_i t e; rw [e] at hp; exact ⟨[], hp⟩

theorem emitError_past (v : Option Uuid) (s : State P) : (emitError env v s).2.past = [.error v] ++ s.past := rfl

theorem kick_drops {u : Uuid} {s : State P} {c : Consumer P} (hc : s.find u = some c) (hd : c.discredited = false) :
    ∃ l, (kick env u s).2.past = l ++ .drop u :: s.past :=
  andThen_past (disconnect_drops hc hd) (fun t => ⟨_, emitError_past _ t⟩)

theorem responsingErr_drops {u : Uuid} {s : State P} {c : Consumer P} (hc : s.find u = some c) (hd : c.discredited = false)
    (ho : Drops opts) : ∃ l, (responsingErr env opts u s).2.past = l ++ .drop u :: s.past := by
  unfold responsingErr
  refine andThen_past ?_ (fun t => ?_)
  · rw [if_pos (show opts.onError = .disconnect ∨ opts.onError = .emitErrorAndDisconnect from ho)]; exact disconnect_drops hc hd
  · split
    · exact ⟨_, emitError_past _ t⟩
    · exact ⟨[], rfl⟩

theorem responsingErr_past (u : Uuid) (s : State P) : ∃ l, (responsingErr env opts u s).2.past = l ++ s.past := by
  obtain ⟨l, h, _⟩ := (responsingErr_local (opts := opts) env u s).past
  exact ⟨l, h⟩

theorem unpacked_cast {bs : List Flow.Broadcast} {cs : Casts P bs} {c : Ref × Cast P} (h : c ∈ castList bs cs) :
    ∃ b us, b.reference = c.1 ∧ CastFor b us c.2.2 bs cs := by
  induction bs with
  | nil => cases h
  | cons b bs ih =>
    obtain ⟨ref, opt⟩ := b
    cases opt with
    | true =>
      obtain ⟨x, cs⟩ := cs
      cases x with
      | none =>
        obtain ⟨b, us, h1, h2⟩ := ih (cs := cs) h
        exact ⟨b, us, h1, .later h2⟩
      | some x =>
        rcases List.mem_cons.1 (show c ∈ (ref, x) :: castList bs cs from h) with rfl | h
        · exact ⟨⟨ref, true⟩, x.1, rfl, .chosen rfl⟩
        · obtain ⟨b, us, h1, h2⟩ := ih (cs := cs) h
          exact ⟨b, us, h1, .later h2⟩
    | false =>
      obtain ⟨x, cs⟩ := cs
      rcases List.mem_cons.1 (show c ∈ (ref, x) :: castList bs cs from h) with rfl | h
      · exact ⟨⟨ref, false⟩, x.1, rfl, .required rfl⟩
      · obtain ⟨b, us, h1, h2⟩ := ih (cs := cs) h
        exact ⟨b, us, h1, .later h2⟩

/-- The end of a request or beacon. -/
theorem finish_cases (u : Uuid) (q : UInt32) (o : Out P) (cs : List (Ref × Cast P)) (s : State P) :
    ((finish cfg env u q o cs s).1 = .err ∧ (finish cfg env u q o cs s).2 = s ∧
      (cfg.packs o = false ∨ ∃ c ∈ cs, cfg.packs (.msg c.1 c.2.2) = false)) ∨
    ((finish cfg env u q o cs s).1 = .err ∧ (finish cfg env u q o cs s).2 = s.push (.send u q o false)) ∨
    ((finish cfg env u q o cs s).1 = .ok () ∧ ∃ l, (finish cfg env u q o cs s).2.past = l ++ .send u q o true :: s.past) := by
  unfold finish
  split
  · rename_i h
    refine .inl ⟨rfl, rfl, ?_⟩
    cases hp : cfg.packs o with
    | false => exact .inl rfl
    | true =>
      rw [hp] at h
      right
      simpa using h
  · cases h : env.send s u q o with
    | false =>
      right; left
      unfold send
      rw [h]
      exact ⟨rfl, rfl⟩
    | true =>
      right; right
      unfold send
      rw [h]
      dsimp only
      obtain ⟨acts, _, e⟩ := broadcastAll_acts (env := env) cs (s.push (.send u q o true))
      refine ⟨rfl, .deferred :: acts.reverse, ?_⟩
      rw [e]
      rfl

/-- What the arm of a request does, without panic. -/
theorem process_cases {r : Flow.Request} {ref : Ref} (hr : r.request = some ref) (u : Uuid) (p : P) (q : UInt32) (s : State P) :
    (process cfg env r u p q s).1 = .panic ∨
    ((process cfg env r u p q s).1 = .err ∧ (process cfg env r u p q s).2 = s.push (.respond u ref q) ∧
      Unpackable cfg env r (s.push (.respond u ref q)) u p) ∨
    (∃ o l, Decides env r (s.push (.respond u ref q)) u p o l ∧ (process cfg env r u p q s).1 = .err ∧
      (process cfg env r u p q s).2 = (s.push (.respond u ref q)).push (.send u q o false)) ∨
    ((process cfg env r u p q s).1 = .ok () ∧
      ∃ o l, (process cfg env r u p q s).2.past = l ++ .send u q o true :: .respond u ref q :: s.past) := by
  have en : r.request.getD [] = ref := by rw [hr]; rfl
  unfold process
  rw [en]
  dsimp only
  have key : ∀ {o : Out P} {cs : List (Ref × Cast P)} {l : List (Uuid × Out P)},
      Decides env r (s.push (.respond u ref q)) u p o l →
      (∀ c ∈ cs, cfg.packs (.msg c.1 c.2.2) = false → Unpackable cfg env r (s.push (.respond u ref q)) u p) →
      (∃ rf x, o = .msg rf x) →
      (finish cfg env u q o cs (s.push (.respond u ref q))).1 = .panic ∨
      ((finish cfg env u q o cs (s.push (.respond u ref q))).1 = .err ∧
        (finish cfg env u q o cs (s.push (.respond u ref q))).2 = s.push (.respond u ref q) ∧
        Unpackable cfg env r (s.push (.respond u ref q)) u p) ∨
      (∃ o' l, Decides env r (s.push (.respond u ref q)) u p o' l ∧ (finish cfg env u q o cs (s.push (.respond u ref q))).1 = .err ∧
        (finish cfg env u q o cs (s.push (.respond u ref q))).2 = (s.push (.respond u ref q)).push (.send u q o' false)) ∨
      ((finish cfg env u q o cs (s.push (.respond u ref q))).1 = .ok () ∧
        ∃ o' l, (finish cfg env u q o cs (s.push (.respond u ref q))).2.past = l ++ .send u q o' true :: .respond u ref q :: s.past) := by
    intro o cs l hd hcs ho
    rcases finish_cases (cfg := cfg) (env := env) u q o cs (s.push (.respond u ref q)) with ⟨h1, h2, h3⟩ | ⟨h1, h2⟩ | ⟨h1, l', h2⟩
    · refine .inr (.inl ⟨h1, h2, ?_⟩)
      rcases h3 with h3 | ⟨c, hc, h3⟩
      · obtain ⟨rf, x, rfl⟩ := ho
        exact ⟨rf, x, h3, .inl ⟨l, hd⟩⟩
      · exact hcs c hc h3
    · exact .inr (.inr (.inl ⟨o, l, hd, h1, h2⟩))
    · exact .inr (.inr (.inr ⟨h1, o, l', h2⟩))
  split
  · rename_i h2
    split
    · exact .inl rfl
    · rename_i e hc
      exact key (.error h2 hc) (by simp) ⟨_, _, rfl⟩
    · rename_i i x casts hc
      obtain ⟨l, hl⟩ := System.castList_gives' _ casts
      refine key (.action h2 hc hl) (fun c hm hp => ?_) ⟨_, _, rfl⟩
      obtain ⟨b, us, k1, k2⟩ := unpacked_cast hm
      exact ⟨c.1, c.2.2, hp, .inr ⟨i, x, casts, b, us, hc, k1, k2⟩⟩
  · rename_i h2
    split
    · exact .inl rfl
    · rename_i e hc
      exact key (.plainError (by omega) hc) (by simp) ⟨_, _, rfl⟩
    · rename_i x hc
      exact key (.plain (by omega) hc) (by simp) ⟨_, _, rfl⟩

theorem emitBeacon_cases (ref : Ref) (u : Uuid) (p : P) (q : UInt32) (s : State P) :
    (emitBeacon cfg env ref u p q s).1 = .panic ∨
    ((emitBeacon cfg env ref u p q s).1 = .err ∧ (emitBeacon cfg env ref u p q s).2 = s.push (.beacon u ref q) ∧
      (env.beacon (s.push (.beacon u ref q)) ref u p = .err ∨ cfg.packs .beacon = false)) ∨
    (env.beacon (s.push (.beacon u ref q)) ref u p = .ok () ∧ (emitBeacon cfg env ref u p q s).1 = .err ∧
      (emitBeacon cfg env ref u p q s).2 = (s.push (.beacon u ref q)).push (.send u q .beacon false)) ∨
    ((emitBeacon cfg env ref u p q s).1 = .ok () ∧
      ∃ l, (emitBeacon cfg env ref u p q s).2.past = l ++ .send u q .beacon true :: .beacon u ref q :: s.past) := by
  unfold emitBeacon
  dsimp only
  split
  · exact .inl rfl
  · rename_i e
    exact .inr (.inl ⟨rfl, rfl, .inl e⟩)
  · rename_i e
    rcases finish_cases (cfg := cfg) (env := env) u q .beacon [] (s.push (.beacon u ref q)) with ⟨h1, h2, h3⟩ | ⟨h1, h2⟩ | ⟨h1, l', h2⟩
    · refine .inr (.inl ⟨h1, h2, .inr ?_⟩)
      rcases h3 with h3 | ⟨c, hc, _⟩
      · exact h3
      · cases hc
    · exact .inr (.inr (.inl ⟨e, h1, h2⟩))
    · exact .inr (.inr (.inr ⟨h1, l', h2⟩))

theorem dispatch_outcome {u : Uuid} {c : Consumer P} {ref : Ref} {p : P} {q : UInt32} {s : State P} {older : List (Act P)}
    (hs : s.past = .got u (.msg ref p) q :: older) (hc : s.find u = some c) (hd : c.discredited = false)
    (he : Expected cfg ref) (hok : (dispatch cfg env opts u ref p q s).1 = .ok ()) :
    ∃ l, (dispatch cfg env opts u ref p q s).2.past = l ++ s.past ∧ Outcome cfg env opts u q ref p older l := by
  revert hok
  unfold dispatch
  split
  · rename_i r hr
    have hm := List.mem_of_find?_eq_some hr
    have hn : r.request = some ref := by simpa using List.find?_some hr
    have e1 : (s.push (.respond u ref q)).past = .respond u ref q :: .got u (.msg ref p) q :: older := by rw [past_push, hs]
    rcases process_cases (cfg := cfg) (env := env) hn u p q s with h | ⟨h1, h2, h3⟩ | ⟨o, l, h0, h1, h2⟩ | ⟨h1, o, l, h2⟩
    · split
      · rename_i e; rw [e] at h; cases h
      · rename_i e; rw [e] at h; cases h
      · intro k; cases k
    · split
      · rename_i e; rw [e] at h1; cases h1
      · rename_i t e
        rw [e] at h2
        dsimp only at h2
        subst h2
        intro _
        by_cases hdr : Drops opts
        · obtain ⟨l, hl⟩ := responsingErr_drops (env := env) (s := s.push (.respond u ref q)) hc hd hdr
          exact ⟨l ++ [.drop u, .respond u ref q], by rw [hl]; simp, .inl (by simp)⟩
        · obtain ⟨l, hl⟩ := responsingErr_past (env := env) (opts := opts) u (s.push (.respond u ref q))
          exact ⟨l ++ [.respond u ref q], by rw [hl]; simp, .inr (.inr (.unpacked hm hn e1 h3 hdr))⟩
      · intro k; cases k
    · split
      · rename_i e; rw [e] at h1; cases h1
      · rename_i t e
        rw [e] at h2
        dsimp only at h2
        subst h2
        intro _
        by_cases hdr : Drops opts
        · obtain ⟨l, hl⟩ := responsingErr_drops (env := env) (s := (s.push (.respond u ref q)).push (.send u q o false)) hc hd hdr
          exact ⟨l ++ [.drop u, .send u q o false, .respond u ref q], by rw [hl]; simp, .inl (by simp)⟩
        · obtain ⟨l, hl⟩ := responsingErr_past (env := env) (opts := opts) u ((s.push (.respond u ref q)).push (.send u q o false))
          exact ⟨l ++ [.send u q o false, .respond u ref q], by rw [hl]; simp, .inr (.inr (.unsent hm hn e1 h0 hdr))⟩
      · intro k; cases k
    · split
      · rename_i t e
        rw [e] at h2
        intro _
        exact ⟨l ++ [.send u q o true, .respond u ref q], by rw [h2]; simp, .inr (.inl ⟨o, by simp⟩)⟩
      · rename_i e; rw [e] at h1; cases h1
      · intro k; cases k
  · rename_i hnone
    split
    · rename_i b hb
      have hm := List.mem_of_find?_eq_some hb
      have hn : b.reference = ref := by simpa using List.find?_some hb
      have e1 : (s.push (.beacon u ref q)).past = .beacon u ref q :: .got u (.msg ref p) q :: older := by rw [past_push, hs]
      rcases emitBeacon_cases (cfg := cfg) (env := env) ref u p q s with h | ⟨h1, h2, h3⟩ | ⟨h0, h1, h2⟩ | ⟨h1, l, h2⟩
      · split
        · rename_i e; rw [e] at h; cases h
        · rename_i e; rw [e] at h; cases h
        · intro k; cases k
      · split
        · rename_i e; rw [e] at h1; cases h1
        · rename_i t e
          rw [e] at h2
          dsimp only at h2
          subst h2
          intro _
          exact ⟨[.error (some u), .beacon u ref q], rfl, .inr (.inr (.beacon (l := [.error (some u)]) hm hn e1 h3))⟩
        · intro k; cases k
      · split
        · rename_i e; rw [e] at h1; cases h1
        · rename_i t e
          rw [e] at h2
          dsimp only at h2
          subst h2
          intro _
          exact ⟨[.error (some u), .send u q .beacon false, .beacon u ref q], rfl,
            .inr (.inr (.unconfirmed (l := [.error (some u)]) hm hn e1 h0))⟩
        · intro k; cases k
      · split
        · rename_i t e
          rw [e] at h2
          intro _
          exact ⟨l ++ [.send u q .beacon true, .beacon u ref q], by rw [h2]; simp, .inr (.inl ⟨.beacon, by simp⟩)⟩
        · rename_i e; rw [e] at h1; cases h1
        · intro k; cases k
    · rename_i hnb
      exfalso
      rcases he.declared with ⟨r, h1, h2⟩ | ⟨b, h1, h2⟩
      · rw [List.find?_eq_none] at hnone
        exact hnone r h1 (by simpa using h2)
      · rw [List.find?_eq_none] at hnb
        exact hnb b h1 (by simpa using h2)

theorem onOther_outcome {u : Uuid} {a k : Bool} {c : Consumer P} {ref : Ref} {p : P} {q : UInt32} {s : State P} {older : List (Act P)}
    (hs : s.past = .got u (.msg ref p) q :: older) (hc : s.find u = some c) (hd : c.discredited = false)
    (ha : a = false → opts.identification ≠ .ignore → Strict opts.identification)
    (he : Expected cfg ref) (hok : (onOther cfg env opts u a k c ref p q s).1 = .ok ()) :
    ∃ l, (onOther cfg env opts u a k c ref p q s).2.past = l ++ s.past ∧ Outcome cfg env opts u q ref p older l := by
  revert hok
  unfold onOther
  split
  · intro _
    obtain ⟨l, hl⟩ := kick_drops (env := env) hc hd
    exact ⟨l ++ [.drop u], by rw [hl]; simp, .inl (by simp)⟩
  split
  · intro _
    obtain ⟨l, hl⟩ := kick_drops (env := env) hc hd
    exact ⟨l ++ [.drop u], by rw [hl]; simp, .inl (by simp)⟩
  split
  · rename_i h
    intro _
    have h' : a = false ∧ opts.identification ≠ .ignore := by simpa using h
    by_cases hds : opts.identification = .disconnect ∨ opts.identification = .emitErrorAndDisconnect
    · rw [if_pos hds]
      obtain ⟨l, hl⟩ := andThen_past (p := disconnect env u) (q := if opts.identification = .emitError ∨ opts.identification = .emitErrorAndDisconnect then
          emitError env (some u) else .skip) (disconnect_drops (env := env) hc hd) (fun t => by
        split
        · exact ⟨_, emitError_past _ t⟩
        · exact ⟨[], rfl⟩)
      exact ⟨l ++ [.drop u], by rw [hl]; simp, .inl (by simp)⟩
    · have hE : opts.identification = .emitError := by
        rcases ha h'.1 h'.2 with h | h | h
        · exact h
        · exact absurd (.inl h) hds
        · exact absurd (.inr h) hds
      rw [if_neg hds, if_pos (.inl hE)]
      exact ⟨[.error (some u)], rfl, .inr (.inr (.unassigned (l := []) hE))⟩
  · exact dispatch_outcome hs hc hd he

theorem onMessage_treated {u : Uuid} {a k : Bool} {m : In P} {q : UInt32} {s : State P}
    (hi : Inv cfg opts (some (u, a, k)) s) (ha : a = false → opts.identification ≠ .ignore → Strict opts.identification)
    (ht : Treated cfg env opts s.past) (hok : (onMessage cfg env opts u a k m q s).1 = .ok ()) :
    Treated cfg env opts (onMessage cfg env opts u a k m q s).2.past := by
  cases hc : s.find u with
  | none =>
    unfold onMessage
    rw [hc]
    exact ht
  | some c =>
    have key : ∀ {t : State P}, Local (Inner u) u (s.push (.got u m q)) t →
        (∀ ref p, m = .msg ref p → Expected cfg ref → .drop u ∉ s.past →
          ∃ l, t.past = l ++ (s.push (.got u m q)).past ∧ Outcome cfg env opts u q ref p s.past l) → Treated cfg env opts t.past := by
      intro t hl ho
      obtain ⟨l, h1, h2⟩ := hl.past
      rw [h1, past_push]
      refine ht.message (fun ref p e1 e2 e3 => ?_) ?_
      · obtain ⟨l', h3, h4⟩ := ho ref p e1 e2 e3
        rw [h1] at h3
        rw [List.append_cancel_right h3]
        exact h4
      · rintro b hb v m' q' rfl
        exact h2 _ hb
    unfold onMessage at hok ⊢
    rw [hc] at hok ⊢
    dsimp only at hok ⊢
    split at hok
    · exact key (onHash_local env u _ _ _ _ _) (by rintro _ _ h; cases h)
    · rename_i ref p
      split at hok
      · rename_i hk
        rw [if_pos hk]
        refine key (onSelfKey_local env u _ _ _ _) ?_
        rintro ref' p' h he _
        cases h
        exact absurd hk.1 he.own
      · rename_i hk
        rw [if_neg hk]
        refine key (onOther_local env u _ _ _ _ _ _ _) ?_
        rintro ref' p' h he hnd
        cases h
        refine onOther_outcome rfl (by rw [find_push]; exact hc) ?_ ha he hok
        cases hx : c.discredited with
        | false => rfl
        | true => exact absurd (since_sub ((hi.known u c hc).discredited.1 hx)) hnd

theorem onMessages_treated {u : Uuid} {a k : Bool} (ms : List (Rust.Income (In P))) {s : State P}
    (hi : Inv cfg opts (some (u, a, k)) s) (ha : a = false → opts.identification ≠ .ignore → Strict opts.identification)
    (ht : Treated cfg env opts s.past) (hok : (onMessages cfg env opts u a k ms s).1 = .ok ()) :
    Treated cfg env opts (onMessages cfg env opts u a k ms s).2.past := by
  induction ms generalizing s with
  | nil => exact ht
  | cons m ms ih =>
    rw [onMessages] at hok ⊢
    have h1 := onMessage_keeps env (cfg := cfg) (opts := opts) (u := u) (a := a) (k := k) m.msg m.header.sequence s hi
    have h2 := onMessage_treated (env := env) (m := m.msg) (q := m.header.sequence) hi ha ht
    unfold Proc.andThen at hok ⊢
    split at hok
    · rename_i t e
      rw [e] at h1 h2
      exact ih h1 (h2 rfl) hok
    · cases hok
    · cases hok

theorem treated_of_still {s t : State P} (hg : ∃ l, t.past = l ++ s.past) (hs : ∀ u, System.heard u t.past = System.heard u s.past)
    (ht : Treated cfg env opts s.past) : Treated cfg env opts t.past := by
  obtain ⟨l, e⟩ := hg
  rw [e]
  refine ht.adds ?_
  rintro a ha u m q rfl
  have h := hs u
  rw [e, System.heard_append] at h
  have h' : System.heard u l = [] := by simpa using h
  have hm : (q, m) ∈ System.heard u l := System.mem_heard.2 ha
  rw [h'] at hm
  cases hm

theorem received_treated (u : Uuid) (bytes : Bytes) {s : State P} (hi : Inv cfg opts none s) (ht : Treated cfg env opts s.past)
    (hok : (received cfg env opts u bytes s).1 = .ok ()) : Treated cfg env opts (received cfg env opts u bytes s).2.past := by
  have h0 : Treated cfg env opts (s.push (.chunk u)).past := ht.adds (l := [.chunk u]) (by simp)
  have quiet : ∀ {p : Proc P} (t : State P), (∀ v, System.IsStill v p) → (∃ l, (p t).2.past = l ++ t.past) → t.past = (s.push (.chunk u)).past →
      Treated cfg env opts (p t).2.past := by
    intro p t h1 h2 h3
    exact treated_of_still h2 (fun v => (h1 v t).heard) (by rw [h3]; exact h0)
  revert hok
  unfold received
  dsimp only
  split
  · intro _
    exact quiet _ (fun v => System.still_responsingErr v u) (responsingErr_past u _) rfl
  · rename_i c hc
    split
    · intro _
      refine quiet _ (fun v => System.still_kick v u) ?_ rfl
      obtain ⟨l, h, _⟩ := (kick_local env u (s.push (.chunk u))).past
      exact ⟨l, h⟩
    · rename_i hcf
      split
      · exact fun _ => h0
      · rename_i hd
        split
        · intro k; cases k
        · rename_i r _
          refine onMessages_treated r.queue (received_enters hc hcf hd hi r) ?_ h0
          intro ha hne
          unfold Consumer.isAssigned at ha
          split at ha
          · split at ha
            · cases ha
            · cases ha
            · rename_i h1 h2
              unfold Strict
              cases h : opts.identification
              · exact absurd h h2
              · simp
              · simp
              · simp
              · exact absurd h h1
          · cases ha
        · intro _
          exact quiet _ (fun v => System.still_responsingErr v u) (responsingErr_past u _) rfl

theorem step_treated (i : Input P) {s : State P} (hi : Inv cfg opts none s) (ht : Treated cfg env opts s.past)
    (hok : (step cfg env opts i s).1 = .ok ()) : Treated cfg env opts (step cfg env opts i s).2.past := by
  have hg : ∃ l, (step cfg env opts i s).2.past = l ++ s.past := step_grows env i s
  by_cases hr : ∃ u b, i = .received u b
  · obtain ⟨u, b, rfl⟩ := hr
    exact received_treated u b hi ht hok
  · by_cases hcn : ∃ u, i = .connected u ∧ (s.find u).isSome = true
    · obtain ⟨u, rfl, hu⟩ := hcn
      have : step cfg env opts (.connected u) s = (.err, s) := by
        show addConnection cfg env u s = _
        unfold addConnection
        rw [if_pos hu]
      rw [this]
      exact ht
    · refine treated_of_still hg (fun u => ?_) ht
      by_cases hcu : i = .connected u
      · subst hcu
        refine (System.opened_step ?_).1
        cases h : s.find u with
        | none => rfl
        | some c => exact absurd ⟨u, rfl, by rw [h]; rfl⟩ hcn
      · exact (System.still_step i hcu (fun b e => hr ⟨u, b, e⟩) s).heard

end Verif.Server
