import Verif.Spec.Server
set_option autoImplicit false
/-!
What the generated code for requests, beacons and events does, act by act.
-/
namespace Verif.Server

open Verif

variable {P : Type} {cfg : Cfg P} {env : Env P}

theorem Attempts.append {l m : List (Uuid × Out P)} {a b : List (Act P)} (h : Attempts l a)
    (k : Attempts m b) : Attempts (l ++ m) (a ++ b) := by
  induction h with
  | nil => exact k
  | cons _ ih => exact .cons ih

theorem broadcast_acts (o : Out P) (us : List Uuid) (s : State P) :
    ∃ acts, Attempts (us.map (fun u => (u, o))) acts ∧
      broadcast env o us s = { s with past := acts.reverse ++ s.past } := by
  induction us generalizing s with
  | nil => exact ⟨[], .nil, rfl⟩
  | cons u us ih =>
    obtain ⟨acts, h, e⟩ := ih (send env u 0 o s).2
    refine ⟨.send u 0 o (env.send s u 0 o) :: acts, .cons h, ?_⟩
    rw [broadcast, e]
    simp [send, State.push]

/-- The messages of a list of broadcasts. -/
def flat (cs : List (Ref × Cast P)) : List (Uuid × Out P) :=
  cs.flatMap (fun c => c.2.1.map (fun u => (u, .msg c.1 c.2.2)))

theorem broadcastAll_acts (cs : List (Ref × Cast P)) (s : State P) :
    ∃ acts, Attempts (flat cs) acts ∧
      broadcastAll env cs s = { s with past := acts.reverse ++ s.past } := by
  induction cs generalizing s with
  | nil => exact ⟨[], .nil, rfl⟩
  | cons c cs ih =>
    obtain ⟨r, us, p⟩ := c
    obtain ⟨a1, h1, e1⟩ := broadcast_acts (env := env) (.msg r p) us s
    obtain ⟨a2, h2, e2⟩ := ih (broadcast env (.msg r p) us s)
    refine ⟨a1 ++ a2, h1.append h2, ?_⟩
    rw [broadcastAll, e2, e1]
    simp

theorem castList_gives : (bs : List Flow.Broadcast) → (cs : Casts P bs) →
    Gives bs cs (flat (castList bs cs))
  | [], () => .nil
  | ⟨_, true⟩ :: bs, (some (_, _), cs) => .chosen (castList_gives bs cs)
  | ⟨_, true⟩ :: bs, (none, cs) => .omitted (castList_gives bs cs)
  | ⟨_, false⟩ :: bs, ((_, _), cs) => .required (castList_gives bs cs)

theorem finish_acts (u : Uuid) (seq : UInt32) (o : Out P) (cs : List (Ref × Cast P)) (s : State P) :
    ∃ acts, Answers u seq o (flat cs) (finish cfg env u seq o cs s).1 acts ∧
      (finish cfg env u seq o cs s).2 = { s with past := acts.reverse ++ s.past } := by
  unfold finish
  split
  · exact ⟨[], .unpacked, rfl⟩
  · cases h : env.send s u seq o with
    | false =>
      refine ⟨[.send u seq o false], ?_, ?_⟩
      · simp only [send, h]; exact .failed
      · simp only [send, h]; rfl
    | true =>
      obtain ⟨acts, h1, e⟩ := broadcastAll_acts (env := env) cs (s.push (.send u seq o true))
      refine ⟨.send u seq o true :: acts ++ [.deferred], ?_, ?_⟩
      · simp only [send, h]; exact .sent h1
      · simp only [send, h, e]
        simp [State.push]

theorem finish_pure (u : Uuid) (seq : UInt32) (o : Out P) (cs : List (Ref × Cast P)) (s : State P)
    (hp : cfg.packs o = true) (hc : ∀ c ∈ cs, cfg.packs (.msg c.1 c.2.2) = true)
    (hs : env.send s u seq o = true) : (finish cfg env u seq o cs s).1 = .ok () := by
  unfold finish
  rw [if_neg (by simpa [hp] using hc)]
  simp [send, hs]

/-- Required broadcasts always have receivers and content. -/
theorem castFor_required : (bs : List Flow.Broadcast) → (cs : Casts P bs) → (ref : Ref) →
    ⟨ref, false⟩ ∈ bs → ∃ us p, CastFor ⟨ref, false⟩ us p bs cs
  | b :: bs, (v, cs), ref, h => by
    rcases List.mem_cons.1 h with e | h
    · subst e
      exact ⟨v.1, v.2, .required rfl⟩
    · obtain ⟨us, p, k⟩ := castFor_required bs cs ref h
      exact ⟨us, p, .later k⟩

theorem CastFor.mem {b : Flow.Broadcast} {us : List Uuid} {p : P} {bs : List Flow.Broadcast}
    {cs : Casts P bs} (h : CastFor b us p bs cs) {l : List (Uuid × Out P)} (g : Gives bs cs l) :
    ∀ u ∈ us, (u, .msg b.reference p) ∈ l := by
  induction h generalizing l with
  | required e =>
    subst e
    cases g with
    | required g => intro u hu; exact List.mem_append_left _ (List.mem_map.2 ⟨u, hu, rfl⟩)
  | chosen e =>
    subst e
    cases g with
    | chosen g => intro u hu; exact List.mem_append_left _ (List.mem_map.2 ⟨u, hu, rfl⟩)
  | later _ ih =>
    cases g with
    | required g => intro u hu; exact List.mem_append_right _ (ih g u hu)
    | chosen g => intro u hu; exact List.mem_append_right _ (ih g u hu)
    | omitted g => exact ih g

theorem Attempts.mem {l : List (Uuid × Out P)} {acts : List (Act P)} (h : Attempts l acts)
    {u : Uuid} {o : Out P} (m : (u, o) ∈ l) : ∃ ok, .send u 0 o ok ∈ acts := by
  induction h with
  | nil => cases m
  | @cons v x ok l acts _ ih =>
    rcases List.mem_cons.1 m with e | m
    · injection e with e1 e2
      subst e1 e2
      exact ⟨ok, List.mem_cons_self⟩
    · obtain ⟨ok, k⟩ := ih m
      exact ⟨ok, List.mem_cons_of_mem _ k⟩

theorem emitEvent_acts (e : Flow.Event) (p : Option P) (s : State P) :
    (∀ casts, env.emit (s.push (.event (e.reference.getD []))) e p = .ok casts →
      ((emitEvent cfg env e p s).1 = .ok () ∧ ∃ l acts, Gives e.broadcasts casts l ∧
        Attempts l acts ∧ (emitEvent cfg env e p s).2.past =
          .deferred :: acts.reverse ++ .event (e.reference.getD []) :: s.past) ∨
      ((emitEvent cfg env e p s).1 = .err ∧ (emitEvent cfg env e p s).2.past =
        .event (e.reference.getD []) :: s.past)) ∧
    (env.emit (s.push (.event (e.reference.getD []))) e p = .err →
      (emitEvent cfg env e p s).1 = .err ∧ (emitEvent cfg env e p s).2.past =
        .event (e.reference.getD []) :: s.past) := by
  constructor
  · intro casts h
    unfold emitEvent
    simp only [h]
    split
    · exact .inr ⟨rfl, rfl⟩
    · obtain ⟨acts, h1, h2⟩ := broadcastAll_acts (env := env) (castList e.broadcasts casts)
        (s.push (.event (e.reference.getD [])))
      exact .inl ⟨rfl, _, acts, castList_gives _ casts, h1, by rw [h2]; rfl⟩
  · intro h
    unfold emitEvent
    dsimp only
    rw [h]
    exact ⟨rfl, rfl⟩

end Verif.Server
