import Verif.Proofs.NetworkInv
import Verif.Proofs.TsClientRead
set_option autoImplicit false
/-!
The TypeScript client as a program of `Model.Network`.
-/
namespace Verif.Network

open Verif Verif.Spec

variable {cfg : TsClient.Cfg} {env : TsClient.Env} {pack : UInt64 → UInt32 → TsClient.Out → Bytes}

theorem tsSent_append (a b : List TsClient.Act) : tsSent (a ++ b) = tsSent b ++ tsSent a := by
  induction a with
  | nil => simp [tsSent]
  | cons x a ih => cases x <;> simp [tsSent, ih]

theorem mem_tsSent {q : UInt32} {o : TsClient.Out} {h : List TsClient.Act} :
    (q, o) ∈ tsSent h ↔ ∃ w k, .sent w k o ∈ h ∧ k.toUInt32 = q := by
  induction h with
  | nil => simp [tsSent]
  | cons x h ih =>
    cases x with
    | sent w k out =>
      rw [tsSent, List.mem_append, List.mem_singleton, ih]
      simp only [List.mem_cons, TsClient.Act.sent.injEq, Prod.mk.injEq]
      constructor
      · rintro (⟨w', k', h1, h2⟩ | ⟨rfl, rfl⟩)
        · exact ⟨w', k', .inr h1, h2⟩
        · exact ⟨w, k, .inl ⟨rfl, rfl, rfl⟩, rfl⟩
      · rintro ⟨w', k', ⟨rfl, rfl, rfl⟩ | h1, h2⟩
        · exact .inr ⟨h2.symm, rfl⟩
        · exact .inl ⟨w', k', h1, h2⟩
    | _ => simp [tsSent, ih]

theorem tsOnMessages_grows (l : List (Rust.Income TsClient.Msg)) (s : TsClient.State) :
    s.past <:+ (TsClient.onMessages cfg env l s).past := by
  induction l generalizing s with
  | nil => exact List.suffix_refl _
  | cons x xs ih =>
    have h : s.past <:+ (TsClient.onMessage cfg env x { s with reader := ⟨s.reader.buffer, xs⟩ }).2.past := by
      unfold TsClient.onMessage
      dsimp only
      split
      · exact (List.suffix_cons _ _).trans (List.suffix_cons _ _)
      · unfold TsClient.offer
        split
        · unfold TsClient.callUser
          dsimp only
          refine List.IsSuffix.trans ?_ (TsClient.grows_enter _ _)
          exact (List.suffix_cons _ _).trans (List.suffix_cons _ _)
        · exact (List.suffix_cons _ _).trans (List.suffix_cons _ _)
    unfold TsClient.onMessages
    split
    · rename_i e; rw [e] at h; exact h
    · rename_i e; rw [e] at h; exact h.trans (ih _)

theorem tsRun_snoc (js : List TsClient.Input) (i : TsClient.Input) (s : TsClient.State) :
    TsClient.run cfg env (js ++ [i]) s =
      if (TsClient.run cfg env js s).1 then TsClient.run cfg env js s else TsClient.run cfg env [i] (TsClient.run cfg env js s).2 := by
  induction js generalizing s with
  | nil => rfl
  | cons j js ih =>
    rw [List.cons_append, TsClient.run, TsClient.run]
    cases TsClient.step cfg env s j with
    | none => rfl
    | some s' => exact ih s'

theorem tsReceived_past {b : Bytes} {s s' : TsClient.State} (h : TsClient.step cfg env s (.received b) = some s') :
    (∃ l, s'.past = l ++ s.past) ∧ TsClient.arrived s'.past = TsClient.arrived s.past ++ b := by
  simp only [TsClient.step, TsClient.received] at h
  split at h
  · cases h
  · cases h; exact ⟨⟨[_], rfl⟩, rfl⟩
  · cases h; exact ⟨⟨[_], rfl⟩, rfl⟩
  · cases h
    next r e =>
    obtain ⟨l1, l2, k1, k2, k3, k4, _⟩ :=
      TsClient.onMessages_reads (cfg := cfg) (env := env) r.queue { (s.push (.chunk b)) with reader := r } rfl
    refine ⟨?_, k3⟩
    obtain ⟨l, hl⟩ := tsOnMessages_grows (cfg := cfg) (env := env) r.queue { (s.push (.chunk b)) with reader := r }
    exact ⟨l ++ [.chunk b], by rw [← hl]; simp [TsClient.State.push]⟩

/-- What one event does: nothing, or an input of the client, or the client hangs. -/
theorem tsClient_step (e : ClientEvent TsClient.Input) (s : Bool × TsClient.State) :
    ((tsClient cfg env pack).step e s = s) ∨
    (s.1 = false ∧ ((tsClient cfg env pack).step e s) = (true, s.2)) ∨
    ∃ i s', s.1 = false ∧ TsClient.step cfg env s.2 i = some s' ∧ (tsClient cfg env pack).step e s = (false, s') ∧
      ((∃ b, e = .data b ∧ i = .received b) ∨ (e = .own i ∧ ∀ b, i ≠ .received b)) := by
  obtain ⟨x, s⟩ := s
  have go : ∀ i, ((TsClient.run cfg env [i] s) = (true, s)) ∨ ∃ s', TsClient.step cfg env s i = some s' ∧ TsClient.run cfg env [i] s = (false, s') := by
    intro i
    unfold TsClient.run
    cases h : TsClient.step cfg env s i with
    | none => exact .inl rfl
    | some s' => exact .inr ⟨s', rfl, rfl⟩
  cases x with
  | true => cases e <;> exact .inl rfl
  | false =>
    cases e with
    | data b =>
      rcases go (.received b) with h | ⟨s', h1, h2⟩
      · exact .inr (.inl ⟨rfl, h⟩)
      · exact .inr (.inr ⟨_, s', rfl, h1, h2, .inl ⟨b, rfl, rfl⟩⟩)
    | own i =>
      by_cases hi : tsOwn i = true
      · have he : (tsClient cfg env pack).step (.own i) (false, s) = TsClient.run cfg env [i] s := if_pos hi
        rw [he]
        rcases go i with h | ⟨s', h1, h2⟩
        · exact .inr (.inl ⟨rfl, h⟩)
        · exact .inr (.inr ⟨_, s', rfl, h1, h2, .inr ⟨rfl, by rintro b rfl; cases hi⟩⟩)
      · exact .inl (if_neg hi)

theorem tsClient_grows (e : ClientEvent TsClient.Input) (s : Bool × TsClient.State) :
    ∃ l, ((tsClient cfg env pack).step e s).2.past = l ++ s.2.past := by
  rcases tsClient_step (cfg := cfg) (env := env) (pack := pack) e s with h | ⟨_, h⟩ | ⟨i, s', _, h1, h2, h3⟩
  · exact ⟨[], by rw [h]; rfl⟩
  · exact ⟨[], by rw [h]; rfl⟩
  · rw [h2]
    rcases h3 with ⟨b, rfl, rfl⟩ | ⟨rfl, h3⟩
    · exact (tsReceived_past h1).1
    · obtain ⟨_, l, k, _⟩ := TsClient.adds_step h3 h1
      exact ⟨l, k⟩

theorem tsClient_sent (e : ClientEvent TsClient.Input) (s : Bool × TsClient.State) :
    ∃ l, (tsClient cfg env pack).sent ((tsClient cfg env pack).step e s) = (tsClient cfg env pack).sent s ++ l := by
  obtain ⟨l, h⟩ := tsClient_grows (cfg := cfg) (env := env) (pack := pack) e s
  refine ⟨tsSent l, ?_⟩
  have := congrArg tsSent h
  rw [tsSent_append] at this
  exact this

/-- What the client did is a run, and its bytes are the beginning of the data. -/
theorem tsClient_run (is : List (ClientEvent TsClient.Input)) :
    ∃ js, clientRun (tsClient cfg env pack) is = TsClient.run cfg env js .new ∧
      (∃ rest, fedWith is = TsClient.arrived (TsClient.run cfg env js .new).2.past ++ rest) ∧
      ((TsClient.run cfg env js .new).1 = false → fedWith is = TsClient.arrived (TsClient.run cfg env js .new).2.past) := by
  suffices h : ∀ r : List (ClientEvent TsClient.Input), ∃ js,
      clientRun (tsClient cfg env pack) r.reverse = TsClient.run cfg env js .new ∧
      (∃ rest, fedWith r.reverse = TsClient.arrived (TsClient.run cfg env js .new).2.past ++ rest) ∧
      ((TsClient.run cfg env js .new).1 = false → fedWith r.reverse = TsClient.arrived (TsClient.run cfg env js .new).2.past) by
    have := h is.reverse
    rwa [List.reverse_reverse] at this
  intro r
  induction r with
  | nil => exact ⟨[], rfl, ⟨[], rfl⟩, fun _ => rfl⟩
  | cons e r ih =>
    obtain ⟨js, h1, ⟨rest, h2⟩, h3⟩ := ih
    rw [List.reverse_cons, clientRun_snoc, h1, fedWith_append]
    by_cases hh : (TsClient.run cfg env js .new).1 = true
    · refine ⟨js, ?_, ⟨rest ++ fedWith [e], by rw [h2, List.append_assoc]⟩, fun k => by rw [hh] at k; cases k⟩
      generalize TsClient.run cfg env js .new = x at hh
      obtain ⟨x, s⟩ := x
      cases hh
      cases e <;> rfl
    · have hh : (TsClient.run cfg env js .new).1 = false := by simpa using hh
      have h3 := h3 hh
      by_cases hd : ∃ i, (e = .data i) ∨ ∃ j, e = .own j ∧ tsOwn j = true
      · obtain ⟨j, hj, hf⟩ : ∃ j, (tsClient cfg env pack).step e (TsClient.run cfg env js .new) = TsClient.run cfg env (js ++ [j]) .new ∧
            ((j = .received (fedWith [e])) ∨ (fedWith [e] = [] ∧ ∀ b, j ≠ .received b)) := by
          obtain ⟨i, rfl | ⟨j, rfl, hj⟩⟩ := hd
          · refine ⟨.received i, ?_, .inl (by simp [fedWith])⟩
            rw [tsRun_snoc, if_neg (by simp [hh])]
            generalize TsClient.run cfg env js .new = x at hh
            obtain ⟨x, s⟩ := x
            cases hh
            rfl
          · refine ⟨j, ?_, .inr ⟨rfl, by rintro b rfl; cases hj⟩⟩
            rw [tsRun_snoc, if_neg (by simp [hh])]
            generalize TsClient.run cfg env js .new = x at hh
            obtain ⟨x, s⟩ := x
            cases hh
            exact if_pos hj
        refine ⟨js ++ [j], hj, ?_⟩
        rw [tsRun_snoc, if_neg (by simp [hh]), h3]
        generalize TsClient.run cfg env js .new = x at hh
        obtain ⟨x, s⟩ := x
        cases hh
        rw [TsClient.run]
        cases hs : TsClient.step cfg env s j with
        | none => exact ⟨⟨_, rfl⟩, fun k => by cases k⟩
        | some s' =>
          have : TsClient.arrived s'.past = TsClient.arrived s.past ++ fedWith [e] := by
            rcases hf with rfl | ⟨hf, hj⟩
            · exact (tsReceived_past hs).2
            · obtain ⟨_, l, k1, k2⟩ := TsClient.adds_step hj hs
              rw [k1, TsClient.arrived_append (fun a ha => ha.1) l _ k2, hf, List.append_nil]
          exact ⟨⟨[], by rw [List.append_nil]; exact this.symm⟩, fun _ => this.symm⟩
      · refine ⟨js, ?_, ?_⟩
        · cases e with
          | data b => exact absurd ⟨b, .inl rfl⟩ hd
          | own j =>
            have hj : ¬ tsOwn j = true := fun k => hd ⟨[], .inr ⟨j, rfl, k⟩⟩
            generalize TsClient.run cfg env js .new = x at hh
            obtain ⟨x, s⟩ := x
            cases hh
            exact if_neg hj
        · have : fedWith [e] = [] := by
            cases e with
            | data b => exact absurd ⟨b, .inl rfl⟩ hd
            | own j => rfl
          rw [this, List.append_nil]
          exact ⟨⟨rest, h2⟩, fun _ => h3⟩

theorem tsClient_reads {is : List (ClientEvent TsClient.Input)} (hs : (fedWith is).length < 2 ^ 64) :
    ReadsOf cfg.decoder (fedWith is) (TsClient.looked (clientRun (tsClient cfg env pack) is).2.past) := by
  obtain ⟨js, h1, ⟨rest, h2⟩, _⟩ := tsClient_run (cfg := cfg) (env := env) (pack := pack) is
  rw [h1]
  obtain ⟨fs, k1, k2, k3, _⟩ := TsClient.reading_run cfg env js (by rw [h2, List.length_append] at hs; omega)
  refine ⟨fs, _, _, ?_, by rw [h2, k2, List.append_assoc], k3⟩
  intro f hf
  rcases k1 f hf with k | k
  · exact k.1
  · exact k.1

end Verif.Network
