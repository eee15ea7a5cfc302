import Verif.Proofs.NetworkInv
import Verif.Proofs.SystemCalls
set_option autoImplicit false
/-!
The Rust server as a program of `Model.Network`.
-/
namespace Verif.Network

open Verif Verif.Spec

variable {P : Type} {cfg : Server.Cfg P} {env : Server.Env P} {opts : Server.Options}
  {pack : UInt64 → UInt32 → Server.Out P → Bytes}

theorem rustSent_append (a b : List (Server.Act P)) : rustSent (a ++ b) = rustSent b ++ rustSent a := by
  induction a with
  | nil => simp [rustSent]
  | cons x a ih =>
    cases x with
    | send v q o ok => cases ok <;> simp [rustSent, ih]
    | _ => simp [rustSent, ih]

theorem mem_rustSent {u : Uuid} {q : UInt32} {o : Server.Out P} {h : List (Server.Act P)} :
    (u, q, o) ∈ rustSent h ↔ .send u q o true ∈ h := by
  induction h with
  | nil => simp [rustSent]
  | cons x h ih =>
    cases x with
    | send v q' o' ok => cases ok <;> simp [rustSent, ih, or_comm]
    | _ => simp [rustSent, ih]

theorem sendsTo_rustSent (u : Uuid) (h : List (Server.Act P)) : sendsTo u (rustSent h) = System.sends u h := by
  induction h with
  | nil => rfl
  | cons x h ih =>
    cases x with
    | send v q o ok =>
      cases ok with
      | false => simpa [rustSent, System.sends] using ih
      | true =>
        simp only [rustSent, System.sends, sendsTo_append, ih, sendsTo]
        split <;> simp
    | _ => simpa [rustSent, System.sends] using ih

/-- The setup of `Model.System` with this server and some client. -/
def someSetup (cfg : Server.Cfg P) (env : Server.Env P) (opts : Server.Options) : System.Setup P :=
  ⟨cfg, env, opts, ⟨⟨0, fun _ _ => .err⟩, cfg.workflow, fun _ => false, fun _ => none⟩, fun _ _ _ => [], fun _ _ _ => []⟩

/-- One event of the server is one of the server in `Model.System`, or none. -/
theorem rustServer_step (e : ServerEvent (Server.Input P)) (s : Server.Exit × Server.State P) :
    ((rustServer cfg env opts pack).step e s = s ∧ rustInput e = none) ∨
    ∃ i, rustInput e = some i ∧ (rustServer cfg env opts pack).step e s = System.serverStep (someSetup cfg env opts) s.1 i s.2 := by
  obtain ⟨x, s⟩ := s
  unfold rustServer
  dsimp only
  cases rustInput e with
  | none => exact .inl ⟨rfl, rfl⟩
  | some i =>
    right
    refine ⟨i, rfl, ?_⟩
    cases x <;> rfl

theorem rustInput_own {e : ServerEvent (Server.Input P)} {i : Server.Input P} (h : rustInput e = some i) {u : Uuid}
    (he : ¬ Touches u e) : i ≠ .connected u ∧ ∀ b, i ≠ .received u b := by
  cases e with
  | opened v =>
    cases h
    refine ⟨?_, by simp⟩
    rintro k
    cases k
    exact he (.inl rfl)
  | closed v => cases h; simp
  | data v b =>
    cases h
    refine ⟨by simp, ?_⟩
    rintro b' k
    cases k
    exact he (.inr ⟨b, rfl⟩)
  | own j =>
    have h : (if System.ownServer j then some j else none) = some i := h
    split at h
    · rename_i hj
      cases h
      constructor
      · rintro rfl; cases hj
      · rintro b rfl; cases hj
    · cases h

theorem rustServer_grows (e : ServerEvent (Server.Input P)) (s : Server.Exit × Server.State P) :
    ∃ l, ((rustServer cfg env opts pack).step e s).2.past = l ++ s.2.past := by
  rcases rustServer_step (pack := pack) (cfg := cfg) (env := env) (opts := opts) e s with ⟨h, _⟩ | ⟨i, _, h⟩
  · exact ⟨[], by rw [h]; rfl⟩
  · rw [h]; exact System.serverStep_grows (w := someSetup cfg env opts) s.1 i s.2

theorem rustServer_sent (e : ServerEvent (Server.Input P)) (s : Server.Exit × Server.State P) :
    ∃ l, (rustServer cfg env opts pack).sent ((rustServer cfg env opts pack).step e s) = (rustServer cfg env opts pack).sent s ++ l := by
  obtain ⟨l, h⟩ := rustServer_grows (pack := pack) (cfg := cfg) (env := env) (opts := opts) e s
  refine ⟨rustSent l, ?_⟩
  have := congrArg rustSent h
  rw [rustSent_append] at this
  exact this

/-- What is known of the server after any events. -/
structure RustKnown (cfg : Server.Cfg P) (env : Server.Env P) (es : List (ServerEvent (Server.Input P)))
    (s : Server.Exit × Server.State P) : Prop where
  just : System.J cfg env s.2
  none : ∀ u, (∀ e ∈ es, ¬ Touches u e) → s.2.find u = none ∧ System.heard u s.2.past = []
  once : ∀ u, Once u es → System.Heard cfg.decoder u (dataOf u es) (s.1 = .running) s.2

theorem rustKnown_run (es : List (ServerEvent (Server.Input P))) :
    RustKnown cfg env es (serverRun (rustServer cfg env opts pack) es) := by
  suffices h : ∀ r : List (ServerEvent (Server.Input P)), RustKnown cfg env r.reverse (serverRun (rustServer cfg env opts pack) r.reverse) by
    have := h es.reverse
    rwa [List.reverse_reverse] at this
  intro r
  induction r with
  | nil =>
    refine ⟨trivial, fun _ _ => ⟨rfl, rfl⟩, ?_⟩
    rintro u ⟨a, b, h, _⟩
    simp at h
  | cons e r ih =>
    rw [List.reverse_cons]
    generalize r.reverse = es at ih
    rw [serverRun_snoc]
    generalize serverRun (rustServer cfg env opts pack) es = s at ih
    have step := rustServer_step (pack := pack) (cfg := cfg) (env := env) (opts := opts) e s
    have none' : ∀ u, (∀ x ∈ es, ¬ Touches u x) → ¬ Touches u e →
        ((rustServer cfg env opts pack).step e s).2.find u = none ∧
          System.heard u ((rustServer cfg env opts pack).step e s).2.past = [] := by
      intro u h1 h2
      obtain ⟨k1, k2⟩ := ih.none u h1
      rcases step with ⟨h, _⟩ | ⟨i, hi, h⟩
      · rw [h]; exact ⟨k1, k2⟩
      · rw [h]
        obtain ⟨g1, g2⟩ := rustInput_own hi h2
        have := System.serverStep_still (w := someSetup cfg env opts) s.1 s.2 g1 g2
        exact ⟨System.still_none this k1, this.heard.trans k2⟩
    refine ⟨?_, ?_, ?_⟩
    · rcases step with ⟨h, _⟩ | ⟨i, _, h⟩
      · rw [h]; exact ih.just
      · rw [h]; exact System.serverStep_j (w := someSetup cfg env opts) ih.just
    · intro u hu
      exact none' u (fun x hx => hu x (List.mem_append_left _ hx)) (hu e (by simp))
    · intro u ho
      rcases ho.cases with ⟨rfl, h2⟩ | ⟨h1, h2⟩
      · obtain ⟨k1, k2⟩ := ih.none u h2
        rw [dataOf_append, dataOf_untouched h2]
        show System.Heard cfg.decoder u [] _ _
        rcases step with ⟨h, k⟩ | ⟨i, hi, h⟩
        · cases k
        · cases hi
          rw [h]
          rcases System.serverStep_cases (w := someSetup cfg env opts) s.1 (.connected u) s.2 with ⟨k, k'⟩ | ⟨k0, k, k'⟩
          · rw [k]
            exact ⟨⟨[], [], [], by simp, rfl, by rw [k2]; rfl⟩, fun hr => absurd hr k'⟩
          · rw [k]
            obtain ⟨g1, g2⟩ := System.opened_step (cfg := cfg) (env := env) (opts := opts) k1
            rw [k2] at g1
            refine ⟨⟨[], [], [], by simp, rfl, ?_⟩, ?_⟩
            · show [] = System.heard u (Server.step cfg env opts (.connected u) s.2).2.past ++ []
              rw [g1]; rfl
            · intro _ c hc hd
              refine ⟨[], by simp, ?_, ?_, .inl (by rw [g2 c hc]; exact ⟨System.noFrame_nil, rfl⟩)⟩
              · rw [g2 c hc]; rfl
              · show [] = System.heard u (Server.step cfg env opts (.connected u) s.2).2.past ++ _
                rw [g1, g2 c hc]; rfl
      · have hh := ih.once u h2
        rw [dataOf_append]
        by_cases ht : Touches u e
        · rcases ht with rfl | ⟨b, rfl⟩
          · exact absurd rfl h1
          · have : dataOf u [(.data u b : ServerEvent (Server.Input P))] = b := by simp [dataOf]
            rw [this]
            rcases step with ⟨h, k⟩ | ⟨i, hi, h⟩
            · cases k
            · cases hi
              rw [h]
              exact System.serverStep_received (w := someSetup cfg env opts) hh
        · rw [dataOf_untouched (es := [e]) (by simpa using ht), List.append_nil]
          rcases step with ⟨h, k⟩ | ⟨i, hi, h⟩
          · rw [h]; exact hh
          · rw [h]
            obtain ⟨g1, g2⟩ := rustInput_own hi ht
            exact System.serverStep_heard (w := someSetup cfg env opts) hh g1 g2

/-- What the server looked at is in the data. -/
theorem rustServer_reads {es : List (ServerEvent (Server.Input P))} {u : Uuid} (h : Once u es) :
    ReadsOf cfg.decoder (dataOf u es) (System.heard u (serverRun (rustServer cfg env opts pack) es).2.past) :=
  ((rustKnown_run es).once u h).part

end Verif.Network
