import Verif.Proofs.CliDone
import Verif.Proofs.CliReject
import Verif.Proofs.CliEnds
set_option autoImplicit false
/-!
When a call of the command line tool succeeds.
-/
namespace Verif.Cli

open Verif Verif.Cli.Spec
open Verif.Files (Name Dir Path Content World)
open Verif.Flow (Target)

/-- Files can be written and removed. -/
def Writable (env : Env) : Prop := ∀ d p, env.canWrite d p = true ∧ env.canRemove d p = true

theorem write_succeeds {env : Env} (h : Writable env) (p : Dir) (c : Content) (d : Disk) :
    (write env p c d).2 = .ok := by
  unfold write
  rw [(h d (asFile p)).2, (h (d.cleared p) (asFile p)).1]
  simp

theorem output_succeeds {env : Env} (h : Writable env) {t : Target} {ow e : Bool} {s : Prot.Store} {dest : Option Dir}
    {d : Disk} (hr : dest.isSome = true → env.renders t e s = .ok)
    (hd : ow = true ∨ ∀ p, dest = some p → d.has p = false) : (output env t ow e s dest d).2 = .ok := by
  unfold output
  cases dest with
  | none => rfl
  | some p =>
    simp only
    rw [if_neg, if_neg, hr rfl]
    · exact write_succeeds h p _ _
    · rw [(h d (asFile p)).2]
      simp
    · rcases hd with rfl | hd
      · simp
      · rw [hd p rfl]
        simp

theorem put_dirs (d : Disk) (p : Path) (c : Option Content) : (d.put p c).dirs = d.dirs := rfl

theorem cleared_dirs (d : Disk) (p : Dir) : (d.cleared p).dirs = d.dirs := by
  unfold Disk.cleared
  split <;> rfl

theorem write_dirs (env : Env) (p : Dir) (c : Content) (d : Disk) : (write env p c d).1.dirs = d.dirs := by
  unfold write
  split
  · rfl
  · split
    · rw [put_dirs, cleared_dirs]
    · exact cleared_dirs d p

theorem output_dirs (env : Env) (t : Target) (ow e : Bool) (s : Prot.Store) (dest : Option Dir) (d : Disk) :
    (output env t ow e s dest d).1.dirs = d.dirs := by
  unfold output
  split
  · rfl
  · split
    · rfl
    · split
      · rfl
      · split
        · rw [write_dirs, cleared_dirs]
        · exact cleared_dirs d _

theorem drawing_dirs (env : Env) (p : Dir) (w : Flow.Store) (d : Disk) : (drawing env p w d).1.dirs = d.dirs := by
  unfold drawing
  split
  · exact write_dirs env p _ d
  · rfl

/-- A path not written to is still free. -/
theorem free_of_kept {a b : Disk} {p : Dir} (h : a.has p = false) (hd : b.dirs = a.dirs) (hk : Kept a b (asFile p)) :
    b.has p = false := by
  unfold Disk.has at h ⊢
  rw [hd, hk.1]
  cases hm : manifestOf (asFile p) with
  | none => rw [hm] at h; exact h
  | some t =>
    rw [hm] at h
    simp only at h ⊢
    rw [hk.2 t hm]
    exact h

theorem protocolCode_succeeds {env : Env} (h : Writable env) {ow e : Bool} {o : Opts} {s : Prot.Store} {d : Disk}
    (hr : ∀ t, (match t with | .rust => o.rs | .typescript => o.ts).isSome = true → env.renders t e s = .ok)
    (hd : ow = true ∨ ((∀ p, o.rs = some p → d.has p = false) ∧ (∀ p, o.ts = some p → d.has p = false) ∧
      ∀ p q, o.rs = some p → o.ts = some q → asFile p ≠ asFile q)) : (protocolCode env ow e o s d).2 = .ok := by
  unfold protocolCode
  have h1 : (output env .rust ow e s o.rs d).2 = .ok :=
    output_succeeds h (hr .rust) (hd.imp id fun h => h.1)
  have h2 : (output env .typescript ow e s o.ts (output env .rust ow e s o.rs d).1).2 = .ok := by
    refine output_succeeds h (hr .typescript) (hd.imp id fun ⟨_, h2, h3⟩ p hp => ?_)
    refine free_of_kept (h2 p hp) (output_dirs _ _ _ _ _ _ _) ?_
    exact output_kept (.inl fun q hq he => h3 q p hq hp he.symm)
  have : andThen (output env .rust ow e s o.rs d) (fun d => output env .typescript ow e s o.ts d) =
      output env .typescript ow e s o.ts (output env .rust ow e s o.rs d).1 := by
    generalize output env .rust ow e s o.rs d = r at h1
    obtain ⟨d2, r⟩ := r
    cases h1
    rfl
  rw [this]
  exact h2

/-- An action with nothing in its way. -/
theorem action_succeeds {env : Env} {ow e : Bool} {o : Opts} {d : Disk} {p : Dir} {text : List Char}
    {s s2 : Prot.Store} (hp : o.src = some p) (ht : env.read d (asFile p) = some text)
    (hs : Prot.Parses text (.accepted s)) {mid : Disk}
    (hm : (o.workflow = none ∧ o.uml = none ∧ mid = d ∧ s2 = s) ∨
      ∃ wp wt w, o.workflow = some wp ∧ env.read d (asFile wp) = some wt ∧ Flow.Parses s wt (.accepted w s2) ∧
        (match o.uml with
          | some u => drawing env u w d
          | none => workflowCode o.consumer o.producer w d) = (mid, .ok))
    (hok : (protocolCode env ow e o s2 mid).2 = .ok) : ∃ n, (action n env ow e o d).map (·.2) = some .ok := by
  obtain ⟨n, hs⟩ := hs
  rcases hm with ⟨h1, h2, rfl, rfl⟩ | ⟨wp, wt, w, h1, h2, ⟨m, h3⟩, h4⟩
  · refine ⟨n, ?_⟩
    unfold action
    rw [hp]
    simp only
    rw [ht]
    simp only
    rw [hs]
    simp only [h1, h2]
    rw [if_neg (by simp)]
    unfold withWorkflow
    rw [h1]
    exact congrArg some hok
  · refine ⟨n + m, ?_⟩
    have hs := Prot.loop_mono n (n + m) _ _ _ hs (Nat.le_add_right n m)
    have h3 := flow_mono m (n + m) _ _ _ h3 (Nat.le_add_left m n)
    unfold action
    rw [hp]
    simp only
    rw [ht]
    simp only
    rw [hs]
    simp only
    rw [if_neg (by rw [h1]; simp)]
    unfold withWorkflow
    rw [h1]
    simp only
    rw [h2]
    simp only
    rw [h3]
    simp only
    have : ∀ {r : Disk × End} {f : Disk → Disk × End}, r = (mid, .ok) → (andThen r f).2 = (f mid).2 := by
      rintro r f rfl
      rfl
    exact congrArg some ((this h4).trans hok)

end Verif.Cli
