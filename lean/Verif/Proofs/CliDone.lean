import Verif.Proofs.Cli
set_option autoImplicit false
/-!
What a successful run of the command line tool has written, and which manifests a run may change.
-/
namespace Verif.Cli

open Verif Verif.Cli.Spec
open Verif.Files (Name Dir Path Content World)
open Verif.Flow (Target)

theorem mergeAt_outside {req : List (Name × Files.Value)} {base x : Dir} {m m2 : Files.Manifests}
    (h : Files.mergeAt req base m = some m2) (hx : ¬ x <+: base) : m2 x = m x := by
  obtain ⟨y, v, h1, _, _, h4⟩ := Files.mergeAt_some h
  refine h4 x ?_
  rintro rfl
  exact hx h1.2.1

theorem generateAll_manifests {d : Files.Decls} {jobs : List Files.Job} {w : World} {t : Target} {x : Dir}
    (hp : ∀ j ∈ jobs, ¬ x <+: j.base) : (Files.generateAll d jobs w).1.manifests t x = w.manifests t x := by
  induction jobs generalizing w with
  | nil => rfl
  | cons j more ih =>
    have one : (Files.generate j.side j.target j.base d w).1.manifests t x = w.manifests t x := by
      unfold Files.generate
      simp only
      split
      · rfl
      · rename_i m hm
        simp only
        split
        · rename_i ht
          subst ht
          exact mergeAt_outside hm (hp j (.head _))
        · rfl
    rw [Files.generateAll_cons]
    split
    · rw [ih fun y hy => hp y (.tail _ hy), one]
    · exact one

/-- One folder is the other or lies in it. -/
def Related (a b : Dir) : Prop := a <+: b ∨ b <+: a

theorem related_of {x a b : Dir} (h : x <+: a ++ b) : Related x a := by
  rcases List.prefix_or_prefix_of_prefix h (List.prefix_append a b) with h | h
  · exact .inl h
  · exact .inr h

theorem workflowCode_manifests {c p : Option Dir} {w : Flow.Store} {d : Disk} {t : Target} {x : Dir}
    (hc : ∀ y, c = some y → ¬ Related x y) (hp : ∀ y, p = some y → ¬ Related x y) :
    (workflowCode c p w d).1.world.manifests t x = d.world.manifests t x := by
  unfold workflowCode
  split
  · rfl
  · rename_i cfg _
    simp only
    unfold Files.render
    split
    · rfl
    · split
      · rfl
      · apply generateAll_manifests
        intro j hj
        have one : ∀ side dest outs, j ∈ Files.sideJobs side dest outs →
            ∃ y z, dest = some y ∧ j.base = y ++ z := by
          intro side dest outs hj
          unfold Files.sideJobs at hj
          split at hj
          · exact nomatch hj
          · obtain ⟨t, _, rfl⟩ := List.mem_map.mp hj
            exact ⟨_, _, rfl, rfl⟩
        rcases List.mem_append.mp hj with hj | hj
        · obtain ⟨y, z, rfl, hb⟩ := one _ _ _ hj
          exact fun h => hc y rfl (related_of (hb ▸ h))
        · obtain ⟨y, z, rfl, hb⟩ := one _ _ _ hj
          exact fun h => hp y rfl (related_of (hb ▸ h))

/-- A manifest changes only if it is an output or near a folder of the workflow. -/
theorem action_kept_all {n : Nat} {env : Env} {ow e : Bool} {o : Opts} {d d2 : Disk} {r : End}
    (h : action n env ow e o d = some (d2, r)) {q : Path}
    (hc : ∀ p, o.consumer = some p → ¬ Related q.dir p) (hp : ∀ p, o.producer = some p → ¬ Related q.dir p)
    (hu : ∀ p, o.uml = some p → q ≠ asFile p)
    (hq : (∀ p, o.rs = some p → q ≠ asFile p) ∧ (∀ p, o.ts = some p → q ≠ asFile p)) : Kept d d2 q := by
  rcases action_inv h with ⟨rfl, _⟩ | ⟨mid, s2, ha, he⟩
  · exact .refl _ q
  · have hm : Kept d mid.1 q := by
      obtain ⟨p, text, s, _, _, _, ⟨_, _, _, rfl⟩ | ⟨wp, wt, w, _, _, _, rfl⟩⟩ := ha.read
      · exact .refl d q
      · split
        · rename_i u hu2
          exact drawing_kept (hu u hu2)
        · refine ⟨workflowCode_files (fun x hx h => hc x hx (.inr h)) (fun x hx h => hp x hx (.inr h)), fun t _ => ?_⟩
          exact workflowCode_manifests hc hp
    have : Kept d (andThen mid (protocolCode env ow e o s2)).1 q :=
      andThen_fst_kept hm fun d3 _ => protocolCode_kept (.inl hq)
    rw [← he] at this
    exact this

end Verif.Cli
