import Verif.Proofs.Cli
set_option autoImplicit false
/-!
When a call of the command line tool is rejected, and where its paths lead.
-/
namespace Verif.Cli

open Verif Verif.Cli.Spec
open Verif.Files (Name Dir Path Content World)
open Verif.Flow (Target)

theorem has_iff (d : Disk) (p : Dir) : d.has p = true ↔ PathAt d p := by
  unfold Disk.has PathAt
  simp only [Bool.or_eq_true, or_assoc]
  refine or_congr Iff.rfl ?_
  show _ ↔ FileAt d (asFile p)
  generalize asFile p = q
  constructor
  · rintro (h | h)
    · exact .inl h
    · split at h
      · rename_i t ht
        unfold manifestOf at ht
        split at ht
        · cases ht; exact .inr (.inl ⟨‹_›, h⟩)
        · split at ht
          · cases ht; exact .inr (.inr ⟨‹_›, h⟩)
          · exact nomatch ht
      · exact nomatch h
  · rintro h
    rcases There.of h with h | ⟨t, h1, h2⟩
    · exact .inl h
    · right
      rw [h1]
      exact h2

theorem has_false (d : Disk) (p : Dir) : d.has p = false ↔ ¬ PathAt d p := by
  rw [← has_iff, Bool.not_eq_true]

theorem source_err {d : Disk} {p : Option Dir} : (source d p).2 = true ↔ ∃ x, p = some x ∧ ¬ PathAt d x := by
  unfold source
  cases p with
  | none => exact ⟨nofun, fun ⟨_, h, _⟩ => nomatch h⟩
  | some x =>
    simp only
    split
    · rename_i h
      exact ⟨nofun, fun ⟨y, hy, hn⟩ => by cases hy; exact absurd ((has_iff d x).mp h) hn⟩
    · rename_i h
      exact ⟨fun _ => ⟨x, rfl, (has_false d x).mp (by simpa using h)⟩, fun _ => rfl⟩

theorem destination_err {d : Disk} {ow : Bool} {p : Option Dir} :
    (destination d ow p).2 = true ↔ ∃ x, p = some x ∧ ow = false ∧ PathAt d x := by
  unfold destination
  cases p with
  | none => exact ⟨nofun, fun ⟨_, h, _⟩ => nomatch h⟩
  | some x =>
    simp only
    split
    · rename_i h
      simp only [Bool.and_eq_true, Bool.not_eq_true'] at h
      exact ⟨fun _ => ⟨x, rfl, h.1, (has_iff d x).mp h.2⟩, fun _ => rfl⟩
    · rename_i h
      refine ⟨nofun, fun ⟨y, hy, h1, h2⟩ => ?_⟩
      cases hy
      rw [h1, (has_iff d x).mpr h2] at h
      exact absurd rfl h

theorem folder_err {env : Env} {d : Disk} {p : Option Dir} :
    (folder env d p).2.1 = true ↔ ∃ x, p = some x ∧ ¬ PathAt d x ∧ env.canMake d x = false := by
  unfold folder
  cases p with
  | none => exact ⟨nofun, fun ⟨_, h, _⟩ => nomatch h⟩
  | some x =>
    simp only
    split
    · rename_i h
      exact ⟨nofun, fun ⟨y, hy, hn, _⟩ => by cases hy; exact absurd ((has_iff d x).mp h) hn⟩
    · rename_i h
      have h := (has_false d x).mp (by simpa using h)
      split
      · rename_i h2
        exact ⟨nofun, fun ⟨y, hy, _, hn⟩ => by cases hy; rw [h2] at hn; exact nomatch hn⟩
      · rename_i h2
        exact ⟨fun _ => ⟨x, rfl, h, by simpa using h2⟩, fun _ => rfl⟩

theorem folder_at {env : Env} {d : Disk} {p : Option Dir} {x : Dir} (h : PathAt (folder env d p).2.2 x) :
    PathAt d x ∨ p = some x := by
  rcases h with h | h
  · rcases folder_dirs env d p x with h2 | ⟨h2, _⟩
    · exact .inl (.inl (h2 ▸ h))
    · exact .inr h2
  · refine .inl (.inr ?_)
    unfold FileAt at h ⊢
    rw [folder_world] at h
    exact h

theorem rejected_iff {env : Env} {pwd : Dir} {args : List Arg} {d : Disk} (hp : env.pwd = some pwd) :
    (∃ d2, Runs env args d d2 .rejected) ↔ hasErrors args (Opts.new env pwd args d).1 = true := by
  constructor
  · rintro ⟨d2, h⟩
    rcases runs_inv h with ⟨_, _, he⟩ | ⟨pwd2, hp2, ⟨he, _, _⟩ | ⟨_, n, r, _, he⟩⟩
    · exact nomatch he
    · rw [hp] at hp2
      cases hp2
      exact he
    · cases r <;> exact nomatch he
  · intro h
    refine ⟨(Opts.new env pwd args d).2, 0, ?_⟩
    unfold main
    rw [hp]
    simp only
    rw [if_pos h]

theorem hasErrors_iff (args : List Arg) (o : Opts) :
    hasErrors args o = true ↔ unknown args ≠ [] ∨ (¬ Has .help args ∧ o.errs = true) := by
  unfold hasErrors
  rw [← flag_false]
  cases hu : unknown args with
  | nil =>
    simp only [List.isEmpty_nil, Bool.not_true, Bool.false_eq_true, if_false, ne_eq, not_true, false_or]
    show (if flag helpKeys args = true then false else o.errs) = true ↔ flag helpKeys args = false ∧ o.errs = true
    cases flag helpKeys args <;> simp
  | cons a l => simp

theorem errs_iff (env : Env) (pwd : Dir) (args : List Arg) (d : Disk) :
    (Opts.new env pwd args d).1.errs = true ↔
      (source d (path pwd args .source)).2 = true ∨ (source d (path pwd args .workflow)).2 = true ∨
      (destination d (flag Opt.overwrite.keys args) (path pwd args .rust)).2 = true ∨
      (destination d (flag Opt.overwrite.keys args) (path pwd args .typescript)).2 = true ∨
      (folder env d (path pwd args .consumer)).2.1 = true ∨
      (folder env (folder env d (path pwd args .consumer)).2.2 (path pwd args .producer)).2.1 = true ∨
      (destination (folder env (folder env d (path pwd args .consumer)).2.2 (path pwd args .producer)).2.2
        (flag Opt.overwrite.keys args) (path pwd args .puml)).2 = true := by
  rw [new_eq]
  simp only [Bool.or_eq_true, or_assoc]

/-! ### Paths -/

theorem slashed_split (t : List Char) : Slashed t (splitSlash t) := by
  induction t with
  | nil => exact .last (by simp)
  | cons c rest ih =>
    unfold splitSlash
    split
    · rename_i h
      subst h
      exact Slashed.more (n := []) (by simp) ih
    · rename_i h
      split
      · rename_i h2
        rw [h2] at ih
        cases ih
      · rename_i n more h2
        rw [h2] at ih
        cases ih with
        | last hn => exact .last (by simp [hn, Ne.symm h])
        | @more n r names hn hr => exact Slashed.more (n := c :: n) (by simp [hn, Ne.symm h]) hr

theorem append_slash {a b : List Char} {x y : List Char} (ha : '/' ∉ a) (hb : '/' ∉ b)
    (h : a ++ '/' :: x = b ++ '/' :: y) : a = b ∧ x = y := by
  induction a generalizing b with
  | nil =>
    cases b with
    | nil => exact ⟨rfl, (List.cons.inj h).2⟩
    | cons c b => simp at h; exact absurd h.1 (fun h => hb (h ▸ .head _))
  | cons c a ih =>
    cases b with
    | nil => simp at h; exact absurd h.1 (fun h => ha (h ▸ .head _))
    | cons e b =>
      simp at h
      obtain ⟨h1, h2⟩ := ih (fun h => ha (.tail _ h)) (fun h => hb (.tail _ h)) h.2
      exact ⟨by rw [h.1, h1], h2⟩

theorem slashed_unique {t : List Char} {a b : List Name} (ha : Slashed t a) (hb : Slashed t b) : a = b := by
  induction ha generalizing b with
  | last h =>
    cases hb with
    | last => rfl
    | more => exact absurd (by simp) h
  | @more n rest names h hr ih =>
    generalize ht : n ++ '/' :: rest = t at hb
    cases hb with
    | last h2 => subst ht; exact absurd (by simp) h2
    | @more n2 rest2 names2 h2 hr2 =>
      obtain ⟨rfl, rfl⟩ := append_slash h h2 ht
      rw [ih hr2]

theorem leads_join (pwd : Dir) (arg : Arg) : Leads pwd arg (join pwd arg) := by
  refine ⟨splitSlash arg, slashed_split arg, ?_⟩
  unfold join
  simp only
  have hf : ((splitSlash arg).filter fun n => decide (n ≠ []) && decide (n ≠ ['.'])) =
      (splitSlash arg).filter fun n => decide (n ≠ [] ∧ n ≠ ['.']) := by
    congr 1
    funext n
    simp
  split
  · rename_i h
    left
    cases arg with
    | nil => exact nomatch h
    | cons c rest => cases h; exact ⟨⟨rest, rfl⟩, hf⟩
  · rename_i h
    right
    refine ⟨?_, by rw [hf]⟩
    rintro rest rfl
    exact h rfl

theorem leads_unique {pwd : Dir} {arg : Arg} {p q : Dir} (hp : Leads pwd arg p) (hq : Leads pwd arg q) : p = q := by
  obtain ⟨a, ha, hp⟩ := hp
  obtain ⟨b, hb, hq⟩ := hq
  cases slashed_unique ha hb
  rcases hp with ⟨⟨r, hr⟩, rfl⟩ | ⟨h1, rfl⟩
  · rcases hq with ⟨_, rfl⟩ | ⟨h2, _⟩
    · rfl
    · exact absurd hr (h2 r)
  · rcases hq with ⟨⟨r, hr⟩, _⟩ | ⟨_, rfl⟩
    · exact absurd hr (h1 r)
    · rfl

end Verif.Cli
