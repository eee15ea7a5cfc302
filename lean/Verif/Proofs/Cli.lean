import Verif.Proofs.CliArgs
import Verif.Proofs.Manifest
set_option autoImplicit false
/-!
What the command line tool changes.
-/
namespace Verif.Cli

open Verif Verif.Cli.Spec
open Verif.Files (Name Dir Path Content World)
open Verif.Flow (Target)

/-- What is at this path is the same. -/
def Kept (d d2 : Disk) (q : Path) : Prop :=
  d2.world.files q = d.world.files q ∧
  ∀ t, manifestOf q = some t → d2.world.manifests t q.dir = d.world.manifests t q.dir

/-- A file is at this path. -/
def There (d : Disk) (q : Path) : Prop :=
  (d.world.files q).isSome = true ∨ ∃ t, manifestOf q = some t ∧ (d.world.manifests t q.dir).isSome = true

theorem Kept.refl (d : Disk) (q : Path) : Kept d d q := ⟨rfl, fun _ _ => rfl⟩

theorem Kept.trans {a b c : Disk} {q : Path} (h : Kept a b q) (k : Kept b c q) : Kept a c q :=
  ⟨k.1.trans h.1, fun t ht => (k.2 t ht).trans (h.2 t ht)⟩

theorem Kept.there {a b : Disk} {q : Path} (h : Kept a b q) (ht : There a q) : There b q := by
  rcases ht with ht | ⟨t, h1, h2⟩
  · exact .inl (h.1 ▸ ht)
  · exact .inr ⟨t, h1, (h.2 t h1) ▸ h2⟩

theorem manifestOf_file {p q : Path} {t : Target} (h : manifestOf p = some t) (h2 : manifestOf q = some t) :
    p.file = q.file := by
  unfold manifestOf at h h2
  split at h
  · rename_i h3
    cases h
    split at h2
    · rename_i h4; rw [h3, h4]
    · split at h2
      · cases h2
      · exact nomatch h2
  · split at h
    · rename_i h3
      cases h
      split at h2
      · cases h2
      · split at h2
        · rename_i h4; rw [h3, h4]
        · exact nomatch h2
    · exact nomatch h

theorem Kept.same {d d2 : Disk} {q : Path} (h : Kept d d2 q) : Same d d2 q := by
  refine ⟨h.1, fun hq => h.2 .rust ?_, fun hq => h.2 .typescript ?_⟩
  · unfold manifestOf; rw [if_pos hq]
  · unfold manifestOf
    rw [hq]
    rfl

theorem There.of {d : Disk} {q : Path} (h : FileAt d q) : There d q := by
  rcases h with h | ⟨h1, h2⟩ | ⟨h1, h2⟩
  · exact .inl h
  · exact .inr ⟨.rust, by unfold manifestOf; rw [if_pos h1], h2⟩
  · refine .inr ⟨.typescript, ?_, h2⟩
    unfold manifestOf
    rw [h1]
    rfl

theorem put_kept (d : Disk) {p q : Path} (c : Option Content) (h : q ≠ p) : Kept d (d.put p c) q := by
  refine ⟨?_, fun t ht => ?_⟩
  · show (if q = p then c else d.world.files q) = _
    rw [if_neg h]
  · show (if manifestOf p = some t ∧ q.dir = p.dir then _ else d.world.manifests t q.dir) = _
    rw [if_neg]
    rintro ⟨h1, h2⟩
    apply h
    have := manifestOf_file ht h1
    cases p; cases q; simp_all

theorem has_of_there {d : Disk} {p : Dir} (h : There d (asFile p)) : d.has p = true := by
  unfold Disk.has
  rcases h with h | ⟨t, h1, h2⟩
  · simp [h]
  · simp [h1, h2]

theorem cleared_kept (d : Disk) {p : Dir} {q : Path} (h : q ≠ asFile p) : Kept d (d.cleared p) q := by
  unfold Disk.cleared
  split
  · exact put_kept d none h
  · exact .refl d q

theorem write_kept (env : Env) (p : Dir) (c : Content) (d : Disk) {q : Path} (h : q ≠ asFile p) :
    Kept d (write env p c d).1 q := by
  unfold write
  split
  · exact .refl d q
  · split
    · exact (cleared_kept d h).trans (put_kept _ _ h)
    · exact cleared_kept d h

theorem write_ok {env : Env} {p : Dir} {c : Content} {d : Disk} (h : (write env p c d).2 = .ok) :
    (write env p c d).1.world.files (asFile p) = some c := by
  unfold write at h ⊢
  split
  · rename_i h1; rw [if_pos h1] at h; exact nomatch h
  · rename_i h1
    rw [if_neg h1] at h
    split
    · simp [Disk.put]
    · rename_i h2; rw [if_neg h2] at h; exact nomatch h

/-- A file that is there is not written to without the flag. -/
theorem output_kept {env : Env} {t : Target} {ow e : Bool} {s : Prot.Store} {dest : Option Dir} {d : Disk}
    {q : Path} (h : (∀ p, dest = some p → q ≠ asFile p) ∨ (ow = false ∧ There d q)) :
    Kept d (output env t ow e s dest d).1 q := by
  unfold output
  cases dest with
  | none => exact .refl d q
  | some p =>
    simp only
    split
    · exact .refl d q
    · rename_i h0
      have hq : q ≠ asFile p := by
        rcases h with h | ⟨rfl, h⟩
        · exact h p rfl
        · rintro rfl
          simp [has_of_there h] at h0
      split
      · exact .refl d q
      · split
        · exact (cleared_kept d hq).trans (write_kept env p _ _ hq)
        · exact cleared_kept d hq

theorem output_ok {env : Env} {t : Target} {ow e : Bool} {s : Prot.Store} {p : Dir} {d : Disk}
    (h : (output env t ow e s (some p) d).2 = .ok) :
    (output env t ow e s (some p) d).1.world.files (asFile p) = some (.code t e s) ∧
      (ow = false → d.has p = false) := by
  unfold output at h ⊢
  simp only at h ⊢
  split
  · rename_i h1; rw [if_pos h1] at h; exact nomatch h
  · rename_i h1
    rw [if_neg h1] at h
    have hh : ow = false → d.has p = false := by
      rintro rfl
      simpa using h1
    split
    · rename_i h2; rw [if_pos h2] at h; exact nomatch h
    · rename_i h2
      rw [if_neg h2] at h
      refine ⟨?_, hh⟩
      split at h
      · exact write_ok h
      · rename_i he hn; exact absurd h hn

theorem andThen_fst_kept {r : Disk × End} {f : Disk → Disk × End} {d : Disk} {q : Path} (h : Kept d r.1 q)
    (hf : ∀ d2, Kept d d2 q → Kept d2 (f d2).1 q) : Kept d (andThen r f).1 q := by
  obtain ⟨d2, e⟩ := r
  cases e with
  | ok => exact h.trans (hf d2 h)
  | err => exact h
  | died s => exact h

theorem andThen_ok {r : Disk × End} {f : Disk → Disk × End} (h : (andThen r f).2 = .ok) :
    r.2 = .ok ∧ andThen r f = f r.1 ∧ (f r.1).2 = .ok := by
  obtain ⟨d2, e⟩ := r
  cases e with
  | ok => exact ⟨rfl, rfl, h⟩
  | err => exact nomatch h
  | died s => exact nomatch h

/-! ### Options -/

theorem makeDir_has {d : Disk} {p q : Dir} (h : d.has q = true) : (d.makeDir p).has q = true := by
  unfold Disk.has Disk.makeDir at *
  simp only [Bool.or_eq_true, decide_eq_true_eq] at h ⊢
  rcases h with (h | h) | h
  · exact .inl (.inl (.inr h))
  · exact .inl (.inr h)
  · exact .inr h

theorem folder_world (env : Env) (d : Disk) (p : Option Dir) : (folder env d p).2.2.world = d.world := by
  unfold folder
  split
  · rfl
  · split
    · rfl
    · split <;> rfl

theorem folder_has (env : Env) (d : Disk) (p : Option Dir) {q : Dir} (h : d.has q = true) :
    (folder env d p).2.2.has q = true := by
  unfold folder
  split
  · exact h
  · split
    · exact h
    · split
      · exact makeDir_has h
      · exact h

theorem folder_dirs (env : Env) (d : Disk) (p : Option Dir) (q : Dir) :
    (folder env d p).2.2.dirs q = d.dirs q ∨ (p = some q ∧ (folder env d p).2.2.dirs q = true) := by
  unfold folder
  split
  · exact .inl rfl
  · rename_i x
    split
    · exact .inl rfl
    · split
      · by_cases hq : q = x
        · exact .inr ⟨by rw [hq], by simp [Disk.makeDir, hq]⟩
        · exact .inl (by simp [Disk.makeDir, hq])
      · exact .inl rfl

theorem folder_some {env : Env} {d : Disk} {p : Option Dir} {x : Dir} (h : (folder env d p).1 = some x) :
    p = some x := by
  unfold folder at h
  split at h
  · exact nomatch h
  · split at h
    · exact h
    · split at h
      · exact h
      · exact nomatch h

theorem new_world (env : Env) (pwd : Dir) (args : List Arg) (d : Disk) :
    (Opts.new env pwd args d).2.world = d.world := by
  unfold Opts.new
  simp only [folder_world]

theorem destination_some {d : Disk} {ow : Bool} {p : Option Dir} {x : Dir} (h : (destination d ow p).1 = some x) :
    p = some x ∧ (ow = false → d.has x = false) := by
  unfold destination at h
  split at h
  · exact nomatch h
  · split at h
    · exact nomatch h
    · rename_i h2
      cases h
      refine ⟨rfl, ?_⟩
      rintro rfl
      simpa using h2

theorem source_some {d : Disk} {p : Option Dir} {x : Dir} (h : (source d p).1 = some x) :
    p = some x ∧ d.has x = true := by
  unfold source at h
  split at h
  · exact nomatch h
  · split at h
    · cases h; exact ⟨rfl, ‹_›⟩
    · exact nomatch h

/-- The path given for an option. -/
def path (pwd : Dir) (args : List Arg) (o : Opt) : Option Dir := (valueOf o.keys args).map (join pwd)

theorem path_some {pwd : Dir} {args : List Arg} {o : Opt} {x : Dir} (h : path pwd args o = some x) :
    ∃ v, Given o args v ∧ x = join pwd v := by
  unfold path at h
  cases hv : valueOf o.keys args with
  | none => rw [hv] at h; exact nomatch h
  | some v =>
    rw [hv] at h
    cases h
    exact ⟨v, (valueOf_iff o args v).mp hv, rfl⟩

theorem path_given {pwd : Dir} {args : List Arg} {o : Opt} {v : Arg} (h : Given o args v) :
    path pwd args o = some (join pwd v) := by
  unfold path
  rw [(valueOf_iff o args v).mpr h]
  rfl

theorem new_eq (env : Env) (pwd : Dir) (args : List Arg) (d : Disk) :
    let ow := flag Opt.overwrite.keys args
    let consumer := folder env d (path pwd args .consumer)
    let producer := folder env consumer.2.2 (path pwd args .producer)
    let uml := destination producer.2.2 ow (path pwd args .puml)
    let src := source d (path pwd args .source)
    let workflow := source d (path pwd args .workflow)
    let rs := destination d ow (path pwd args .rust)
    let ts := destination d ow (path pwd args .typescript)
    Opts.new env pwd args d = (⟨src.1, workflow.1, consumer.1, producer.1, rs.1, ts.1, uml.1,
      src.2 || workflow.2 || rs.2 || ts.2 || consumer.2.1 || producer.2.1 || uml.2⟩, producer.2.2) := rfl

/-- A destination that is there is an error without the flag. -/
theorem new_errs {env : Env} {pwd : Dir} {args : List Arg} {d : Disk} {o : Opt} {v : Arg}
    (ho : o = .rust ∨ o = .typescript ∨ o = .puml) (hg : Given o args v) (hw : ¬ Has .overwrite args)
    (hx : d.has (join pwd v) = true) : (Opts.new env pwd args d).1.errs = true := by
  rw [new_eq]
  have hw : flag Opt.overwrite.keys args = false := (flag_false _ _).mpr hw
  have hd : ∀ d2 : Disk, d2.has (join pwd v) = true →
      (destination d2 (flag Opt.overwrite.keys args) (path pwd args o)).2 = true := by
    intro d2 h2
    rw [path_given hg, hw]
    unfold destination
    simp [h2]
  rcases ho with rfl | rfl | rfl
  · simp [hd d hx]
  · simp [hd d hx]
  · simp [hd _ (folder_has env _ _ (folder_has env d _ hx))]

/-! ### Whole runs -/

/-- How the end of the action becomes the end of the process. -/
def ending : End → Ending
  | .ok => .done
  | .err => .failed
  | .died s => .died s

theorem runs_inv {env : Env} {args : List Arg} {d d2 : Disk} {e : Ending} (h : Runs env args d d2 e) :
    (env.pwd = none ∧ d2 = d ∧ e = .lost) ∨
    ∃ pwd, env.pwd = some pwd ∧
      ((hasErrors args (Opts.new env pwd args d).1 = true ∧ d2 = (Opts.new env pwd args d).2 ∧ e = .rejected) ∨
        (hasErrors args (Opts.new env pwd args d).1 = false ∧ ∃ n r,
          action n env (flag Opt.overwrite.keys args) (flag Opt.embedded.keys args) (Opts.new env pwd args d).1
            (Opts.new env pwd args d).2 = some (d2, r) ∧ e = ending r)) := by
  obtain ⟨n, h⟩ := h
  unfold main at h
  split at h
  · cases h; exact .inl ⟨‹_›, rfl, rfl⟩
  · rename_i pwd hp
    refine .inr ⟨pwd, hp, ?_⟩
    simp only at h
    split at h
    · rename_i h2
      cases h
      exact .inl ⟨h2, rfl, rfl⟩
    · rename_i h2
      refine .inr ⟨by simpa using h2, n, ?_⟩
      split at h
      · exact nomatch h
      · rename_i d3 ha; cases h; exact ⟨.ok, ha, rfl⟩
      · rename_i d3 ha; cases h; exact ⟨.err, ha, rfl⟩
      · rename_i d3 s ha; cases h; exact ⟨.died s, ha, rfl⟩

/-- The protocol outputs. -/
def protocolCode (env : Env) (ow e : Bool) (o : Opts) (s : Prot.Store) (d : Disk) : Disk × End :=
  andThen (output env .rust ow e s o.rs d) fun d => output env .typescript ow e s o.ts d

/-- An action that does not stop early. -/
structure Acts (env : Env) (o : Opts) (d : Disk) (mid : Disk × End) (s2 : Prot.Store) : Prop where
  read : ∃ p text s, o.src = some p ∧ env.read d (asFile p) = some text ∧ Prot.Parses text (.accepted s) ∧
    ((o.workflow = none ∧ o.uml = none ∧ s2 = s ∧ mid = (d, .ok)) ∨
      ∃ wp wtext w, o.workflow = some wp ∧ env.read d (asFile wp) = some wtext ∧
        Flow.Parses s wtext (.accepted w s2) ∧
        mid = (match o.uml with
          | some u => drawing env u w d
          | none => workflowCode o.consumer o.producer w d))

theorem action_inv {n : Nat} {env : Env} {ow e : Bool} {o : Opts} {d d2 : Disk} {r : End}
    (h : action n env ow e o d = some (d2, r)) :
    (d2 = d ∧ r ≠ .ok) ∨ ∃ mid s2, Acts env o d mid s2 ∧ (d2, r) = andThen mid (protocolCode env ow e o s2) := by
  unfold action at h
  split at h
  · cases h; exact .inl ⟨rfl, nofun⟩
  · rename_i p hp
    split at h
    · cases h; exact .inl ⟨rfl, nofun⟩
    · rename_i text ht
      split at h
      · exact nomatch h
      · cases h; exact .inl ⟨rfl, nofun⟩
      · cases h; exact .inl ⟨rfl, nofun⟩
      · cases h; exact .inl ⟨rfl, nofun⟩
      · rename_i s hs
        split at h
        · cases h; exact .inl ⟨rfl, nofun⟩
        · rename_i hu
          unfold withWorkflow at h
          split at h
          · rename_i hw
            have h := Option.some.inj h
            have hu : o.uml = none := by
              cases hx : o.uml with
              | none => rfl
              | some u => simp [hw, hx] at hu
            exact .inr ⟨(d, .ok), s, ⟨⟨p, text, s, hp, ht, ⟨n, hs⟩, .inl ⟨hw, hu, rfl, rfl⟩⟩⟩, h.symm⟩
          · rename_i wp hw
            split at h
            · cases h; exact .inl ⟨rfl, nofun⟩
            · rename_i wtext hwt
              split at h
              · exact nomatch h
              · cases h; exact .inl ⟨rfl, nofun⟩
              · cases h; exact .inl ⟨rfl, nofun⟩
              · rename_i w s2 hf
                have h := Option.some.inj h
                exact .inr ⟨_, s2, ⟨⟨p, text, s, hp, ht, ⟨n, hs⟩, .inr ⟨wp, wtext, w, hw, hwt, ⟨n, hf⟩, rfl⟩⟩⟩,
                  h.symm⟩

theorem workflowCode_files {c p : Option Dir} {w : Flow.Store} {d : Disk} {q : Path}
    (hc : ∀ x, c = some x → ¬ x <+: q.dir) (hp : ∀ x, p = some x → ¬ x <+: q.dir) :
    (workflowCode c p w d).1.world.files q = d.world.files q := by
  unfold workflowCode
  split
  · rfl
  · rename_i cfg _
    simp only
    unfold Files.render
    split
    · rfl
    · split
      · rfl
      · apply Files.generateAll_outside
        intro j hj
        have one : ∀ side dest outs, j ∈ Files.sideJobs side dest outs →
            ∃ x, dest = some x ∧ x <+: j.base := by
          intro side dest outs hj
          unfold Files.sideJobs at hj
          split at hj
          · exact nomatch hj
          · obtain ⟨t, _, rfl⟩ := List.mem_map.mp hj
            exact ⟨_, rfl, List.prefix_append _ _⟩
        rcases List.mem_append.mp hj with hj | hj
        · obtain ⟨x, rfl, hx⟩ := one _ _ _ hj
          exact fun h => hc x rfl (hx.trans h)
        · obtain ⟨x, rfl, hx⟩ := one _ _ _ hj
          exact fun h => hp x rfl (hx.trans h)

theorem drawing_kept {env : Env} {p : Dir} {w : Flow.Store} {d : Disk} {q : Path} (h : q ≠ asFile p) :
    Kept d (drawing env p w d).1 q := by
  unfold drawing
  split
  · exact write_kept env p _ d h
  · exact .refl d q

theorem drawing_ok {env : Env} {p : Dir} {w : Flow.Store} {d : Disk} (h : (drawing env p w d).2 = .ok) :
    ∃ t, Puml.render w = some t ∧ (drawing env p w d).1.world.files (asFile p) = some (.scheme t) := by
  unfold drawing at h ⊢
  cases h2 : Puml.render w with
  | none => rw [h2] at h; exact nomatch h
  | some t => rw [h2] at h; exact ⟨t, rfl, write_ok h⟩

theorem protocolCode_kept {env : Env} {ow e : Bool} {o : Opts} {s : Prot.Store} {d : Disk} {q : Path}
    (h : ((∀ p, o.rs = some p → q ≠ asFile p) ∧ (∀ p, o.ts = some p → q ≠ asFile p)) ∨
      (ow = false ∧ There d q)) : Kept d (protocolCode env ow e o s d).1 q := by
  unfold protocolCode
  apply andThen_fst_kept
  · exact output_kept (h.imp (·.1) id)
  · intro d2 h2
    exact output_kept (h.imp (·.2) fun ⟨a, b⟩ => ⟨a, h2.there b⟩)

/-- What an action without workflow code changes. -/
theorem action_kept {n : Nat} {env : Env} {ow e : Bool} {o : Opts} {d d2 : Disk} {r : End}
    (h : action n env ow e o d = some (d2, r)) {q : Path} (hw : o.workflow = none ∨ o.uml ≠ none)
    (hu : ∀ p, o.uml = some p → q ≠ asFile p)
    (hq : ((∀ p, o.rs = some p → q ≠ asFile p) ∧ (∀ p, o.ts = some p → q ≠ asFile p)) ∨
      (ow = false ∧ There d q)) : Kept d d2 q := by
  rcases action_inv h with ⟨rfl, _⟩ | ⟨mid, s2, ha, he⟩
  · exact .refl _ q
  · have hd : d2 = (andThen mid (protocolCode env ow e o s2)).1 := congrArg Prod.fst he
    rw [hd]
    apply andThen_fst_kept
    · obtain ⟨p, text, s, _, _, _, ha⟩ := ha
      rcases ha with ⟨_, _, _, rfl⟩ | ⟨wp, wtext, w, h1, _, _, rfl⟩
      · exact .refl d q
      · cases hx : o.uml with
        | none =>
          rcases hw with hw | hw
          · rw [hw] at h1; exact nomatch h1
          · exact absurd hx hw
        | some u => exact drawing_kept (hu u hx)
    · intro d3 h3
      exact protocolCode_kept (hq.imp id fun ⟨a, b⟩ => ⟨a, h3.there b⟩)

/-- What any action changes. -/
theorem action_files {n : Nat} {env : Env} {ow e : Bool} {o : Opts} {d d2 : Disk} {r : End}
    (h : action n env ow e o d = some (d2, r)) {q : Path}
    (hc : ∀ p, o.consumer = some p → ¬ p <+: q.dir) (hp : ∀ p, o.producer = some p → ¬ p <+: q.dir)
    (hu : ∀ p, o.uml = some p → q ≠ asFile p)
    (hq : ((∀ p, o.rs = some p → q ≠ asFile p) ∧ (∀ p, o.ts = some p → q ≠ asFile p)) ∨
      (ow = false ∧ (d.world.files q).isSome = true)) : d2.world.files q = d.world.files q := by
  rcases action_inv h with ⟨rfl, _⟩ | ⟨mid, s2, ha, he⟩
  · rfl
  · have hd : d2 = (andThen mid (protocolCode env ow e o s2)).1 := congrArg Prod.fst he
    have hm : mid.1.world.files q = d.world.files q := by
      obtain ⟨p, text, s, _, _, _, ha⟩ := ha
      rcases ha with ⟨_, _, _, rfl⟩ | ⟨wp, wtext, w, h1, _, _, rfl⟩
      · rfl
      · cases hx : o.uml with
        | none => exact workflowCode_files hc hp
        | some u => exact (drawing_kept (hu u hx)).1
    rw [hd]
    obtain ⟨d3, e3⟩ := mid
    cases e3 with
    | ok =>
      refine (protocolCode_kept (hq.imp id fun ⟨a, b⟩ => ⟨a, .inl ?_⟩)).1.trans hm
      exact hm ▸ b
    | err => exact hm
    | died s => exact hm

/-- What a successful action has written. -/
theorem action_ok {n : Nat} {env : Env} {ow e : Bool} {o : Opts} {d d2 : Disk}
    (h : action n env ow e o d = some (d2, .ok)) : ∃ mid s2, Acts env o d mid s2 ∧ mid.2 = .ok ∧
      d2 = (protocolCode env ow e o s2 mid.1).1 ∧ (protocolCode env ow e o s2 mid.1).2 = .ok := by
  rcases action_inv h with ⟨_, hr⟩ | ⟨mid, s2, ha, he⟩
  · exact absurd rfl hr
  · have hr : (andThen mid (protocolCode env ow e o s2)).2 = .ok := (congrArg Prod.snd he).symm
    obtain ⟨h1, h2, h3⟩ := andThen_ok hr
    exact ⟨mid, s2, ha, h1, by rw [← h2]; exact congrArg Prod.fst he, h3⟩

theorem protocolCode_ok {env : Env} {ow e : Bool} {o : Opts} {s : Prot.Store} {d : Disk}
    (h : (protocolCode env ow e o s d).2 = .ok) :
    (∀ p, o.ts = some p → (protocolCode env ow e o s d).1.world.files (asFile p) = some (.code .typescript e s)) ∧
    (∀ p, o.rs = some p → (ow = false ∨ ∀ q, o.ts = some q → asFile p ≠ asFile q) →
      (protocolCode env ow e o s d).1.world.files (asFile p) = some (.code .rust e s)) := by
  unfold protocolCode at h ⊢
  obtain ⟨h1, h2, h3⟩ := andThen_ok h
  rw [h2]
  refine ⟨fun p hp => ?_, fun p hp hq => ?_⟩
  · rw [hp] at h3 ⊢
    exact (output_ok h3).1
  · rw [hp] at h1 h3 ⊢
    have h4 := (output_ok h1).1
    refine Eq.trans (output_kept ?_).1 h4
    rcases hq with rfl | hq
    · exact .inr ⟨rfl, .inl (by rw [h4]; rfl)⟩
    · exact .inl hq

theorem new_rs {env : Env} {pwd : Dir} {args : List Arg} {d : Disk} {p : Dir}
    (h : (Opts.new env pwd args d).1.rs = some p) : ∃ v, Given .rust args v ∧ p = join pwd v := by
  rw [new_eq] at h
  exact path_some (destination_some h).1

theorem new_ts {env : Env} {pwd : Dir} {args : List Arg} {d : Disk} {p : Dir}
    (h : (Opts.new env pwd args d).1.ts = some p) : ∃ v, Given .typescript args v ∧ p = join pwd v := by
  rw [new_eq] at h
  exact path_some (destination_some h).1

theorem new_uml {env : Env} {pwd : Dir} {args : List Arg} {d : Disk} {p : Dir}
    (h : (Opts.new env pwd args d).1.uml = some p) : (∃ v, Given .puml args v ∧ p = join pwd v) ∧
      (¬ Has .overwrite args → (Opts.new env pwd args d).2.has p = false) := by
  rw [new_eq] at h ⊢
  have := destination_some h
  exact ⟨path_some this.1, fun hw => this.2 ((flag_false _ _).mpr hw)⟩

theorem new_consumer {env : Env} {pwd : Dir} {args : List Arg} {d : Disk} {p : Dir}
    (h : (Opts.new env pwd args d).1.consumer = some p) : ∃ v, Given .consumer args v ∧ p = join pwd v := by
  rw [new_eq] at h
  exact path_some (folder_some h)

theorem new_producer {env : Env} {pwd : Dir} {args : List Arg} {d : Disk} {p : Dir}
    (h : (Opts.new env pwd args d).1.producer = some p) : ∃ v, Given .producer args v ∧ p = join pwd v := by
  rw [new_eq] at h
  exact path_some (folder_some h)

theorem new_workflow {env : Env} {pwd : Dir} {args : List Arg} {d : Disk} {p : Dir}
    (h : (Opts.new env pwd args d).1.workflow = some p) : ∃ v, Given .workflow args v ∧ p = join pwd v := by
  rw [new_eq] at h
  exact path_some (source_some h).1

theorem new_src {env : Env} {pwd : Dir} {args : List Arg} {d : Disk} {p : Dir}
    (h : (Opts.new env pwd args d).1.src = some p) : ∃ v, Given .source args v ∧ p = join pwd v := by
  rw [new_eq] at h
  exact path_some (source_some h).1

/-- Without errors every path given is used. -/
theorem new_used {env : Env} {pwd : Dir} {args : List Arg} {d : Disk}
    (h : (Opts.new env pwd args d).1.errs = false) :
    (Opts.new env pwd args d).1.src = path pwd args .source ∧
    (Opts.new env pwd args d).1.workflow = path pwd args .workflow ∧
    (Opts.new env pwd args d).1.consumer = path pwd args .consumer ∧
    (Opts.new env pwd args d).1.producer = path pwd args .producer ∧
    (Opts.new env pwd args d).1.rs = path pwd args .rust ∧
    (Opts.new env pwd args d).1.ts = path pwd args .typescript ∧
    (Opts.new env pwd args d).1.uml = path pwd args .puml := by
  rw [new_eq] at h ⊢
  simp only [Bool.or_eq_false_iff] at h
  obtain ⟨⟨⟨⟨⟨⟨h1, h2⟩, h3⟩, h4⟩, h5⟩, h6⟩, h7⟩ := h
  have src : ∀ (d : Disk) (p : Option Dir), (source d p).2 = false → (source d p).1 = p := by
    intro d p h
    unfold source at h ⊢
    split
    · rfl
    · split
      · rfl
      · rename_i hx; simp [hx] at h
  have dst : ∀ (d : Disk) (b : Bool) (p : Option Dir), (destination d b p).2 = false → (destination d b p).1 = p := by
    intro d b p h
    unfold destination at h ⊢
    split
    · rfl
    · split
      · rename_i hx; simp only [if_pos hx] at h; exact nomatch h
      · rfl
  have fol : ∀ (d : Disk) (p : Option Dir), (folder env d p).2.1 = false → (folder env d p).1 = p := by
    intro d p h
    unfold folder at h ⊢
    split
    · rfl
    · split
      · rfl
      · split
        · rfl
        · rename_i hx hy; simp [hx, hy] at h
  exact ⟨src _ _ h1, src _ _ h2, fol _ _ h5, fol _ _ h6, dst _ _ _ h3, dst _ _ _ h4, dst _ _ _ h7⟩

theorem not_rejected {args : List Arg} {o : Opts} (h : hasErrors args o = false) :
    unknown args = [] ∧ (¬ Has .help args → o.errs = false) := by
  unfold hasErrors at h
  split at h
  · exact nomatch h
  · rename_i h1
    have h1 : unknown args = [] := by simpa using h1
    refine ⟨h1, fun hh => ?_⟩
    have : flag helpKeys args = false := (flag_false .help args).mpr hh
    rw [this] at h
    simpa using h

end Verif.Cli
