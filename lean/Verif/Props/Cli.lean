import Verif.Proofs.CliDone
import Verif.Proofs.CliEnds
import Verif.Props.Workflow
set_option autoImplicit false
/-!
Properties of the command line tool: C46, C47, C48, C125 to C132.
-/
namespace Verif.Props

open Verif Verif.Cli Verif.Cli.Spec
open Verif.Files (Name Dir Path Content World)
open Verif.Flow (Target)

/-! ### A disk for the witnesses -/

def demoProtText : List Char := "struct A { str a; }".toList

def demoFlowText : List Char :=
  "&config { Producer: typescript; Consumer: typescript; SelfKey: A; AssignedKey: A; }\n".toList

/-- In the folder `/x`, with a protocol `p`, a workflow `w`, a text `q` that is neither, and a workflow `endless`. -/
def demoEnv : Env where
  pwd := some ["x".toList]
  read := fun _ f =>
    if f.file = "p".toList then some demoProtText
    else if f.file = "w".toList then some demoFlowText
    else if f.file = "endless".toList then some ['A']
    else if f.file = "q".toList then some ['}', '}'] else none
  canWrite := fun _ _ => true
  canRemove := fun _ _ => true
  canMake := fun _ _ => true
  renders := fun _ _ _ => .ok

def inX (names : List String) (file : String) : Path := ⟨"x".toList :: names.map String.toList, file.toList⟩

/-- Files of that folder, among them code in a folder `c`. -/
def demoDisk : Disk where
  world :=
    { files := fun f =>
        if f = inX [] "p" then some (.other 1)
        else if f = inX [] "w" then some (.other 2)
        else if f = inX [] "q" then some (.other 3)
        else if f = inX [] "endless" then some (.other 4)
        else if f = inX [] "old.rs" then some (.other 5)
        else if f = inX ["c", "protocol"] "protocol.ts" then some (.other 6)
        else none
      manifests := fun _ d => if d = ["x".toList] then some (some (.table fun _ => none)) else none }
  dirs := fun d => d = [] || d = ["x".toList] || d = ["x".toList, "c".toList]

def words (l : List String) : List Arg := l.map String.toList

/-! ### C46: no destination is overwritten without the flag -/

theorem runs_of {n : Nat} {env : Env} {args : List Arg} {d : Disk} {α : Type} (f : Disk → α) {a : α} {e : Ending}
    (h : (main n env args d).map (fun r => (f r.1, r.2)) = some (a, e)) : ∃ d2, Runs env args d d2 e ∧ f d2 = a := by
  obtain ⟨⟨d2, e2⟩, h1, h2⟩ := Option.map_eq_some_iff.mp h
  cases h2
  exact ⟨d2, ⟨n, h1⟩, rfl⟩

/-- **C46** violated: with `-h`, errors of arguments do not count, and the generators of the workflow write to
the file. -/
theorem C46_destination_kept_violated : ∃ d2, Runs demoEnv
      (words ["-h", "-s", "p", "-wf", "w", "-cd", "c", "-pd", "s", "-ts", "c/protocol/protocol.ts"]) demoDisk d2 .done ∧
    demoDisk.world.files (inX ["c", "protocol"] "protocol.ts") = some (.other 6) ∧
    d2.world.files (inX ["c", "protocol"] "protocol.ts") ≠ some (.other 6) := by
  obtain ⟨d2, h1, h2⟩ := runs_of (n := 100) (env := demoEnv)
    (args := words ["-h", "-s", "p", "-wf", "w", "-cd", "c", "-pd", "s", "-ts", "c/protocol/protocol.ts"])
    (d := demoDisk) (a := false) (e := .done)
    (fun d => d.world.files (inX ["c", "protocol"] "protocol.ts") == some (.other 6)) (by decide +kernel)
  exact ⟨d2, h1, by decide, by simpa using h2⟩

/-- Full statement: a file that is a destination stays as it is unless the flag is given; false by
`C46_destination_kept_violated`. Proved: without help, the tool only reports an error. -/
theorem C46_destination_kept_partial {env : Env} {pwd : Dir} {args : List Arg} {d : Disk} {o : Opt} {v : Arg}
    (hp : env.pwd = some pwd) (ho : o ∈ outputs) (hg : Given o args v) (hw : ¬ Has .overwrite args)
    (hh : ¬ Has .help args) (hx : FileAt d (asFile (join pwd v))) :
    ∃ d2, d2.world = d.world ∧ ∀ n, main n env args d = some (d2, .rejected) := by
  refine ⟨(Opts.new env pwd args d).2, new_world env pwd args d, fun n => ?_⟩
  have ho : o = .rust ∨ o = .typescript ∨ o = .puml := by simpa [outputs] using ho
  have he := new_errs (env := env) ho hg hw (has_of_there (.of hx))
  unfold main
  rw [hp]
  have : hasErrors args (Opts.new env pwd args d).1 = true := by
    unfold hasErrors
    split
    · rfl
    · rw [show flag helpKeys args = false from (flag_false .help args).mpr hh]
      simpa using he
  simp only
  rw [if_pos this]

/-- Without the flag, whatever the other arguments are: a file that is there stays as it is, unless it lies in one
of the folders for code of a workflow; and without workflow every file stays. -/
theorem C46_files_kept_partial {env : Env} {args : List Arg} {d d2 : Disk} {e : Ending} (h : Runs env args d d2 e)
    (hw : ¬ Has .overwrite args) (q : Path) :
    ((∀ v, ¬ Given .workflow args v) → FileAt d q → Same d d2 q) ∧
    ((∀ pwd, env.pwd = some pwd → ∀ o ∈ folders, ∀ v, Given o args v → ¬ join pwd v <+: q.dir) →
      (d.world.files q).isSome = true → d2.world.files q = d.world.files q) := by
  rcases runs_inv h with ⟨_, rfl, _⟩ | ⟨pwd, hp, h | ⟨he, n, r, ha, _⟩⟩
  · exact ⟨fun _ _ => ⟨rfl, fun _ => rfl, fun _ => rfl⟩, fun _ _ => rfl⟩
  · rw [h.2.1]
    unfold Same
    rw [new_world]
    exact ⟨fun _ _ => ⟨rfl, fun _ => rfl, fun _ => rfl⟩, fun _ _ => rfl⟩
  · have hf : flag Opt.overwrite.keys args = false := (flag_false _ _).mpr hw
    rw [hf] at ha
    have hu : There d q → ∀ p, (Opts.new env pwd args d).1.uml = some p → q ≠ asFile p := by
      rintro ht p hx rfl
      have h1 := (new_uml hx).2 hw
      have h2 : There (Opts.new env pwd args d).2 (asFile p) := by
        unfold There
        rw [new_world]
        exact ht
      rw [has_of_there h2] at h1
      exact nomatch h1
    constructor
    · intro hn hq
      have ht : There (Opts.new env pwd args d).2 q := by
        unfold There
        rw [new_world]
        exact There.of hq
      have hk := action_kept ha (q := q) (.inl ?_) (hu (.of hq)) (.inr ⟨rfl, ht⟩)
      · have := hk.same
        unfold Same at this ⊢
        rw [new_world] at this
        exact this
      · cases hx : (Opts.new env pwd args d).1.workflow with
        | none => rfl
        | some p =>
          obtain ⟨v, hv, _⟩ := new_workflow hx
          exact absurd hv (hn v)
    · intro hfo hq
      have := action_files ha (q := q) ?_ ?_ (hu (.inl hq)) (.inr ⟨rfl, by rw [new_world]; exact hq⟩)
      · rw [new_world] at this
        exact this
      · intro p hx
        obtain ⟨v, hv, rfl⟩ := new_consumer hx
        exact hfo pwd hp .consumer (by simp [folders]) v hv
      · intro p hx
        obtain ⟨v, hv, rfl⟩ := new_producer hx
        exact hfo pwd hp .producer (by simp [folders]) v hv

theorem given_demo {o : Opt} {args : List Arg} {v : Arg} (h : valueOf o.keys args = some v) : Given o args v :=
  (valueOf_iff o args v).mp h

theorem has_demo {o : Opt} {args : List Arg} (h : flag o.keys args = true) : Has o args := (flag_iff o args).mp h

theorem hasnt_demo {o : Opt} {args : List Arg} (h : flag o.keys args = false) : ¬ Has o args :=
  (flag_false o args).mp h

/-- A destination that is there. -/
example : demoEnv.pwd = some ["x".toList] ∧ Opt.rust ∈ outputs ∧
    Given .rust (words ["-s", "p", "-rs", "old.rs"]) "old.rs".toList ∧
    ¬ Has .overwrite (words ["-s", "p", "-rs", "old.rs"]) ∧ ¬ Has .help (words ["-s", "p", "-rs", "old.rs"]) ∧
    FileAt demoDisk (asFile (join ["x".toList] "old.rs".toList)) :=
  ⟨rfl, by decide, given_demo (by decide), hasnt_demo (by decide), hasnt_demo (by decide), .inl (by decide)⟩

example : ∃ d2, Runs demoEnv (words ["-s", "p", "-rs", "new.rs"]) demoDisk d2 .done ∧ True := by
  obtain ⟨d2, h1, _⟩ := runs_of (n := 100) (env := demoEnv) (args := words ["-s", "p", "-rs", "new.rs"])
    (d := demoDisk) (a := true) (e := .done) (fun _ => true) (by decide +kernel)
  exact ⟨d2, h1, trivial⟩

/-! ### C47: unknown arguments are rejected -/

theorem nokey {a : Arg} (h : ∀ x ∈ allKeys, x.2.toList ≠ a) : ¬ Key a := by
  rintro ⟨o, k, hk, rfl⟩
  exact h _ (mem_allKeys hk) rfl

theorem key {o : Opt} {a : Arg} (h : isOne o.keys a = true) : o.Key a := (isOne_iff o a).mp h

/-- **C47** violated: `x` is neither a key nor a value, but when `-o`, the value of `-rs`, was taken out as a
flag, `x` looks like the value of `-rs`. The same with `y` when the value `-s` of `-wf` was taken for a key. Both runs
succeed; the first writes code to a file called `-o`. -/
theorem C47_unknown_rejected_violated :
    (∃ items, Reads (words ["-rs", "-o", "x", "-s", "p"]) items ∧ Item.stray "x".toList ∈ items) ∧
    (∃ d2, Runs demoEnv (words ["-rs", "-o", "x", "-s", "p"]) demoDisk d2 .done ∧
      (d2.world.files (inX [] "-o")).isSome = true) ∧
    (∃ items, Reads (words ["-h", "-wf", "-s", "p", "y"]) items ∧ Item.stray "y".toList ∈ items) ∧
    ∃ d2, Runs demoEnv (words ["-h", "-wf", "-s", "p", "y"]) demoDisk d2 .done := by
  obtain ⟨d1, h1, k1⟩ := runs_of (n := 100) (env := demoEnv) (args := words ["-rs", "-o", "x", "-s", "p"])
    (d := demoDisk) (a := true) (e := .done) (fun d => (d.world.files (inX [] "-o")).isSome) (by decide +kernel)
  obtain ⟨d2, h2, _⟩ := runs_of (n := 100) (env := demoEnv) (args := words ["-h", "-wf", "-s", "p", "y"])
    (d := demoDisk) (a := true) (e := .done) (fun _ => true) (by decide +kernel)
  exact ⟨⟨_, .value (o := .rust) id (key (by decide)) (.stray (nokey (by decide))
      (.value (o := .source) id (key (by decide)) .nil)), by simp⟩, ⟨d1, h1, k1⟩,
    ⟨_, .flag (o := .help) trivial (key (by decide)) (.value (o := .workflow) id (key (by decide))
      (.stray (nokey (by decide)) (.stray (nokey (by decide)) .nil))), by simp⟩, ⟨d2, h2⟩⟩

/-- Full statement: an argument list with an argument that is neither a key nor the value of one is rejected; false
by `C47_unknown_rejected_violated`. Proved: if no value is itself a key, then the list is rejected if there is such an
argument or an option is given twice, and no file is changed; and with `-h` it is rejected only then. -/
theorem C47_unknown_rejected_partial {env : Env} {pwd : Dir} {args : List Arg} {items : List Item}
    (hp : env.pwd = some pwd) (hr : Reads args items) (hv : NoKeyAsValue items) (d : Disk) :
    (((∃ a, Item.stray a ∈ items) ∨ ¬ OptsOnce items) →
      ∃ d2, d2.world = d.world ∧ ∀ n, main n env args d = some (d2, .rejected)) ∧
    ((∀ a, Item.stray a ∉ items) → OptsOnce items → Has .help args → ∀ d2, ¬ Runs env args d d2 .rejected) := by
  constructor
  · intro h
    refine ⟨(Opts.new env pwd args d).2, new_world env pwd args d, fun n => ?_⟩
    have hu : unknown args ≠ [] := by
      rw [Ne, unknown_iff hr hv]
      rintro ⟨h1, h2⟩
      rcases h with ⟨a, h⟩ | h
      · exact h1 a h
      · exact h h2
    have : hasErrors args (Opts.new env pwd args d).1 = true := by
      unfold hasErrors
      rw [if_pos]
      cases hx : unknown args with
      | nil => exact absurd hx hu
      | cons a l => rfl
    unfold main
    rw [hp]
    simp only
    rw [if_pos this]
  · intro h1 h2 hh d2 h
    have hu := (unknown_iff hr hv).mpr ⟨h1, h2⟩
    rcases runs_inv h with ⟨_, _, he⟩ | ⟨pwd, _, ⟨he, _, _⟩ | ⟨_, n, r, _, he⟩⟩
    · exact nomatch he
    · unfold hasErrors at he
      rw [hu, show flag helpKeys args = true from (flag_iff .help args).mpr hh] at he
      exact nomatch he
    · cases r <;> exact nomatch he

/-- `-s p zz`: a stray argument. -/
example : Reads (words ["-s", "p", "zz"]) [.value .source "-s".toList "p".toList, .stray "zz".toList] ∧
    NoKeyAsValue [.value .source "-s".toList "p".toList, .stray "zz".toList] := by
  refine ⟨.value id (key (by decide)) (.stray (nokey (by decide)) .nil), ?_⟩
  intro o k v h
  simp at h
  obtain ⟨_, _, rfl⟩ := h
  exact nokey (by decide)

/-! ### C48: failures show in the exit status -/

/-- **C48** violated: a protocol that cannot be parsed; no protocol at all; and an unknown current folder. -/
theorem C48_failure_status_violated :
    (∃ d2, Runs demoEnv (words ["-s", "q", "-rs", "new.rs"]) demoDisk d2 .failed) ∧
    (∃ d2, Runs demoEnv [] demoDisk d2 .failed) ∧
    (∃ d2, Runs { demoEnv with pwd := none } (words ["-s", "p", "-rs", "new.rs"]) demoDisk d2 .lost) ∧
    Ending.failed.status = 0 ∧ Ending.lost.status = 0 := by
  obtain ⟨d1, h1, _⟩ := runs_of (n := 100) (env := demoEnv) (args := words ["-s", "q", "-rs", "new.rs"])
    (d := demoDisk) (a := true) (e := .failed) (fun _ => true) (by decide +kernel)
  obtain ⟨d2, h2, _⟩ := runs_of (n := 100) (env := demoEnv) (args := [])
    (d := demoDisk) (a := true) (e := .failed) (fun _ => true) (by decide +kernel)
  exact ⟨⟨d1, h1⟩, ⟨d2, h2⟩, ⟨_, ⟨0, rfl⟩⟩, rfl, rfl⟩

/-- Full statement: the status is 0 exactly if everything went well; false by `C48_failure_status_violated`. Proved: errors
of the arguments give 1, a process that dies gives its status, which is not 0, and success gives 0. -/
theorem C48_failure_status_partial {env : Env} (hr : ∀ t b s y, env.renders t b s = .died y → y ≠ 0)
    {args : List Arg} {d d2 : Disk} {e : Ending} (h : Runs env args d d2 e) :
    (e = .done → e.status = 0) ∧ (e = .rejected → e.status = 1) ∧
    ((∃ s, e = .died s) → e.status ≠ 0) ∧ (e.status = 0 → e = .done ∨ e = .failed ∨ e = .lost) := by
  have hd : ∀ s, e = .died s → s ≠ 0 := by
    rintro s rfl
    rcases runs_inv h with ⟨_, _, he⟩ | ⟨pwd, _, ⟨_, _, he⟩ | ⟨_, n, r, ha, he⟩⟩
    · exact nomatch he
    · exact nomatch he
    · cases r with
      | ok => exact nomatch he
      | err => exact nomatch he
      | died y => cases he; exact action_died hr ha
  refine ⟨fun h => h ▸ rfl, fun h => h ▸ rfl, ?_, ?_⟩
  · rintro ⟨s, rfl⟩; exact hd s rfl
  · intro hs
    cases e with
    | lost => exact .inr (.inr rfl)
    | rejected => exact nomatch hs
    | failed => exact .inr (.inl rfl)
    | died s => exact absurd hs (hd s rfl)
    | done => exact .inl rfl

example : ∀ t b s y, demoEnv.renders t b s = .died y → y ≠ 0 := nofun

/-! ### C125: a rejected command line changes nothing -/

/-- **C125** violated: the folder for the client is made although the arguments are rejected. -/
theorem C125_rejected_unchanged_violated : ∃ d2, Runs demoEnv (words ["-cd", "new", "zz"]) demoDisk d2 .rejected ∧
    demoDisk.dirs ["x".toList, "new".toList] = false ∧ d2.dirs ["x".toList, "new".toList] = true := by
  obtain ⟨d2, h1, h2⟩ := runs_of (n := 100) (env := demoEnv) (args := words ["-cd", "new", "zz"])
    (d := demoDisk) (a := true) (e := .rejected) (fun d => d.dirs ["x".toList, "new".toList]) (by decide +kernel)
  exact ⟨d2, h1, by decide, h2⟩

/-- Full statement: nothing changes if the arguments are rejected; false by `C125_rejected_unchanged_violated`. Proved: no file
changes, and only the folders given for client and server may be made. -/
theorem C125_rejected_unchanged_partial {env : Env} {args : List Arg} {d d2 : Disk} (h : Runs env args d d2 .rejected) :
    d2.world = d.world ∧ ∀ q, d2.dirs q = d.dirs q ∨ (d2.dirs q = true ∧
      ∃ pwd, env.pwd = some pwd ∧ ∃ o ∈ folders, ∃ v, Given o args v ∧ q = join pwd v) := by
  rcases runs_inv h with ⟨_, _, he⟩ | ⟨pwd, hp, ⟨_, rfl, _⟩ | ⟨_, n, r, _, he⟩⟩
  · exact nomatch he
  · refine ⟨new_world env pwd args d, fun q => ?_⟩
    rw [new_eq]
    simp only
    rcases folder_dirs env (folder env d (path pwd args .consumer)).2.2 (path pwd args .producer) q with h | ⟨h1, h2⟩
    · rw [h]
      rcases folder_dirs env d (path pwd args .consumer) q with h | ⟨h1, h2⟩
      · exact .inl h
      · obtain ⟨v, hv, he⟩ := path_some h1
        exact .inr ⟨h2, pwd, hp, .consumer, by simp [folders], v, hv, he⟩
    · obtain ⟨v, hv, he⟩ := path_some h1
      exact .inr ⟨h2, pwd, hp, .producer, by simp [folders], v, hv, he⟩
  · cases r <;> exact nomatch he

/-! ### C126: asking for help only prints the help -/

/-- **C126** violated: with `-h` the code is generated all the same. -/
theorem C126_help_only_violated : ∃ d2, Runs demoEnv (words ["-h", "-s", "p", "-rs", "new.rs"]) demoDisk d2 .done ∧
    demoDisk.world.files (inX [] "new.rs") = none ∧ (d2.world.files (inX [] "new.rs")).isSome = true := by
  obtain ⟨d2, h1, h2⟩ := runs_of (n := 100) (env := demoEnv) (args := words ["-h", "-s", "p", "-rs", "new.rs"])
    (d := demoDisk) (a := true) (e := .done) (fun d => (d.world.files (inX [] "new.rs")).isSome) (by decide +kernel)
  exact ⟨d2, h1, by decide, h2⟩

/-- Full statement: with a key for help no file changes and the run is a success; false by `C126_help_only_violated`.
Proved: without a source no file changes, with or without `-h`; but then the run counts as failed. -/
theorem C126_help_only_partial {env : Env} {args : List Arg} (hs : ∀ v, ¬ Given .source args v) {d d2 : Disk}
    {e : Ending} (h : Runs env args d d2 e) : d2.world = d.world ∧ (e = .lost ∨ e = .rejected ∨ e = .failed) := by
  rcases runs_inv h with ⟨_, rfl, he⟩ | ⟨pwd, hp, ⟨_, rfl, he⟩ | ⟨_, n, r, ha, he⟩⟩
  · exact ⟨rfl, .inl he⟩
  · exact ⟨new_world env pwd args d, .inr (.inl he)⟩
  · have hsrc : (Opts.new env pwd args d).1.src = none := by
      cases hx : (Opts.new env pwd args d).1.src with
      | none => rfl
      | some p =>
        obtain ⟨v, hv, _⟩ := new_src hx
        exact absurd hv (hs v)
    unfold action at ha
    rw [hsrc] at ha
    cases ha
    exact ⟨new_world env pwd args d, .inr (.inr he)⟩

example : ∀ v, ¬ Given .source (words ["-h"]) v := (valueOf_none .source _).mp (by decide)

/-! ### C127: a successful run has written everything asked for -/

/-- **C127** violated in four ways: a key without value is ignored; with a diagram the code of the workflow is not
written; two outputs with the same name; and with `-h` a destination that is there is ignored. -/
theorem C127_outputs_written_violated :
    (∃ d2, Runs demoEnv (words ["-s", "p", "-rs"]) demoDisk d2 .done) ∧
    (∃ d2, Runs demoEnv (words ["-s", "p", "-wf", "w", "-cd", "c", "-pd", "s", "-d", "u"]) demoDisk d2 .done ∧
      d2.world.files (inX ["s"] "index.ts") = none) ∧
    (∃ d2, Runs demoEnv (words ["-s", "p", "-rs", "x", "-ts", "x", "-o"]) demoDisk d2 .done ∧
      ∃ s, d2.world.files (inX [] "x") = some (.code .typescript false s)) ∧
    (∃ d2, Runs demoEnv (words ["-s", "p", "-rs", "old.rs", "-h"]) demoDisk d2 .done ∧
      d2.world.files (inX [] "old.rs") = some (.other 5)) := by
  obtain ⟨d1, h1, _⟩ := runs_of (n := 100) (env := demoEnv) (args := words ["-s", "p", "-rs"])
    (d := demoDisk) (a := true) (e := .done) (fun _ => true) (by decide +kernel)
  obtain ⟨d2, h2, k2⟩ := runs_of (n := 100) (env := demoEnv)
    (args := words ["-s", "p", "-wf", "w", "-cd", "c", "-pd", "s", "-d", "u"])
    (d := demoDisk) (a := true) (e := .done) (fun d => (d.world.files (inX ["s"] "index.ts")).isNone)
    (by decide +kernel)
  obtain ⟨d3, h3, k3⟩ := runs_of (n := 100) (env := demoEnv) (args := words ["-s", "p", "-rs", "x", "-ts", "x", "-o"])
    (d := demoDisk) (a := true) (e := .done)
    (fun d => match d.world.files (inX [] "x") with
      | some (.code .typescript false _) => true
      | _ => false) (by decide +kernel)
  obtain ⟨d4, h4, k4⟩ := runs_of (n := 100) (env := demoEnv) (args := words ["-s", "p", "-rs", "old.rs", "-h"])
    (d := demoDisk) (a := true) (e := .done) (fun d => d.world.files (inX [] "old.rs") == some (.other 5))
    (by decide +kernel)
  refine ⟨⟨d1, h1⟩, ⟨d2, h2, by simpa using k2⟩, ⟨d3, h3, ?_⟩, ⟨d4, h4, by simpa using k4⟩⟩
  revert k3
  split
  · rename_i s he
    exact fun _ => ⟨s, he⟩
  · exact nofun

/-- Full statement: after a run that ends well, every output asked for is there; false by
`C127_outputs_written_violated`. Proved without `-h`, for outputs given with their values. The protocol code is made
from the protocol and what the workflow adds to it (`s2`); a diagram is there instead of the code of a workflow. Two
outputs with the same name are excluded unless `-o` is missing. -/
theorem C127_outputs_written_partial {env : Env} {pwd : Dir} {args : List Arg} {d d2 : Disk}
    (hp : env.pwd = some pwd) (h : Runs env args d d2 .done) (hh : ¬ Has .help args) :
    ∃ (d1 : Disk) (sv : Arg) (text : List Char) (s s2 : Prot.Store) (em : Bool), d1.world = d.world ∧
      (em = true ↔ Has .embedded args) ∧
      Given .source args sv ∧ env.read d1 (asFile (join pwd sv)) = some text ∧ Prot.Parses text (.accepted s) ∧
      (∀ v, Given .typescript args v →
        d2.world.files (asFile (join pwd v)) = some (.code .typescript em s2)) ∧
      (∀ v, Given .rust args v →
        (¬ Has .overwrite args ∨ ∀ x, Given .typescript args x → asFile (join pwd v) ≠ asFile (join pwd x)) →
        d2.world.files (asFile (join pwd v)) = some (.code .rust em s2)) ∧
      (((∀ v, ¬ Given .workflow args v) ∧ (∀ v, ¬ Given .puml args v) ∧ s2 = s) ∨
        ∃ wv wtext w, Given .workflow args wv ∧ env.read d1 (asFile (join pwd wv)) = some wtext ∧
          Flow.Parses s wtext (.accepted w s2) ∧
          (∀ v, Given .puml args v → (¬ Has .overwrite args ∨
              ∀ o, o = Opt.rust ∨ o = Opt.typescript → ∀ x, Given o args x → asFile (join pwd v) ≠ asFile (join pwd x)) →
            ∃ t, Puml.render w = some t ∧ d2.world.files (asFile (join pwd v)) = some (.scheme t)) ∧
          ((∀ v, ¬ Given .puml args v) → ∃ (cfg : Flow.Config) (c p : Option Dir) (made : World),
            w.config = some cfg ∧ (∀ x, c = some x ↔ ∃ v, Given .consumer args v ∧ x = join pwd v) ∧
            (∀ x, p = some x ↔ ∃ v, Given .producer args v ∧ x = join pwd v) ∧
            Files.render c p cfg (Files.Decls.ofStore w) d.world = (made, true) ∧
            ∀ q, (¬ Has .overwrite args ∧ (made.files q).isSome = true) ∨
                (∀ o, o = Opt.rust ∨ o = Opt.typescript → ∀ x, Given o args x → q ≠ asFile (join pwd x)) →
              d2.world.files q = made.files q)) := by
  rcases runs_inv h with ⟨_, _, he⟩ | ⟨pwd2, hp2, ⟨_, _, he⟩ | ⟨he, n, r, ha, hr⟩⟩
  · exact nomatch he
  · exact nomatch he
  rw [hp] at hp2
  cases hp2
  cases r with
  | err => exact nomatch hr
  | died x => exact nomatch hr
  | ok =>
  obtain ⟨u1, u2, u3, u4, u5, u6, u7⟩ := new_used ((not_rejected he).2 hh)
  obtain ⟨mid, s2, hacts, hm, hd2, hok⟩ := action_ok ha
  obtain ⟨p, text, s, hsrc, hread, hpars, hrest⟩ := hacts.read
  rw [u1] at hsrc
  obtain ⟨sv, hsv, rfl⟩ := path_some hsrc
  obtain ⟨ht, hrs⟩ := protocolCode_ok hok
  have hno : ∀ o, path pwd args o = none → ∀ v, ¬ Given o args v := by
    intro o ho v hv
    rw [path_given hv] at ho
    exact nomatch ho
  have hiff : ∀ o x, path pwd args o = some x ↔ ∃ v, Given o args v ∧ x = join pwd v :=
    fun o x => ⟨path_some, fun ⟨v, hv, hx⟩ => hx ▸ path_given hv⟩
  have how : ¬ Has .overwrite args → flag Opt.overwrite.keys args = false := (flag_false _ _).mpr
  have hkeep : ∀ q, ((¬ Has .overwrite args ∧ (mid.1.world.files q).isSome = true) ∨
      (∀ o, o = Opt.rust ∨ o = Opt.typescript → ∀ x, Given o args x → q ≠ asFile (join pwd x))) →
      d2.world.files q = mid.1.world.files q := by
    intro q hq
    rw [hd2]
    refine (protocolCode_kept ?_).1
    rcases hq with ⟨h1, h2⟩ | h1
    · exact .inr ⟨how h1, .inl h2⟩
    · refine .inl ⟨fun x hx => ?_, fun x hx => ?_⟩
      · rw [u5] at hx
        obtain ⟨v, hv, rfl⟩ := path_some hx
        exact h1 _ (.inl rfl) v hv
      · rw [u6] at hx
        obtain ⟨v, hv, rfl⟩ := path_some hx
        exact h1 _ (.inr rfl) v hv
  refine ⟨(Opts.new env pwd args d).2, sv, text, s, s2, flag Opt.embedded.keys args, new_world env pwd args d,
    flag_iff _ _, hsv, hread, hpars, ?_, ?_, ?_⟩
  · intro v hv
    rw [hd2]
    exact ht _ (u6.trans (path_given hv))
  · intro v hv hx
    rw [hd2]
    refine hrs _ (u5.trans (path_given hv)) (hx.imp how fun hx y hy => ?_)
    rw [u6] at hy
    obtain ⟨x, hx2, rfl⟩ := path_some hy
    exact hx x hx2
  · rcases hrest with ⟨h1, h2, h3, _⟩ | ⟨wp, wt, w, h1, h2, h3, h4⟩
    · exact .inl ⟨hno _ (u2 ▸ h1), hno _ (u7 ▸ h2), h3⟩
    · right
      rw [u2] at h1
      obtain ⟨wv, hwv, rfl⟩ := path_some h1
      refine ⟨wv, wt, w, hwv, h2, h3, ?_, ?_⟩
      · intro v hv hx
        rw [u7, path_given hv] at h4
        simp only at h4
        rw [h4] at hm
        obtain ⟨t, hdr, hsch⟩ := drawing_ok hm
        rw [← h4] at hsch
        refine ⟨t, hdr, ?_⟩
        rw [hkeep, hsch]
        exact hx.imp (fun h => ⟨h, by rw [hsch]; rfl⟩) id
      · intro hx
        have : path pwd args .puml = none := by
          cases hx2 : path pwd args .puml with
          | none => rfl
          | some x =>
            obtain ⟨v, hv, _⟩ := path_some hx2
            exact absurd hv (hx v)
        rw [u7, this] at h4
        simp only at h4
        rw [h4] at hm
        unfold workflowCode at h4 hm
        cases hcfg : w.config with
        | none => rw [hcfg] at hm; exact nomatch hm
        | some cfg =>
          rw [hcfg] at hm h4
          simp only [new_world, u3, u4] at hm h4
          refine ⟨cfg, path pwd args .consumer, path pwd args .producer, mid.1.world, rfl, hiff _, hiff _, ?_, hkeep⟩
          rw [h4]
          refine Prod.ext rfl ?_
          simp only
          split at hm
          · rename_i hb; exact hb
          · exact nomatch hm

/-- A run with both outputs, and one with the code of a workflow. -/
example : (∃ d2, Runs demoEnv (words ["-s", "p", "-rs", "new.rs", "-ts", "new.ts", "-e"]) demoDisk d2 .done ∧
      (match d2.world.files (inX [] "new.rs") with
        | some (.code .rust true s) => s.structs.length == 1
        | _ => false) = true) ∧
    (∃ d2, Runs demoEnv (words ["-s", "p", "-wf", "w", "-cd", "c", "-pd", "s"]) demoDisk d2 .done ∧
      (d2.world.files (inX ["s"] "index.ts")).isSome = true) ∧
    ∃ d2, Runs demoEnv (words ["-s", "p", "-wf", "w", "-d", "u"]) demoDisk d2 .done ∧
      (d2.world.files (inX [] "u")).isSome = true :=
  ⟨runs_of (n := 100) (env := demoEnv) (args := words ["-s", "p", "-rs", "new.rs", "-ts", "new.ts", "-e"])
      (d := demoDisk) (a := true) (e := .done) (fun d => match d.world.files (inX [] "new.rs") with
        | some (.code .rust true s) => s.structs.length == 1
        | _ => false) (by decide +kernel),
    runs_of (n := 100) (env := demoEnv) (args := words ["-s", "p", "-wf", "w", "-cd", "c", "-pd", "s"])
      (d := demoDisk) (a := true) (e := .done) (fun d => (d.world.files (inX ["s"] "index.ts")).isSome)
      (by decide +kernel),
    runs_of (n := 100) (env := demoEnv) (args := words ["-s", "p", "-wf", "w", "-d", "u"])
      (d := demoDisk) (a := true) (e := .done) (fun d => (d.world.files (inX [] "u")).isSome)
      (by decide +kernel)⟩

/-! ### C128: the order of the arguments does not matter -/

/-- **C128** Two argument lists with the same items in a different order do the same, if no option is given twice
and no value is a key. -/
theorem C128_order_irrelevant {env : Env} {a b : List Arg} {x y : List Item} (ha : Reads a x) (hb : Reads b y)
    (hx : NoKeyAsValue x) (h1 : OptsOnce x) (hp : x.Perm y) (d d2 : Disk) (e : Ending) :
    Runs env a d d2 e ↔ Runs env b d d2 e := by
  unfold Runs
  simp only [order_free ha hb hx h1 hp]

example : ∃ x y, Reads (words ["-s", "p", "-o"]) x ∧ Reads (words ["-o", "-s", "p"]) y ∧ NoKeyAsValue x ∧
    OptsOnce x ∧ x.Perm y := by
  refine ⟨[.value .source "-s".toList "p".toList, .flag .overwrite "-o".toList], _,
    .value id (key (by decide)) (.flag trivial (key (by decide)) .nil),
    .flag (o := .overwrite) trivial (key (by decide)) (.value id (key (by decide)) .nil), ?_, by unfold OptsOnce; decide,
    .swap _ _ _⟩
  intro o k v h
  simp at h
  obtain ⟨_, _, rfl⟩ := h
  exact nokey (by decide)

/-! ### C129: only destinations are written to -/

/-- **C129** A file that is changed, made or removed is one of the outputs or lies in one of the folders for the code
of a workflow; a manifest may also lie in a folder around these. -/
theorem C129_only_destinations {env : Env} {args : List Arg} {d d2 : Disk} {e : Ending} (h : Runs env args d d2 e)
    (q : Path) :
    (d2.world.files q ≠ d.world.files q → ∃ pwd, env.pwd = some pwd ∧
      ((∃ o ∈ outputs, ∃ v, Given o args v ∧ q = asFile (join pwd v)) ∨
        ∃ o ∈ folders, ∃ v, Given o args v ∧ join pwd v <+: q.dir)) ∧
    (¬ Same d d2 q → ∃ pwd, env.pwd = some pwd ∧
      ((∃ o ∈ outputs, ∃ v, Given o args v ∧ q = asFile (join pwd v)) ∨
        ∃ o ∈ folders, ∃ v, Given o args v ∧ (join pwd v <+: q.dir ∨ q.dir <+: join pwd v))) := by
  rcases runs_inv h with ⟨_, rfl, _⟩ | ⟨pwd, hp, ⟨_, rfl, _⟩ | ⟨_, n, r, ha, _⟩⟩
  · exact ⟨fun h => absurd rfl h, fun h => absurd ⟨rfl, fun _ => rfl, fun _ => rfl⟩ h⟩
  · unfold Same
    rw [new_world]
    exact ⟨fun h => absurd rfl h, fun h => absurd ⟨rfl, fun _ => rfl, fun _ => rfl⟩ h⟩
  · have outs : (¬ ∃ o ∈ outputs, ∃ v, Given o args v ∧ q = asFile (join pwd v)) →
        (∀ p, (Opts.new env pwd args d).1.uml = some p → q ≠ asFile p) ∧
        (∀ p, (Opts.new env pwd args d).1.rs = some p → q ≠ asFile p) ∧
        (∀ p, (Opts.new env pwd args d).1.ts = some p → q ≠ asFile p) := by
      intro hn
      refine ⟨?_, ?_, ?_⟩
      · rintro p hx hq
        obtain ⟨⟨v, hv, rfl⟩, _⟩ := new_uml hx
        exact hn ⟨.puml, by simp [outputs], v, hv, hq⟩
      · rintro p hx hq
        obtain ⟨v, hv, rfl⟩ := new_rs hx
        exact hn ⟨.rust, by simp [outputs], v, hv, hq⟩
      · rintro p hx hq
        obtain ⟨v, hv, rfl⟩ := new_ts hx
        exact hn ⟨.typescript, by simp [outputs], v, hv, hq⟩
    constructor
    · intro hne
      refine ⟨pwd, hp, Classical.byContradiction fun hn => hne ?_⟩
      obtain ⟨h1, h2⟩ := not_or.mp hn
      obtain ⟨o1, o2, o3⟩ := outs h1
      have := action_files ha (q := q) ?_ ?_ o1 (.inl ⟨o2, o3⟩)
      · rw [new_world] at this
        exact this
      · intro p hx hq
        obtain ⟨v, hv, rfl⟩ := new_consumer hx
        exact h2 ⟨.consumer, by simp [folders], v, hv, hq⟩
      · intro p hx hq
        obtain ⟨v, hv, rfl⟩ := new_producer hx
        exact h2 ⟨.producer, by simp [folders], v, hv, hq⟩
    · intro hne
      refine ⟨pwd, hp, Classical.byContradiction fun hn => hne ?_⟩
      obtain ⟨h1, h2⟩ := not_or.mp hn
      obtain ⟨o1, o2, o3⟩ := outs h1
      have := (action_kept_all ha (q := q) ?_ ?_ o1 ⟨o2, o3⟩).same
      · unfold Same at this ⊢
        rw [new_world] at this
        exact this
      · intro p hx hq
        obtain ⟨v, hv, rfl⟩ := new_consumer hx
        exact h2 ⟨.consumer, by simp [folders], v, hv, hq.symm⟩
      · intro p hx hq
        obtain ⟨v, hv, rfl⟩ := new_producer hx
        exact h2 ⟨.producer, by simp [folders], v, hv, hq.symm⟩

/-! ### C130: the sources are not overwritten -/

/-- **C130** violated: with `-o` the source itself may be the destination; and without `-o` the code of a workflow may
be written over it. -/
theorem C130_sources_kept_violated :
    (∃ d2, Runs demoEnv (words ["-s", "p", "-rs", "p", "-o"]) demoDisk d2 .done ∧
      d2.world.files (inX [] "p") ≠ demoDisk.world.files (inX [] "p")) ∧
    ∃ d2, Runs { demoEnv with read := fun _ f => if f.file = "w".toList then some demoFlowText else some demoProtText }
        (words ["-s", "c/protocol/protocol.ts", "-wf", "w", "-cd", "c", "-pd", "s"]) demoDisk d2 .done ∧
      d2.world.files (inX ["c", "protocol"] "protocol.ts") ≠
        demoDisk.world.files (inX ["c", "protocol"] "protocol.ts") := by
  obtain ⟨d1, h1, k1⟩ := runs_of (n := 100) (env := demoEnv) (args := words ["-s", "p", "-rs", "p", "-o"])
    (d := demoDisk) (a := false) (e := .done)
    (fun d => d.world.files (inX [] "p") == demoDisk.world.files (inX [] "p")) (by decide +kernel)
  obtain ⟨d2, h2, k2⟩ := runs_of (n := 100)
    (env := { demoEnv with read := fun _ f => if f.file = "w".toList then some demoFlowText else some demoProtText })
    (args := words ["-s", "c/protocol/protocol.ts", "-wf", "w", "-cd", "c", "-pd", "s"])
    (d := demoDisk) (a := false) (e := .done)
    (fun d => d.world.files (inX ["c", "protocol"] "protocol.ts") ==
      demoDisk.world.files (inX ["c", "protocol"] "protocol.ts")) (by decide +kernel)
  exact ⟨⟨d1, h1, by simpa using k1⟩, ⟨d2, h2, by simpa using k2⟩⟩

/-- Full statement: the files given as sources stay as they are; false by `C130_sources_kept_violated`. Proved: they
stay if they are not in a folder for code of a workflow, and `-o` is not given or they are no outputs. -/
theorem C130_sources_kept_partial {env : Env} {pwd : Dir} {args : List Arg} {d d2 : Disk} {e : Ending}
    (hp : env.pwd = some pwd) (h : Runs env args d d2 e) {o : Opt} {v : Arg} (_ho : o = .source ∨ o = .workflow)
    (_hg : Given o args v) (hx : (d.world.files (asFile (join pwd v))).isSome = true)
    (hf : ∀ f ∈ folders, ∀ x, Given f args x → ¬ join pwd x <+: (asFile (join pwd v)).dir)
    (hw : ¬ Has .overwrite args ∨ ∀ f ∈ outputs, ∀ x, Given f args x → asFile (join pwd v) ≠ asFile (join pwd x)) :
    d2.world.files (asFile (join pwd v)) = d.world.files (asFile (join pwd v)) := by
  rcases hw with hw | hw
  · refine (C46_files_kept_partial h hw _).2 ?_ hx
    intro pwd2 hp2 f hf2 x hx
    rw [hp] at hp2
    cases hp2
    exact hf f hf2 x hx
  · refine Classical.byContradiction fun hne => ?_
    obtain ⟨pwd2, hp2, ⟨f, hf2, x, hg, hq⟩ | ⟨f, hf2, x, hg, hq⟩⟩ := (C129_only_destinations h _).1 hne
    · rw [hp] at hp2
      cases hp2
      exact hw f hf2 x hg hq
    · rw [hp] at hp2
      cases hp2
      exact hf f hf2 x hg hq

example : Given .source (words ["-s", "p", "-rs", "p"]) "p".toList ∧ ¬ Has .overwrite (words ["-s", "p", "-rs", "p"]) ∧
    (demoDisk.world.files (asFile (join ["x".toList] "p".toList))).isSome = true ∧
    ∀ f ∈ folders, ∀ x, Given f (words ["-s", "p", "-rs", "p"]) x →
      ¬ join ["x".toList] x <+: (asFile (join ["x".toList] "p".toList)).dir := by
  refine ⟨given_demo (by decide), hasnt_demo (by decide), by decide, ?_⟩
  intro f hf x hx
  have : ∀ f ∈ folders, valueOf f.keys (words ["-s", "p", "-rs", "p"]) = none := by decide
  exact absurd hx ((valueOf_none f _).mp (this f hf) x)

/-! ### C131: the same call again -/

/-- **C131** A call that ended well, without `-o` and `-h`, with some output: the same call again, in whatever state
the rest of the system is, is rejected and no file changes. -/
theorem C131_second_run {env env2 : Env} {pwd : Dir} {args : List Arg} {d d2 : Disk} (hp : env.pwd = some pwd)
    (hp2 : env2.pwd = some pwd) (h : Runs env args d d2 .done) (hh : ¬ Has .help args) (hw : ¬ Has .overwrite args)
    {o : Opt} {v : Arg} (ho : o ∈ outputs) (hg : Given o args v) :
    ∃ d3, d3.world = d2.world ∧ ∀ n, main n env2 args d2 = some (d3, .rejected) := by
  refine C46_destination_kept_partial hp2 ho hg hw hh (.inl ?_)
  obtain ⟨d1, sv, text, s, s2, em, _, _, _, _, _, h1, h2, h3⟩ := C127_outputs_written_partial hp h hh
  have ho : o = .rust ∨ o = .typescript ∨ o = .puml := by simpa [outputs] using ho
  rcases ho with rfl | rfl | rfl
  · rw [h2 v hg (.inl hw)]; rfl
  · rw [h1 v hg]; rfl
  · rcases h3 with ⟨_, h3, _⟩ | ⟨_, _, _, _, _, _, h3, _⟩
    · exact absurd hg (h3 v)
    · obtain ⟨t, _, h4⟩ := h3 v hg (.inl hw)
      rw [h4]
      rfl

example : (∃ d2, Runs demoEnv (words ["-s", "p", "-rs", "new.rs"]) demoDisk d2 .done) ∧
    ¬ Has .help (words ["-s", "p", "-rs", "new.rs"]) ∧ ¬ Has .overwrite (words ["-s", "p", "-rs", "new.rs"]) ∧
    Given .rust (words ["-s", "p", "-rs", "new.rs"]) "new.rs".toList := by
  obtain ⟨d2, h1, _⟩ := runs_of (n := 100) (env := demoEnv) (args := words ["-s", "p", "-rs", "new.rs"])
    (d := demoDisk) (a := true) (e := .done) (fun _ => true) (by decide +kernel)
  exact ⟨⟨d2, h1⟩, hasnt_demo (by decide), hasnt_demo (by decide), given_demo (by decide)⟩

/-! ### C132: every call ends -/

/-- **C132** violated: a workflow that ends with a word is never read to its end. -/
theorem C132_every_call_ends_violated : ¬ ∃ d2 e, Runs demoEnv (words ["-s", "p", "-wf", "endless"]) demoDisk d2 e := by
  rintro ⟨d2, e, h⟩
  rcases runs_inv h with ⟨hp, _⟩ | ⟨pwd, hp, ⟨he, _⟩ | ⟨_, n, r, ha, _⟩⟩
  · exact nomatch hp
  · cases hp
    have : hasErrors (words ["-s", "p", "-wf", "endless"])
        (Opts.new demoEnv ["x".toList] (words ["-s", "p", "-wf", "endless"]) demoDisk).1 = false := by decide +kernel
    rw [this] at he
    exact nomatch he
  · cases hp
    have e1 : (Opts.new demoEnv ["x".toList] (words ["-s", "p", "-wf", "endless"]) demoDisk).1.src =
        some ["x".toList, "p".toList] := by decide +kernel
    have e2 : (Opts.new demoEnv ["x".toList] (words ["-s", "p", "-wf", "endless"]) demoDisk).1.workflow =
        some ["x".toList, "endless".toList] := by decide +kernel
    have hs : ∃ s, Prot.Parses demoProtText (.accepted s) := by
      have : (match Prot.loop 100 Prot.PState.init demoProtText with
        | some (.accepted _) => true
        | _ => false) = true := by decide +kernel
      split at this
      · rename_i s hs; exact ⟨s, 100, hs⟩
      · exact nomatch this
    obtain ⟨s, hs⟩ := hs
    have r1 : ∀ d, demoEnv.read d (asFile ["x".toList, "p".toList]) = some demoProtText := fun _ => rfl
    have r2 : ∀ d, demoEnv.read d (asFile ["x".toList, "endless".toList]) = some ['A'] := fun _ => rfl
    unfold action at ha
    rw [e1] at ha
    simp only [r1] at ha
    split at ha
    · exact nomatch ha
    · rename_i hl
      exact nomatch Prot.parses_unique hs ⟨n, hl⟩
    · rename_i hl
      exact nomatch Prot.parses_unique hs ⟨n, hl⟩
    · rename_i hl
      exact nomatch Prot.parses_unique hs ⟨n, hl⟩
    · rename_i s3 hl
      unfold withWorkflow at ha
      rw [e2] at ha
      simp only [r2, Flow.never_ends, Option.isNone_some, Bool.false_and] at ha
      exact nomatch ha

/-- Full statement: every call ends; false by `C132_every_call_ends_violated`. Proved: it ends, in one way, if the workflow
is a text that does not end with a letter, `_`, `@` or `&`, or if there is no workflow; and no call ends in two ways. -/
theorem C132_every_call_ends_partial (env : Env) (args : List Arg) (d : Disk) :
    ((∀ pwd, env.pwd = some pwd → ∀ v, Given .workflow args v → ∀ d1 text, d1.world = d.world →
        env.read d1 (asFile (join pwd v)) = some text → ∀ c, text.getLast? = some c →
          ¬ ((Prot.isAlnum c = true ∧ Prot.isDigit c = false) ∨ c = '_' ∨ c = '@' ∨ c = '&')) →
      ∃ d2 e, Runs env args d d2 e) ∧
    ∀ d2 d3 e2 e3, Runs env args d d2 e2 → Runs env args d d3 e3 → d2 = d3 ∧ e2 = e3 := by
  constructor
  · intro hw
    unfold Runs main
    cases hp : env.pwd with
    | none => exact ⟨_, _, 0, rfl⟩
    | some pwd =>
      simp only
      split
      · exact ⟨_, _, 0, rfl⟩
      · obtain ⟨n, ⟨d2, r⟩, hr⟩ := action_total (env := env) (ow := flag overwriteKeys args)
          (e := flag embeddedKeys args) (o := (Opts.new env pwd args d).1) (d := (Opts.new env pwd args d).2) (by
            intro p s text hp2 hr
            obtain ⟨v, hv, rfl⟩ := new_workflow hp2
            exact (C23_parser_terminates_partial s text).1
              (hw pwd hp v hv _ text (new_world env pwd args d) hr))
        cases r with
        | ok => exact ⟨d2, .done, n, by rw [hr]⟩
        | err => exact ⟨d2, .failed, n, by rw [hr]⟩
        | died x => exact ⟨d2, .died x, n, by rw [hr]⟩
  · rintro d2 d3 e2 e3 ⟨n, h1⟩ ⟨m, h2⟩
    have := main_det h1 h2
    exact Prod.mk.inj this

example : ∀ pwd, demoEnv.pwd = some pwd → ∀ v, Given .workflow (words ["-s", "p", "-wf", "w"]) v → ∀ d1 text,
    d1.world = demoDisk.world → demoEnv.read d1 (asFile (join pwd v)) = some text → ∀ c, text.getLast? = some c →
      ¬ ((Prot.isAlnum c = true ∧ Prot.isDigit c = false) ∨ c = '_' ∨ c = '@' ∨ c = '&') := by
  intro pwd hp v hv d1 text _ hr c hc
  cases hp
  have := (valueOf_iff .workflow _ v).mpr hv
  cases this.symm.trans (show valueOf Opt.workflow.keys (words ["-s", "p", "-wf", "w"]) = some "w".toList by decide)
  cases hr.symm.trans (show demoEnv.read d1 (asFile (join ["x".toList] "w".toList)) = some demoFlowText from rfl)
  cases hc.symm.trans (show demoFlowText.getLast? = some '\n' by decide +kernel)
  decide

end Verif.Props
