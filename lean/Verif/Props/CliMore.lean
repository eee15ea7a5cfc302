import Verif.Proofs.CliSucceeds
import Verif.Props.Cli
set_option autoImplicit false
/-!
More properties of the command line tool: C133 to C135.
-/
namespace Verif.Props

open Verif Verif.Cli Verif.Cli.Spec
open Verif.Files (Name Dir Path Content World)

/-! ### C133: why a call is rejected -/

/-- **C133** If no value is a key, a call is rejected for each of these reasons: a stray argument; a repeated option; and
without `-h`: a source that is not there, an output that is there without `-o`, a folder that cannot be made. And it is
rejected for no other reason (an output may also be one of the folders just made). -/
theorem C133_rejected_for_a_reason {env : Env} {pwd : Dir} {args : List Arg} {items : List Item} {d : Disk}
    (hp : env.pwd = some pwd) (hr : Reads args items) (hv : NoKeyAsValue items) :
    (((∃ a, Item.stray a ∈ items) ∨ ¬ OptsOnce items ∨ (¬ Has .help args ∧
        ((∃ o, (o = Opt.source ∨ o = Opt.workflow) ∧ ∃ v, Given o args v ∧ ¬ PathAt d (join pwd v)) ∨
          (¬ Has .overwrite args ∧ ∃ o ∈ outputs, ∃ v, Given o args v ∧ PathAt d (join pwd v)) ∨
          (∃ o ∈ folders, ∃ v, Given o args v ∧ ¬ PathAt d (join pwd v) ∧
            ∀ d2, d2.world = d.world → env.canMake d2 (join pwd v) = false)))) →
      ∃ d2, Runs env args d d2 .rejected) ∧
    ((∃ d2, Runs env args d d2 .rejected) →
      (∃ a, Item.stray a ∈ items) ∨ ¬ OptsOnce items ∨ (¬ Has .help args ∧
        ((∃ o, (o = Opt.source ∨ o = Opt.workflow) ∧ ∃ v, Given o args v ∧ ¬ PathAt d (join pwd v)) ∨
          (¬ Has .overwrite args ∧ ∃ o ∈ outputs, ∃ v, Given o args v ∧ (PathAt d (join pwd v) ∨
            ∃ f ∈ folders, ∃ x, Given f args x ∧ join pwd x = join pwd v)) ∨
          (∃ o ∈ folders, ∃ v, Given o args v ∧ ¬ PathAt d (join pwd v) ∧
            ∃ d2, d2.world = d.world ∧ env.canMake d2 (join pwd v) = false)))) := by
  have hu : unknown args ≠ [] ↔ (∃ a, Item.stray a ∈ items) ∨ ¬ OptsOnce items := by
    rw [Ne, unknown_iff hr hv]
    constructor
    · intro h
      refine Classical.byContradiction fun hn => h ?_
      obtain ⟨h1, h2⟩ := not_or.mp hn
      exact ⟨fun a ha => h1 ⟨a, ha⟩, Classical.not_not.mp h2⟩
    · rintro (⟨a, h⟩ | h) ⟨h1, h2⟩
      · exact h1 a h
      · exact h h2
  have hg : ∀ {o : Opt} {x : Dir}, path pwd args o = some x → ∃ v, Given o args v ∧ x = join pwd v := path_some
  rw [rejected_iff hp, hasErrors_iff, hu, errs_iff]
  simp only [source_err, destination_err, folder_err]
  constructor
  · rintro (h | h | ⟨hh, h⟩)
    · exact .inl (.inl h)
    · exact .inl (.inr h)
    · refine .inr ⟨hh, ?_⟩
      rcases h with ⟨o, rfl | rfl, v, h1, h2⟩ | ⟨hw, o, ho, v, h1, h2⟩ | ⟨o, ho, v, h1, h2, h3⟩
      · exact .inl ⟨_, path_given h1, h2⟩
      · exact .inr (.inl ⟨_, path_given h1, h2⟩)
      · have hw : flag Opt.overwrite.keys args = false := (flag_false _ _).mpr hw
        have ho : o = .rust ∨ o = .typescript ∨ o = .puml := by simpa [outputs] using ho
        rcases ho with rfl | rfl | rfl
        · exact .inr (.inr (.inl ⟨_, path_given h1, hw, h2⟩))
        · exact .inr (.inr (.inr (.inl ⟨_, path_given h1, hw, h2⟩)))
        · refine .inr (.inr (.inr (.inr (.inr (.inr ⟨_, path_given h1, hw, ?_⟩)))))
          rw [← has_iff] at h2 ⊢
          exact folder_has env _ _ (folder_has env d _ h2)
      · have ho : o = .consumer ∨ o = .producer := by simpa [folders] using ho
        rcases ho with rfl | rfl
        · exact .inr (.inr (.inr (.inr (.inl ⟨_, path_given h1, h2, h3 d rfl⟩))))
        · by_cases hx : PathAt (folder env d (path pwd args .consumer)).2.2 (join pwd v)
          · rcases folder_at hx with h | h
            · exact absurd h h2
            · exact .inr (.inr (.inr (.inr (.inl ⟨_, h, h2, h3 d rfl⟩))))
          · exact .inr (.inr (.inr (.inr (.inr (.inl ⟨_, path_given h1, hx, h3 _ (folder_world env d _)⟩)))))
  · rintro ((h | h) | ⟨hh, h⟩)
    · exact .inl h
    · exact .inr (.inl h)
    · refine .inr (.inr ⟨hh, ?_⟩)
      rcases h with ⟨x, h1, h2⟩ | ⟨x, h1, h2⟩ | ⟨x, h1, h2, h3⟩ | ⟨x, h1, h2, h3⟩ | ⟨x, h1, h2, h3⟩ | ⟨x, h1, h2, h3⟩ |
        ⟨x, h1, h2, h3⟩
      · obtain ⟨v, hv, rfl⟩ := hg h1
        exact .inl ⟨_, .inl rfl, v, hv, h2⟩
      · obtain ⟨v, hv, rfl⟩ := hg h1
        exact .inl ⟨_, .inr rfl, v, hv, h2⟩
      · obtain ⟨v, hv, rfl⟩ := hg h1
        exact .inr (.inl ⟨(flag_false _ _).mp h2, .rust, by simp [outputs], v, hv, .inl h3⟩)
      · obtain ⟨v, hv, rfl⟩ := hg h1
        exact .inr (.inl ⟨(flag_false _ _).mp h2, .typescript, by simp [outputs], v, hv, .inl h3⟩)
      · obtain ⟨v, hv, rfl⟩ := hg h1
        exact .inr (.inr ⟨.consumer, by simp [folders], v, hv, h2, d, rfl, h3⟩)
      · obtain ⟨v, hv, rfl⟩ := hg h1
        refine .inr (.inr ⟨.producer, by simp [folders], v, hv, ?_, _, folder_world env d (path pwd args .consumer), h3⟩)
        intro h
        rw [← has_iff] at h h2
        exact h2 (folder_has env d _ h)
      · obtain ⟨v, hv, rfl⟩ := hg h1
        refine .inr (.inl ⟨(flag_false _ _).mp h2, .puml, by simp [outputs], v, hv, ?_⟩)
        rcases folder_at h3 with h | h
        · rcases folder_at h with h | h
          · exact .inl h
          · obtain ⟨x, hx, he⟩ := hg h
            exact .inr ⟨.consumer, by simp [folders], x, hx, he.symm⟩
        · obtain ⟨x, hx, he⟩ := hg h
          exact .inr ⟨.producer, by simp [folders], x, hx, he.symm⟩

/-- `-s nowhere`: the source is missing. -/
example : ∃ items, Reads (words ["-s", "nowhere"]) items ∧ NoKeyAsValue items ∧
    ¬ Has .help (words ["-s", "nowhere"]) ∧ Given .source (words ["-s", "nowhere"]) "nowhere".toList ∧
    ¬ PathAt demoDisk (join ["x".toList] "nowhere".toList) := by
  refine ⟨[.value .source "-s".toList "nowhere".toList], .value id (key (by decide)) .nil, ?_, hasnt_demo (by decide),
    given_demo (by decide), (has_false _ _).mp (by decide)⟩
  intro o k v h
  simp at h
  obtain ⟨_, _, rfl⟩ := h
  exact nokey (by decide)

/-! ### C134: where paths lead -/

/-- **C134** A path on the command line leads where it leads from the current folder; and the file it names is the last name
in the folder of the others. -/
theorem C134_paths_resolved (pwd : Dir) (arg : Arg) (p : Dir) :
    (Leads pwd arg p ↔ p = join pwd arg) ∧
    ∀ dir name, p = dir ++ [name] → asFile p = ⟨dir, name⟩ := by
  refine ⟨⟨fun h => leads_unique h (leads_join pwd arg), fun h => h ▸ leads_join pwd arg⟩, ?_⟩
  rintro dir name rfl
  unfold asFile
  simp

example : join ["x".toList] "./a//b".toList = ["x".toList, "a".toList, "b".toList] ∧
    join ["x".toList] "/a/b/".toList = ["a".toList, "b".toList] := by decide

/-! ### C135: a call with nothing wrong succeeds -/

/-- Outputs for protocol code do not meet each other or a folder that is made. -/
def Apart (pwd : Dir) (args : List Arg) : Prop :=
  (∀ a b, Given .rust args a → Given .typescript args b → asFile (join pwd a) ≠ asFile (join pwd b)) ∧
  ∀ o, o = Opt.rust ∨ o = Opt.typescript → ∀ a, Given o args a → ∀ f ∈ folders, ∀ x, Given f args x →
    join pwd a ≠ join pwd x

/-- **C135** A call that is not rejected, without `-h`, whose sources can be read and are accepted, and for which writing,
removing and rendering work, ends well: without workflow, with a diagram, and with code of a workflow if the generators
find what they need (C121). -/
theorem C135_nothing_wrong_succeeds {env : Env} {pwd : Dir} {args : List Arg} {d : Disk} {v : Arg} {text : List Char}
    {s : Prot.Store} (hp : env.pwd = some pwd) (hn : ∀ d2, ¬ Runs env args d d2 .rejected) (hh : ¬ Has .help args)
    (hw : ∀ d p, env.canWrite d p = true ∧ env.canRemove d p = true) (hr : ∀ t e s, env.renders t e s = .ok)
    (hs : Given .source args v)
    (ht : ∀ d1, d1.world = d.world → env.read d1 (asFile (join pwd v)) = some text)
    (hps : Prot.Parses text (.accepted s)) (ho : Has .overwrite args ∨ Apart pwd args)
    (hwf : ((∀ x, ¬ Given .workflow args x) ∧ ∀ x, ¬ Given .puml args x) ∨
      ∃ wv wt w s2, Given .workflow args wv ∧
        (∀ d1, d1.world = d.world → env.read d1 (asFile (join pwd wv)) = some wt) ∧
        Flow.Parses s wt (.accepted w s2) ∧
        ((∃ u, Given .puml args u ∧ (Puml.render w).isSome = true ∧ (Has .overwrite args ∨
            ∀ o, o = Opt.rust ∨ o = Opt.typescript → ∀ a, Given o args a → asFile (join pwd a) ≠ asFile (join pwd u))) ∨
          ((∀ u, ¬ Given .puml args u) ∧ ∃ cfg c p, w.config = some cfg ∧
            (∀ x, c = some x ↔ ∃ v, Given .consumer args v ∧ x = join pwd v) ∧
            (∀ x, p = some x ↔ ∃ v, Given .producer args v ∧ x = join pwd v) ∧
            (Files.render c p cfg (Files.Decls.ofStore w) d.world).2 = true ∧
            (Has .overwrite args ∨ ∀ o, o = Opt.rust ∨ o = Opt.typescript → ∀ a, ¬ Given o args a)))) :
    ∃ d2, Runs env args d d2 .done := by
  have he : hasErrors args (Opts.new env pwd args d).1 = false := by
    rw [← Bool.not_eq_true, ← rejected_iff hp]
    rintro ⟨d2, h⟩
    exact hn d2 h
  have herr := (not_rejected he).2 hh
  obtain ⟨u1, u2, u3, u4, u5, u6, u7⟩ := new_used herr
  have hworld := new_world env pwd args d
  have hnone : ∀ o, (∀ v, ¬ Given o args v) → path pwd args o = none := by
    intro o ho
    cases hx : path pwd args o with
    | none => rfl
    | some x =>
      obtain ⟨v, hv, _⟩ := path_some hx
      exact absurd hv (ho v)
  have how : Has .overwrite args → flag Opt.overwrite.keys args = true := (flag_iff _ _).mpr
  -- where outputs are free
  have hfree : ¬ Has .overwrite args → Apart pwd args → ∀ o, o = Opt.rust ∨ o = Opt.typescript → ∀ x,
      path pwd args o = some x → (Opts.new env pwd args d).2.has x = false := by
    intro hno hap o ho x hx
    obtain ⟨a, ha, rfl⟩ := path_some hx
    have hd : ¬ PathAt d (join pwd a) := by
      intro hpa
      have : (Opts.new env pwd args d).1.errs = true := by
        refine new_errs (o := o) ?_ ha hno ((has_iff _ _).mpr hpa)
        rcases ho with rfl | rfl
        · exact .inl rfl
        · exact .inr (.inl rfl)
      rw [herr] at this
      exact nomatch this
    rw [has_false]
    intro hpa
    rw [new_eq] at hpa
    rcases folder_at hpa with h | h
    · rcases folder_at h with h | h
      · exact hd h
      · obtain ⟨x, hx, he⟩ := path_some h
        exact hap.2 o ho a ha .consumer (by simp [folders]) x hx he
    · obtain ⟨x, hx, he⟩ := path_some h
      exact hap.2 o ho a ha .producer (by simp [folders]) x hx he
  have hdiff : Apart pwd args → ∀ p q, path pwd args .rust = some p → path pwd args .typescript = some q →
      asFile p ≠ asFile q := by
    intro hap p q hp hq
    obtain ⟨a, ha, rfl⟩ := path_some hp
    obtain ⟨b, hb, rfl⟩ := path_some hq
    exact hap.1 a b ha hb
  suffices h : ∃ n, (action n env (flag Opt.overwrite.keys args) (flag Opt.embedded.keys args)
      (Opts.new env pwd args d).1 (Opts.new env pwd args d).2).map (·.2) = some .ok by
    obtain ⟨n, h⟩ := h
    obtain ⟨⟨d2, r⟩, h1, h2⟩ := Option.map_eq_some_iff.mp h
    cases h2
    refine ⟨d2, n, ?_⟩
    unfold main
    rw [hp]
    simp only
    rw [he]
    simp only [Bool.false_eq_true, if_false]
    have h1 : action n env (flag overwriteKeys args) (flag embeddedKeys args) (Opts.new env pwd args d).1
        (Opts.new env pwd args d).2 = some (d2, .ok) := h1
    rw [h1]
  have hsrc := u1.trans (path_given hs)
  have hread := ht _ hworld
  rcases hwf with ⟨h1, h2⟩ | ⟨wv, wt, w, s2, h1, h2, h3, h4⟩
  · refine action_succeeds hsrc hread hps (.inl ⟨u2.trans (hnone _ h1), u7.trans (hnone _ h2), rfl, rfl⟩) ?_
    refine protocolCode_succeeds hw (fun t _ => hr t _ _) ?_
    rw [u5, u6]
    by_cases hno : Has .overwrite args
    · exact .inl (how hno)
    · have hap := ho.resolve_left hno
      exact .inr ⟨hfree hno hap _ (.inl rfl), hfree hno hap _ (.inr rfl), hdiff hap⟩
  · have hwp := u2.trans (path_given h1)
    have hwr := h2 _ hworld
    rcases h4 with ⟨u, hu, hdr, hap2⟩ | ⟨hu, cfg, c, p, hcfg, hc, hpp, hren, hno⟩
    · have hup : (Opts.new env pwd args d).1.uml = some (join pwd u) := u7.trans (path_given hu)
      have hdok : (drawing env (join pwd u) w (Opts.new env pwd args d).2).2 = .ok := by
        unfold drawing
        obtain ⟨t, ht⟩ := Option.isSome_iff_exists.1 hdr
        rw [ht]
        exact write_succeeds hw _ _ _
      refine action_succeeds hsrc hread hps (mid := (drawing env (join pwd u) w (Opts.new env pwd args d).2).1)
        (.inr ⟨_, wt, w, hwp, hwr, h3, ?_⟩) ?_
      · rw [hup]
        exact Prod.ext rfl hdok
      · refine protocolCode_succeeds hw (fun t _ => hr t _ _) ?_
        rw [u5, u6]
        by_cases hno : Has .overwrite args
        · exact .inl (how hno)
        · have hap := ho.resolve_left hno
          have hap2 := hap2.resolve_left hno
          have hk : ∀ o, o = Opt.rust ∨ o = Opt.typescript → ∀ x, path pwd args o = some x →
              (drawing env (join pwd u) w (Opts.new env pwd args d).2).1.has x = false := by
            intro o ho x hx
            refine free_of_kept (hfree hno hap o ho x hx) (drawing_dirs _ _ _ _) (drawing_kept ?_)
            obtain ⟨a, ha, rfl⟩ := path_some hx
            exact hap2 o ho a ha
          exact .inr ⟨hk _ (.inl rfl), hk _ (.inr rfl), hdiff hap⟩
    · have hup : (Opts.new env pwd args d).1.uml = none := u7.trans (hnone _ hu)
      have hopt : ∀ (o : Opt) (c : Option Dir), (∀ x, c = some x ↔ ∃ v, Given o args v ∧ x = join pwd v) →
          path pwd args o = c := by
        intro o c hc
        cases c with
        | none =>
          refine hnone o fun v hv => ?_
          exact nomatch (hc (join pwd v)).mpr ⟨v, hv, rfl⟩
        | some x =>
          obtain ⟨v, hv, hx⟩ := (hc x).mp rfl
          rw [path_given hv, hx]
      have hcp := u3.trans (hopt _ _ hc)
      have hpp := u4.trans (hopt _ _ hpp)
      have hcode : (workflowCode c p w (Opts.new env pwd args d).2).2 = .ok := by
        unfold workflowCode
        rw [hcfg]
        simp only
        rw [hworld, hren]
        rfl
      refine action_succeeds hsrc hread hps (mid := (workflowCode c p w (Opts.new env pwd args d).2).1)
        (.inr ⟨_, wt, w, hwp, hwr, h3, ?_⟩) ?_
      · rw [hup, hcp, hpp]
        exact Prod.ext rfl hcode
      · refine protocolCode_succeeds hw (fun t _ => hr t _ _) ?_
        rw [u5, u6]
        rcases hno with hno | hno
        · exact .inl (how hno)
        · right
          rw [hnone _ (hno _ (.inl rfl)), hnone _ (hno _ (.inr rfl))]
          exact ⟨nofun, nofun, nofun⟩

/-- `-s p -rs old.rs -o`: nothing is wrong although the file is there. -/
example : (∀ d2, ¬ Runs demoEnv (words ["-s", "p", "-rs", "old.rs", "-o"]) demoDisk d2 .rejected) ∧
    ¬ Has .help (words ["-s", "p", "-rs", "old.rs", "-o"]) ∧
    Given .source (words ["-s", "p", "-rs", "old.rs", "-o"]) "p".toList ∧
    (∃ s, Prot.Parses demoProtText (.accepted s)) ∧ Has .overwrite (words ["-s", "p", "-rs", "old.rs", "-o"]) ∧
    (∀ x, ¬ Given .workflow (words ["-s", "p", "-rs", "old.rs", "-o"]) x) ∧
    ∀ x, ¬ Given .puml (words ["-s", "p", "-rs", "old.rs", "-o"]) x := by
  refine ⟨?_, hasnt_demo (by decide), given_demo (by decide), ?_, has_demo (by decide),
    (valueOf_none .workflow _).mp (by decide), (valueOf_none .puml _).mp (by decide)⟩
  · intro d2 h
    have := (rejected_iff (env := demoEnv) (pwd := ["x".toList]) rfl).mp ⟨d2, h⟩
    rw [show hasErrors (words ["-s", "p", "-rs", "old.rs", "-o"]) (Opts.new demoEnv ["x".toList]
      (words ["-s", "p", "-rs", "old.rs", "-o"]) demoDisk).1 = false by decide +kernel] at this
    exact nomatch this
  · have : (match Prot.loop 100 Prot.PState.init demoProtText with
      | some (.accepted _) => true
      | _ => false) = true := by decide +kernel
    split at this
    · rename_i s hs; exact ⟨s, 100, hs⟩
    · exact nomatch this

end Verif.Props
