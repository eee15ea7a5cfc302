import Verif.Proofs.Cli
import Verif.Proofs.ProtocolParser
import Verif.Proofs.WorkflowText
import Verif.Proofs.WorkflowDecls
set_option autoImplicit false
/-!
How the command line tool ends, and that the order of its arguments does not matter.
-/
namespace Verif.Cli

open Verif Verif.Cli.Spec
open Verif.Files (Name Dir Path Content World)
open Verif.Flow (Target)

/-! ### Status -/

theorem write_died (env : Env) (p : Dir) (c : Content) (d : Disk) (x : Nat) : (write env p c d).2 ≠ .died x := by
  unfold write
  split
  · exact nofun
  · split
    · exact nofun
    · exact nofun

theorem output_died {env : Env} {t : Target} {ow e : Bool} {s : Prot.Store} {dest : Option Dir} {d : Disk} {x : Nat}
    (h : (output env t ow e s dest d).2 = .died x) : env.renders t e s = .died x := by
  unfold output at h
  split at h
  · exact nomatch h
  · split at h
    · exact nomatch h
    · split at h
      · exact nomatch h
      · split at h
        · exact absurd h (write_died _ _ _ _ _)
        · exact h

theorem andThen_died {r : Disk × End} {f : Disk → Disk × End} {x : Nat} (h : (andThen r f).2 = .died x) :
    r.2 = .died x ∨ (f r.1).2 = .died x := by
  obtain ⟨d2, e⟩ := r
  cases e with
  | ok => exact .inr h
  | err => exact nomatch h
  | died s => exact .inl h

theorem action_died {n : Nat} {env : Env} {ow e : Bool} {o : Opts} {d d2 : Disk} {x : Nat}
    (hr : ∀ t b s y, env.renders t b s = .died y → y ≠ 0)
    (h : action n env ow e o d = some (d2, .died x)) : x ≠ 0 := by
  have outs : ∀ s d, (andThen (output env .rust ow e s o.rs d)
      fun d => output env .typescript ow e s o.ts d).2 = .died x → x ≠ 0 := by
    intro s d h
    rcases andThen_died h with h | h
    · exact hr _ _ _ _ (output_died h)
    · exact hr _ _ _ _ (output_died h)
  unfold action at h
  split at h
  · cases h
  · split at h
    · cases h
    · split at h
      · cases h
      · cases h
      · cases h; decide
      · cases h; decide
      · split at h
        · cases h
        · unfold withWorkflow at h
          split at h
          · exact outs _ _ (congrArg Prod.snd (Option.some.inj h))
          · split at h
            · cases h
            · split at h
              · cases h
              · cases h
              · cases h; decide
              · have h := congrArg Prod.snd (Option.some.inj h)
                rcases andThen_died h with h | h
                · split at h
                  · unfold drawing at h
                    split at h
                    · exact absurd h (write_died _ _ _ _ _)
                    · exact nomatch h
                  · unfold workflowCode at h
                    split at h
                    · exact nomatch h
                    · simp only at h
                      split at h
                      · exact nomatch h
                      · exact nomatch h
                · exact outs _ _ h

/-! ### One result -/

theorem flow_loop_det {n m : Nat} {s : Prot.Store} {t : List Char} {a b : Flow.Outcome}
    (h : Flow.loop n (Flow.PState.init s) t = some a) (h2 : Flow.loop m (Flow.PState.init s) t = some b) : a = b :=
  Flow.Syntax.parses_det ⟨n, h⟩ ⟨m, h2⟩

theorem prot_loop_det {n m : Nat} {t : List Char} {a b : Prot.Outcome}
    (h : Prot.loop n Prot.PState.init t = some a) (h2 : Prot.loop m Prot.PState.init t = some b) : a = b :=
  Prot.parses_unique ⟨n, h⟩ ⟨m, h2⟩

theorem withWorkflow_det {n m : Nat} {env : Env} {o : Opts} {s : Prot.Store} {d : Disk}
    {f : Prot.Store → Disk → Disk × End} {a b : Disk × End} (h : withWorkflow n env o s d f = some a)
    (h2 : withWorkflow m env o s d f = some b) : a = b := by
  unfold withWorkflow at h h2
  cases hw : o.workflow with
  | none => rw [hw] at h h2; simp only at h h2; cases h; cases h2; rfl
  | some p =>
    rw [hw] at h h2
    simp only at h h2
    cases ht : env.read d (asFile p) with
    | none => rw [ht] at h h2; simp only at h h2; cases h; cases h2; rfl
    | some text =>
      rw [ht] at h h2
      simp only at h h2
      cases hn : Flow.loop n (Flow.PState.init s) text with
      | none => rw [hn] at h; exact nomatch h
      | some x =>
        cases hm : Flow.loop m (Flow.PState.init s) text with
        | none => rw [hm] at h2; exact nomatch h2
        | some y =>
          have := flow_loop_det hn hm
          subst this
          rw [hn] at h
          rw [hm] at h2
          exact Option.some.inj (h.symm.trans h2)

theorem action_det {n m : Nat} {env : Env} {ow e : Bool} {o : Opts} {d : Disk} {a b : Disk × End}
    (h : action n env ow e o d = some a) (h2 : action m env ow e o d = some b) : a = b := by
  unfold action at h h2
  cases hw : o.src with
  | none => rw [hw] at h h2; simp only at h h2; cases h; cases h2; rfl
  | some p =>
    rw [hw] at h h2
    simp only at h h2
    cases ht : env.read d (asFile p) with
    | none => rw [ht] at h h2; simp only at h h2; cases h; cases h2; rfl
    | some text =>
      rw [ht] at h h2
      simp only at h h2
      cases hn : Prot.loop n Prot.PState.init text with
      | none => rw [hn] at h; exact nomatch h
      | some x =>
        cases hm : Prot.loop m Prot.PState.init text with
        | none => rw [hm] at h2; exact nomatch h2
        | some y =>
          have := prot_loop_det hn hm
          subst this
          rw [hn] at h
          rw [hm] at h2
          cases x with
          | rejected => exact Option.some.inj (h.symm.trans h2)
          | stopped => exact Option.some.inj (h.symm.trans h2)
          | panicked => exact Option.some.inj (h.symm.trans h2)
          | accepted s =>
            simp only at h h2
            split at h
            · rename_i hx
              rw [if_pos hx] at h2
              exact Option.some.inj (h.symm.trans h2)
            · rename_i hx
              rw [if_neg hx] at h2
              exact withWorkflow_det h h2

theorem main_det {n m : Nat} {env : Env} {args : List Arg} {d : Disk} {a b : Disk × Ending}
    (h : main n env args d = some a) (h2 : main m env args d = some b) : a = b := by
  unfold main at h h2
  cases hp : env.pwd with
  | none => rw [hp] at h h2; simp only at h h2; cases h; cases h2; rfl
  | some pwd =>
    rw [hp] at h h2
    simp only at h h2
    split at h
    · rename_i hx
      rw [if_pos hx] at h2
      exact Option.some.inj (h.symm.trans h2)
    · rename_i hx
      rw [if_neg hx] at h2
      split at h
      · exact nomatch h
      all_goals
        rename_i ha
        split at h2
        · exact nomatch h2
        all_goals
          rename_i hb
          have := action_det ha hb
          cases this
          try exact Option.some.inj (h.symm.trans h2)

/-! ### Some result -/

theorem flow_mono : ∀ (n m : Nat) (p : Flow.PState) (c : List Char) (o : Flow.Outcome),
    Flow.loop n p c = some o → n ≤ m → Flow.loop m p c = some o
  | 0, _, _, _, _, h, _ => by simp [Flow.loop] at h
  | n + 1, 0, _, _, _, _, hm => by omega
  | n + 1, m + 1, p, c, o, h, hm => by
    unfold Flow.loop at h ⊢
    split
    · rename_i p2 c2 hs
      rw [hs] at h
      exact flow_mono n m p2 c2 o h (by omega)
    · rename_i o2 hs
      rw [hs] at h
      exact h

theorem action_total {env : Env} {ow e : Bool} {o : Opts} {d : Disk}
    (hr : ∀ p s text, o.workflow = some p → env.read d (asFile p) = some text → ∃ x, Flow.Parses s text x) :
    ∃ n r, action n env ow e o d = some r := by
  unfold action
  cases o.src with
  | none => exact ⟨0, _, rfl⟩
  | some p =>
    simp only
    cases ht : env.read d (asFile p) with
    | none => exact ⟨0, _, rfl⟩
    | some text =>
      simp only
      obtain ⟨x, n, hx⟩ : ∃ x n, Prot.loop n Prot.PState.init text = some x := by
        obtain ⟨x, hx⟩ := Prot.loop_ends (3 * text.length + Prot.rank Prot.PState.init.expect + 1) Prot.PState.init text
          (by omega)
        exact ⟨x, _, hx⟩
      cases x with
      | rejected => exact ⟨n, _, by rw [hx]⟩
      | stopped => exact ⟨n, _, by rw [hx]⟩
      | panicked => exact ⟨n, _, by rw [hx]⟩
      | accepted s =>
        by_cases hu : (o.workflow.isNone && o.uml.isSome) = true
        · exact ⟨n, _, by rw [hx]; simp only; rw [if_pos hu]⟩
        · cases hw : o.workflow with
          | none => exact ⟨n, _, by rw [hx]; simp only; rw [← hw, if_neg hu]; unfold withWorkflow; rw [hw]⟩
          | some wp =>
            cases hwt : env.read d (asFile wp) with
            | none =>
              exact ⟨n, _, by rw [hx]; simp only; rw [← hw, if_neg hu]; unfold withWorkflow; rw [hw]; simp only; rw [hwt]⟩
            | some wtext =>
              obtain ⟨y, m, hy⟩ := hr wp s wtext hw hwt
              have hx2 := Prot.loop_mono n (max n m) _ _ _ hx (by omega)
              have hy2 := flow_mono m (max n m) _ _ _ hy (by omega)
              refine ⟨max n m, ?_⟩
              rw [hx2]
              simp only
              rw [← hw, if_neg hu]
              unfold withWorkflow
              rw [hw]
              simp only
              rw [hwt]
              simp only
              rw [hy2]
              cases y <;> exact ⟨_, rfl⟩

/-! ### Order of arguments -/

theorem find_iff {items : List Item} (h : OptsOnce items) (o : Opt) (i : Item) :
    (items.find? fun i => i.opt == some o) = some i ↔ i ∈ items ∧ i.opt = some o := by
  unfold OptsOnce at h
  induction items with
  | nil => simp
  | cons j rest ih =>
    have hr : (rest.filterMap Item.opt).Nodup := by
      rw [List.filterMap_cons] at h
      split at h
      · exact h
      · exact (List.nodup_cons.mp h).2
    by_cases hj : j.opt = some o
    · rw [List.find?_cons_of_pos (by simp [hj])]
      constructor
      · intro he; cases he; exact ⟨List.mem_cons_self, hj⟩
      · rintro ⟨hm, hi⟩
        rcases List.mem_cons.mp hm with rfl | hm
        · rfl
        · rw [List.filterMap_cons, hj] at h
          exact absurd (List.mem_filterMap.mpr ⟨i, hm, hi⟩) (List.nodup_cons.mp h).1
    · rw [List.find?_cons_of_neg (by simp [hj]), ih hr]
      constructor
      · rintro ⟨hm, hi⟩; exact ⟨List.mem_cons_of_mem _ hm, hi⟩
      · rintro ⟨hm, hi⟩
        rcases List.mem_cons.mp hm with rfl | hm
        · exact absurd hi hj
        · exact ⟨hm, hi⟩

theorem main_congr {n : Nat} {env : Env} {a b : List Arg} {d : Disk}
    (hf : ∀ o : Opt, flag o.keys a = flag o.keys b)
    (hv : ∀ o : Opt, ¬ o.plain → valueOf o.keys a = valueOf o.keys b)
    (hu : (unknown a).isEmpty = (unknown b).isEmpty) : main n env a d = main n env b d := by
  have hp : ∀ pwd (o : Opt), ¬ o.plain → path pwd a o = path pwd b o := by
    intro pwd o ho
    unfold path
    rw [hv o ho]
  have hn : ∀ pwd, Opts.new env pwd a d = Opts.new env pwd b d := by
    intro pwd
    rw [new_eq, new_eq, hf .overwrite, hp pwd .source id, hp pwd .workflow id, hp pwd .rust id,
      hp pwd .typescript id, hp pwd .consumer id, hp pwd .producer id, hp pwd .puml id]
  have he : ∀ o, hasErrors a o = hasErrors b o := by
    intro o
    unfold hasErrors
    rw [hu, show flag helpKeys a = flag helpKeys b from hf .help]
  unfold main
  split
  · rfl
  · rw [hn]
    simp only
    rw [he, show flag overwriteKeys a = flag overwriteKeys b from hf .overwrite,
      show flag embeddedKeys a = flag embeddedKeys b from hf .embedded]

theorem order_free {n : Nat} {env : Env} {a b : List Arg} {d : Disk} {x y : List Item} (ha : Reads a x)
    (hb : Reads b y) (hx : NoKeyAsValue x) (h1 : OptsOnce x) (hp : x.Perm y) :
    main n env a d = main n env b d := by
  have hy : NoKeyAsValue y := fun o k v hm => hx o k v (hp.mem_iff.mpr hm)
  have h2 : OptsOnce y := (hp.filterMap Item.opt).nodup h1
  apply main_congr
  · intro o
    have : Has o a ↔ Has o b := by
      rw [has_items ha hx, has_items hb hy]
      simp only [hp.mem_iff]
    rw [Bool.eq_iff_iff, flag_iff, flag_iff, this]
  · intro o ho
    rw [valueOf_items ho ha hx, valueOf_items ho hb hy]
    congr 1
    apply Option.ext
    intro i
    rw [find_iff h1, find_iff h2, hp.mem_iff]
  · have : unknown a = [] ↔ unknown b = [] := by
      rw [unknown_iff ha hx, unknown_iff hb hy]
      simp only [hp.mem_iff, h1, h2]
    rw [Bool.eq_iff_iff, List.isEmpty_iff, List.isEmpty_iff, this]

end Verif.Cli
