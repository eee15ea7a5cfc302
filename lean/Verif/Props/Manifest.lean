import Verif.Props.Files
set_option autoImplicit false
/-!
Properties of several generators together and of the manifests they change: C118 to C121.
-/
namespace Verif.Props

open Verif Verif.Files Verif.Files.Spec
open Verif.Flow (Target)

/-- A manifest without dependencies. -/
def emptyManifest : Value := .table fun _ => none

/-- A folder with a `Cargo.toml` and a `package.json`, and no other file. -/
def oneProject : World := ⟨noFiles, fun _ x => if x = dir ["p"] then some (some emptyManifest) else none⟩

/-- A configuration with these targets. -/
def confOf (client server : List Target) : Flow.Config :=
  ⟨server, client, none, none, true, [], .nothing⟩

/-! ### C118: generators do not overwrite each other's files -/

set_option maxRecDepth 20000 in
/-- If client and server go to the same folder, generating succeeds and the client's own top module is
gone. -/
theorem C118_separate_files_violated :
    (render (some (dir ["p"])) (some (dir ["p"])) (confOf [.rust] [.rust]) plainDecls oneProject).2 = true ∧
    run (ops .client .rust plainDecls) noFiles ⟨dir ["implementation"], "mod.rs".toList⟩ =
      some (.static ⟨dir ["implementation"], "mod.rs".toList⟩) ∧
    (render (some (dir ["p"])) (some (dir ["p"])) (confOf [.rust] [.rust]) plainDecls oneProject).1.files
      ⟨dir ["p", "implementation"], "mod.rs".toList⟩ = some (.whole "render_mod".toList) := by
  refine ⟨by decide, by decide, by decide⟩

/-- The folder of a target if the side has several, else of the side. -/
def targetBase (dest : Dir) (outs : List Target) : Target → Dir
  | .rust => if outs.length > 1 then dest ++ dir ["rust"] else dest
  | .typescript => if outs.length > 1 then dest ++ dir ["typescript"] else dest

theorem targetBase_eq (dest : Dir) (outs : List Target) (t : Target) :
    dest ++ targetDir outs t = targetBase dest outs t := by
  unfold targetDir targetBase
  cases t <;> simp only <;> split <;> simp [dir]

theorem render_jobs {a b : Option Dir} {c : Flow.Config} {d : Decls} {w : World}
    (h : (render a b c d w).2 = true) : render a b c d w =
      generateAll d (sideJobs .client a c.consumer ++ sideJobs .server b c.producer) w := by
  unfold render at h ⊢
  split at h
  · exact nomatch h
  · rename_i h1
    split at h
    · exact nomatch h
    · rename_i h2
      rw [if_neg h1, if_neg h2]

theorem mem_sideJobs {side : Side} {dest : Option Dir} {outs : List Target} {x : Job} :
    x ∈ sideJobs side dest outs ↔ ∃ a t, dest = some a ∧ t ∈ outs ∧ x = ⟨side, t, targetBase a outs t⟩ := by
  cases dest with
  | none => simp [sideJobs]
  | some a =>
    unfold sideJobs
    simp only [List.mem_map, targetBase_eq]
    constructor
    · rintro ⟨t, ht, rfl⟩
      exact ⟨a, t, rfl, ht, rfl⟩
    · rintro ⟨a2, t, h, ht, rfl⟩
      cases h
      exact ⟨t, ht, rfl⟩

theorem targetBase_prefix (dest : Dir) (outs : List Target) (t : Target) :
    dest <+: targetBase dest outs t := by
  rw [← targetBase_eq]
  exact List.prefix_append _ _

theorem disjoint_of_prefix {a b x y : Dir} (h : Disjoint a b) (hx : a <+: x) (hy : b <+: y) :
    Disjoint x y := by
  constructor
  · intro hp
    rcases List.prefix_or_prefix_of_prefix (hx.trans hp) hy with h1 | h1
    · exact h.1 h1
    · exact h.2 h1
  · intro hp
    rcases List.prefix_or_prefix_of_prefix hx (hy.trans hp) with h1 | h1
    · exact h.1 h1
    · exact h.2 h1

theorem two_targets {a : Dir} {outs : List Target} {t u : Target} (ht : t ∈ outs) (hu : u ∈ outs)
    (hne : t ≠ u) : Disjoint (targetBase a outs t) (targetBase a outs u) := by
  have hl : outs.length > 1 := by
    match outs, ht, hu with
    | [x], ht, hu =>
      rw [List.mem_singleton] at ht hu
      exact absurd (ht.trans hu.symm) hne
    | _ :: _ :: _, _, _ => simp
  have key : ∀ l m : Dir, l.length = m.length → l ≠ m → Disjoint (a ++ l) (a ++ m) := by
    intro l m he hn
    constructor
    · intro h
      exact hn (((List.prefix_append_right_inj a).mp h).eq_of_length he)
    · intro h
      exact hn (((List.prefix_append_right_inj a).mp h).eq_of_length he.symm).symm
  cases t <;> cases u <;> simp only [targetBase, if_pos hl]
  · exact absurd rfl hne
  · exact key _ _ rfl (by decide)
  · exact key _ _ rfl (by decide)
  · exact absurd rfl hne

/-- Full statement: what a generator wrote is there when all are done; false by
`C118_separate_files_violated`. Proved: if neither destination is inside the other, then below the folder of
each target everything is as if only its generator had run. Two targets of the same side never meet. And
nothing outside the two destinations is touched. -/
theorem C118_separate_files_partial (a b : Option Dir) (c : Flow.Config) (d : Decls) (w : World)
    (h : (render a b c d w).2 = true) (hd : ∀ x y, a = some x → b = some y → Disjoint x y) :
    (∀ x, a = some x → ∀ t ∈ c.consumer,
      below (targetBase x c.consumer t) (render a b c d w).1.files =
        run (ops .client t d) (below (targetBase x c.consumer t) w.files)) ∧
    (∀ y, b = some y → ∀ t ∈ c.producer,
      below (targetBase y c.producer t) (render a b c d w).1.files =
        run (ops .server t d) (below (targetBase y c.producer t) w.files)) ∧
    ∀ p : Path, (∀ x, a = some x → ¬ x <+: p.dir) → (∀ y, b = some y → ¬ y <+: p.dir) →
      (render a b c d w).1.files p = w.files p := by
  have hj := render_jobs h
  rw [hj] at h
  rw [hj]
  refine ⟨?_, ?_, ?_⟩
  · intro x hx t ht
    refine generateAll_below (j := ⟨.client, t, targetBase x c.consumer t⟩) h
      (List.mem_append.mpr (.inl (mem_sideJobs.mpr ⟨x, t, hx, ht, rfl⟩))) ?_
    intro j hm
    rcases List.mem_append.mp hm with hm | hm
    · obtain ⟨x2, u, h1, h2, rfl⟩ := mem_sideJobs.mp hm
      rw [hx] at h1
      cases h1
      by_cases he : u = t
      · exact .inl (by rw [he])
      · exact .inr (two_targets ht h2 (fun e => he e.symm))
    · obtain ⟨y, u, h1, h2, rfl⟩ := mem_sideJobs.mp hm
      exact .inr (disjoint_of_prefix (hd x y hx h1) (targetBase_prefix _ _ _) (targetBase_prefix _ _ _))
  · intro y hy t ht
    refine generateAll_below (j := ⟨.server, t, targetBase y c.producer t⟩) h
      (List.mem_append.mpr (.inr (mem_sideJobs.mpr ⟨y, t, hy, ht, rfl⟩))) ?_
    intro j hm
    rcases List.mem_append.mp hm with hm | hm
    · obtain ⟨x, u, h1, h2, rfl⟩ := mem_sideJobs.mp hm
      have := hd x y h1 hy
      exact .inr (disjoint_of_prefix ⟨this.2, this.1⟩ (targetBase_prefix _ _ _) (targetBase_prefix _ _ _))
    · obtain ⟨y2, u, h1, h2, rfl⟩ := mem_sideJobs.mp hm
      rw [hy] at h1
      cases h1
      by_cases he : u = t
      · exact .inl (by rw [he])
      · exact .inr (two_targets ht h2 (fun e => he e.symm))
  · intro p h1 h2
    refine generateAll_outside ?_
    intro j hm hp
    rcases List.mem_append.mp hm with hm | hm
    · obtain ⟨x, u, e1, e2, rfl⟩ := mem_sideJobs.mp hm
      exact h1 x e1 ((targetBase_prefix _ _ _).trans hp)
    · obtain ⟨y, u, e1, e2, rfl⟩ := mem_sideJobs.mp hm
      exact h2 y e1 ((targetBase_prefix _ _ _).trans hp)

set_option maxRecDepth 20000 in
example : (render (some (dir ["p", "c"])) (some (dir ["p", "s"])) (confOf [.rust, .typescript] [.rust])
    plainDecls oneProject).2 = true ∧ Disjoint (dir ["p", "c"]) (dir ["p", "s"]) :=
  ⟨by decide, by decide, by decide⟩

/-! ### C119: dependencies are added to the nearest manifest, and nothing else changes in it -/

/-- After a generator succeeded: the manifest in the nearest folder (the destination or one above it, not
the root) that has one requires what the generated code needs, provided its dependencies, if there, are a
table. Under other keys and for other dependencies it says what it said before. No other manifest changed,
neither for this language nor for the other. -/
theorem C119_dependencies_added (side : Side) (t : Target) (base : Dir) (d : Decls) (w : World)
    (h : (generate side t base d w).2 = true) : ∃ x old new,
      Nearest (fun x => (w.manifests t x).isSome = true) base x ∧
      w.manifests t x = some (some old) ∧
      (generate side t base d w).1.manifests t x = some (some new) ∧
      (Usable old → ∀ e ∈ required side t, entry new ["dependencies".toList, e.1] = some e.2) ∧
      (∀ k, k ∉ (required side t).map Prod.fst → ∀ more,
        entry new ("dependencies".toList :: k :: more) = entry old ("dependencies".toList :: k :: more)) ∧
      (∀ k, k ≠ "dependencies".toList → ∀ more, entry new (k :: more) = entry old (k :: more)) ∧
      (∀ y, y ≠ x → (generate side t base d w).1.manifests t y = w.manifests t y) ∧
      ∀ t2, t2 ≠ t → (generate side t base d w).1.manifests t2 = w.manifests t2 := by
  obtain ⟨x, v, h1, h2, h3, h4, h5⟩ := generate_manifest h
  obtain ⟨m1, m2, m3⟩ := merge_entries (required side t) (required_nodup side t) v
  exact ⟨x, v, _, h1, h2, h3, m1, m2, m3, h4, h5⟩

set_option maxRecDepth 20000 in
example : (generate .server .rust (dir ["p", "s"]) plainDecls oneProject).2 = true ∧ Usable emptyManifest :=
  ⟨by decide, fun v hv => nomatch hv⟩

/-! ### C120: the manifest requires what each generator needs -/

/-- Client and server in one Rust project: the server's older versions replace the client's. -/
theorem C120_requirements_met_violated :
    (render (some (dir ["p", "c"])) (some (dir ["p", "s"])) (confOf [.rust] [.rust]) plainDecls
      oneProject).2 = true ∧
    dep "thiserror" "1.0.30" ∈ required .client .rust ∧
    ∃ v, (render (some (dir ["p", "c"])) (some (dir ["p", "s"])) (confOf [.rust] [.rust]) plainDecls
      oneProject).1.manifests .rust (dir ["p"]) = some (some v) ∧
      entry v ["dependencies".toList, "thiserror".toList] = some (.leaf "1.0.26".toList) := by
  refine ⟨by decide, by simp [required], _, rfl, by rfl⟩

/-- Full statement: after all generators succeeded, the manifest nearest to the code of each requires what
this code needs; false by `C120_requirements_met_violated`. Proved: every needed dependency is required there,
in a version that some generator for the same language asks for. -/
theorem C120_requirements_met_partial (a b : Option Dir) (c : Flow.Config) (d : Decls) (w : World)
    (h : (render a b c d w).2 = true) (side : Side) (t : Target) (base x : Dir) (v : Value)
    (hj : ⟨side, t, base⟩ ∈ sideJobs .client a c.consumer ++ sideJobs .server b c.producer)
    (hx : Nearest (fun x => (w.manifests t x).isSome = true) base x)
    (hv : w.manifests t x = some (some v)) (hu : Usable v) (e : Name × Value) (he : e ∈ required side t) :
    ∃ new y, (render a b c d w).1.manifests t x = some (some new) ∧
      entry new ["dependencies".toList, e.1] = some y ∧
      Needed (sideJobs .client a c.consumer ++ sideJobs .server b c.producer) t e.1 y := by
  have hr := render_jobs h
  rw [hr] at h
  rw [hr]
  exact generateAll_needed _ w h (fun _ h => h) hv hu
    (.inr ⟨_, hj, rfl, hx, List.mem_map.mpr ⟨e, he, rfl⟩⟩)

/-- For TypeScript, where client and server need the same, this is all of it. -/
theorem C120_requirements_met_typescript (a b : Option Dir) (c : Flow.Config) (d : Decls) (w : World)
    (h : (render a b c d w).2 = true) (side : Side) (base x : Dir) (v : Value)
    (hj : ⟨side, .typescript, base⟩ ∈ sideJobs .client a c.consumer ++ sideJobs .server b c.producer)
    (hx : Nearest (fun x => (w.manifests .typescript x).isSome = true) base x)
    (hv : w.manifests .typescript x = some (some v)) (hu : Usable v) :
    ∃ new, (render a b c d w).1.manifests .typescript x = some (some new) ∧
      entry new ["dependencies".toList, "clibri".toList] = some (.leaf "0.1.2".toList) := by
  obtain ⟨new, y, h1, h2, j, -, -, h3⟩ := C120_requirements_met_partial a b c d w h side .typescript base x v hj hx
    hv hu (dep "clibri" "0.1.2") (by cases side <;> simp [required])
  refine ⟨new, h1, ?_⟩
  have : y = .leaf "0.1.2".toList := by
    cases hs : j.side <;> rw [hs] at h3 <;> simp only [required, dep, List.mem_singleton, Prod.mk.injEq] at h3 <;>
      exact h3.2
  rw [← this]
  exact h2

set_option maxRecDepth 20000 in
example : (render (some (dir ["p", "c"])) (some (dir ["p", "s"])) (confOf [.typescript] [.rust]) plainDecls
      oneProject).2 = true ∧
    Nearest (fun x => (oneProject.manifests .typescript x).isSome = true) (dir ["p", "c"]) (dir ["p"]) ∧
    oneProject.manifests .typescript (dir ["p"]) = some (some emptyManifest) := by
  refine ⟨by decide, ⟨by decide, by decide, by rfl, ?_⟩, rfl⟩
  intro e he hp hs
  have : e = dir ["p"] := by
    simp only [oneProject] at hs
    split at hs
    · assumption
    · exact nomatch hs
  rw [this]
  exact Nat.le_refl _

/-! ### C121: a failed generation leaves no files -/

set_option maxRecDepth 20000 in
/-- Without any manifest a run fails, and all files of the generator are there nevertheless. -/
theorem C121_failed_generation_violated :
    (render none (some (dir ["p"])) (confOf [] [.rust]) plainDecls ⟨noFiles, fun _ _ => none⟩).2 = false ∧
    (render none (some (dir ["p"])) (confOf [] [.rust]) plainDecls ⟨noFiles, fun _ _ => none⟩).1.files
      ⟨dir ["p"], "context.rs".toList⟩ = some (.static ⟨[], "context.rs".toList⟩) := by
  refine ⟨by decide, by decide⟩

/-- Full statement: if generating fails, no file and no manifest has changed; false by
`C121_failed_generation_violated`. Proved: so it is if a destination is missing; and otherwise generating fails
if and only if above the folder of some target there is no manifest, or the nearest one cannot be parsed. -/
theorem C121_failed_generation_partial (a b : Option Dir) (c : Flow.Config) (d : Decls) (w : World) :
    ((a = none ∧ c.consumer ≠ [] ∨ b = none ∧ c.producer ≠ []) → render a b c d w = (w, false)) ∧
    (¬ (a = none ∧ c.consumer ≠ [] ∨ b = none ∧ c.producer ≠ []) →
      ((render a b c d w).2 = true ↔
        ∀ j ∈ sideJobs .client a c.consumer ++ sideJobs .server b c.producer, ∃ x v,
          Nearest (fun x => (w.manifests j.target x).isSome = true) j.base x ∧
          w.manifests j.target x = some (some v))) := by
  constructor
  · intro h
    unfold render
    rcases h with ⟨rfl, h⟩ | ⟨rfl, h⟩
    · rw [if_pos]
      cases hc : c.consumer with
      | nil => exact absurd hc h
      | cons x l => rfl
    · split
      · rfl
      · rw [if_pos]
        cases hc : c.producer with
        | nil => exact absurd hc h
        | cons x l => rfl
  · intro hd
    have h1 : (a.isNone && ! c.consumer.isEmpty) = false := by
      cases a with
      | some x => rfl
      | none => cases hc : c.consumer with
        | nil => rfl
        | cons x l => exact absurd (.inl ⟨rfl, by rw [hc]; simp⟩) hd
    have h2 : (b.isNone && ! c.producer.isEmpty) = false := by
      cases b with
      | some x => rfl
      | none => cases hc : c.producer with
        | nil => rfl
        | cons x l => exact absurd (.inr ⟨rfl, by rw [hc]; simp⟩) hd
    unfold render
    rw [h1, h2]
    simp only [Bool.false_eq_true, if_false]
    exact ⟨generateAll_only d _ w, generateAll_ok d _ w⟩

set_option maxRecDepth 20000 in
example : render none none (confOf [] [.rust]) plainDecls oneProject = (oneProject, false) := rfl

end Verif.Props
