import Verif.Proofs.FilesListed
import Verif.Proofs.Manifest
import Verif.Proofs.WorkflowNames
import Verif.Props.Workflow
set_option autoImplicit false
/-!
Properties of the files a generated server or client consists of: C49, C113 to C117.
-/
namespace Verif.Props

open Verif Verif.Files Verif.Files.Spec
open Verif.Flow (Target)

/-! ### Accepted workflows for the witnesses -/

/-- A protocol some of whose names make trouble. -/
def fileProtText : List Char :=
  ("group A { struct B { str a; } }\nstruct A_B { str a; }\nstruct AB { str a; }\n" ++
    "struct Mod { str a; }\nstruct Error { str a; }\nstruct Loop { str a; }\nstruct Ab { str a; }").toList

/-- A field `str a`. -/
def strField (id par : Nat) : Prot.Field :=
  ⟨id, par, ['a'], ['s', 't', 'r'], none, [], false, false, [['s', 't', 'r']]⟩

/-- What the protocol parser makes of it. -/
def fileProt : Prot.Store where
  sequence := 15
  structs := [
    ⟨2, 1, ['B'], [strField 3 2], [['A']]⟩,
    ⟨4, 0, "A_B".toList, [strField 5 4], []⟩,
    ⟨6, 0, "AB".toList, [strField 7 6], []⟩,
    ⟨8, 0, "Mod".toList, [strField 9 8], []⟩,
    ⟨10, 0, "Error".toList, [strField 11 10], []⟩,
    ⟨12, 0, "Loop".toList, [strField 13 12], []⟩,
    ⟨14, 0, "Ab".toList, [strField 15 14], []⟩]
  enums := []
  groups := [⟨1, 0, ['A'], [2], [], []⟩]
  cStruct := none
  cGroup := none
  cEnum := none
  cField := none
  path := []

set_option maxRecDepth 20000 in
theorem fileProt_parses : Prot.Parses fileProtText (.accepted fileProt) := ⟨300, by rfl⟩

/-- The declarations of some accepted workflow with a configuration, for some accepted protocol. -/
def Accepted (d : Decls) : Prop :=
  ∃ ptext pr text s pr2, Prot.Parses ptext (.accepted pr) ∧ Flow.Parses pr text (.accepted s pr2) ∧
    s.config.isSome = true ∧ Decls.ofStore s = d

/-- Two requests that differ in case only. -/
def caseDecls : Decls := ⟨["AB".toList, "Ab".toList], [], [], []⟩

set_option maxRecDepth 20000 in
set_option maxHeartbeats 1000000 in
theorem caseDecls_accepted : Accepted caseDecls :=
  ⟨fileProtText, fileProt,
    ("&config { Producer: rust; Consumer: rust; SelfKey: AB; AssignedKey: AB; }\n" ++
      "AB!AB{(AB);}\nAb!AB{(AB);}\n").toList,
    _, _, fileProt_parses, ⟨100, by rfl⟩, by rfl, by rfl⟩

/-- A request `Mod`. -/
def modDecls : Decls := ⟨["Mod".toList], [], [], []⟩

set_option maxRecDepth 20000 in
set_option maxHeartbeats 1000000 in
theorem modDecls_accepted : Accepted modDecls :=
  ⟨fileProtText, fileProt,
    ("&config { Producer: rust; Consumer: rust; SelfKey: AB; AssignedKey: AB; }\n" ++
      "Mod!AB{(AB);}\n").toList,
    _, _, fileProt_parses, ⟨100, by rfl⟩, by rfl, by rfl⟩

/-- Requests in a group and next to it. -/
def groupDecls : Decls := ⟨["A.B".toList, "AB".toList], [], [], []⟩

set_option maxRecDepth 20000 in
set_option maxHeartbeats 1000000 in
theorem groupDecls_accepted : Accepted groupDecls :=
  ⟨fileProtText, fileProt,
    ("&config { Producer: typescript; Consumer: typescript; SelfKey: AB; AssignedKey: AB; }\n" ++
      "A.B!AB{(AB);}\nAB!AB{(AB);}\n").toList,
    _, _, fileProt_parses, ⟨100, by rfl⟩, by rfl, by rfl⟩

/-- Events whose names are not free. -/
def eventDecls : Decls := ⟨[], ["Error".toList, "Loop".toList], [], ["AB".toList, "AB".toList]⟩

set_option maxRecDepth 20000 in
set_option maxHeartbeats 1000000 in
theorem eventDecls_accepted : Accepted eventDecls :=
  ⟨fileProtText, fileProt,
    ("&config { Producer: rust; Consumer: rust; SelfKey: AB; AssignedKey: AB; }\n" ++
      "@Error { > AB; }\n@Loop { > AB; }\n").toList,
    _, _, fileProt_parses, ⟨100, by rfl⟩, by rfl, by rfl⟩

/-- Declarations without trouble. -/
def plainDecls : Decls :=
  ⟨["A.B".toList, "Loop".toList], ["connected".toList, "AB".toList], ["A_B".toList], ["AB".toList]⟩

theorem plainDecls_apart (side : Side) (t : Target) (k : Kind) :
    Apart side t k (declared plainDecls k) := by
  cases side <;> cases t <;> cases k <;> exact apart_of_files (by decide) (by decide)

theorem accepted_declared {d : Decls} (h : Accepted d) (k : Kind) : ∀ r ∈ declared d k, Dotted r := by
  obtain ⟨ptext, pr, text, s, pr2, h1, h2, -, rfl⟩ := h
  exact declared_dotted h1 h2 k

/-! ### C49: different declarations go to different files -/

/-- No file at all. -/
def noFiles : Files := fun _ => none

theorem nowhere {ops : List Op} {c : Content} {p0 : Path} (hp : ∀ op ∈ ops, op.content = c → op.path = p0)
    (hr : run ops noFiles p0 ≠ some c) (p : Path) : run ops noFiles p ≠ some c := by
  intro h
  rcases run_from h with h2 | ⟨op, ho, h1, h2⟩
  · exact nomatch h2
  · rw [← h1, hp op ho h2] at h
    exact hr h

set_option maxRecDepth 20000 in
/-- Of two accepted requests that differ in case only, the first has no generated handler and the second no
file for its answer; and there is no emitter for an accepted event `Error`. -/
theorem C49_own_files_violated :
    (Accepted caseDecls ∧ "AB".toList ∈ caseDecls.requests ∧
      (∀ p, run (ops .server .rust caseDecls) noFiles p ≠
        some (.made "render_request_handler".toList "AB".toList)) ∧
      ∀ p, run (ops .server .rust caseDecls) noFiles p ≠
        some (.made "render_request_response".toList "Ab".toList)) ∧
    (Accepted eventDecls ∧ "Error".toList ∈ eventDecls.events ∧
      ∀ p, run (ops .server .rust eventDecls) noFiles p ≠
        some (.made "render_event_emitter".toList "Error".toList)) := by
  refine ⟨⟨caseDecls_accepted, by decide, ?_, ?_⟩, eventDecls_accepted, by decide, ?_⟩
  · exact nowhere (p0 := ⟨dir ["implementation", "handlers"], "ab.rs".toList⟩) (by decide) (by decide)
  · exact nowhere (p0 := ⟨dir ["responses"], "ab.rs".toList⟩) (by decide) (by decide)
  · exact nowhere (p0 := ⟨dir ["implementation", "emitters"], "error.rs".toList⟩) (by decide) (by decide)

/-- Full statement: every declaration of an accepted workflow has a file of its own with the code made
for it, and one of its own for the user; false by `C49_own_files_violated`. Proved: so it is if no two
references of the kind differ only in case (in Rust also in `.` and `_`) and none is such a variant of a
name the generator uses itself. Files of the user are made only where there is nothing yet. -/
theorem C49_own_files_partial (side : Side) (t : Target) (k : Kind) (d : Decls) (fs : Files)
    (h : Apart side t k (declared d k)) :
    ∃ place : Ref → Name, (∀ r ∈ declared d k, ∀ r2 ∈ declared d k, place r = place r2 → r = r2) ∧
      (∀ D rend, codePlace side t k = some (D, rend) → ∀ r ∈ declared d k,
        run (ops side t d) fs ⟨dir D, place r⟩ = some (.made rend.toList r)) ∧
      (∀ D rend, userPlace side t k = some (D, rend) → ∀ r ∈ declared d k,
        (fs ⟨dir D, place r⟩ = none →
          run (ops side t d) fs ⟨dir D, place r⟩ = some (.made rend.toList r)) ∧
        ∀ c, fs ⟨dir D, place r⟩ = some c → run (ops side t d) fs ⟨dir D, place r⟩ = some c) := by
  refine ⟨fileName t, fun r hr r2 h2 he => h.1 r hr r2 h2 ((fileName_iff t r r2).mp he), ?_, ?_⟩
  · intro D rend hp r hr
    obtain ⟨s⟩ := code_slots hp d
    rw [s.run_at h hr]
    rfl
  · intro D rend hp r hr
    obtain ⟨s⟩ := user_slots hp d
    refine ⟨fun hn => ?_, fun c hc => ?_⟩
    · rw [s.run_at h hr, hn]
      rfl
    · rw [s.run_at h hr, hc]
      rfl

example : Apart .server .rust .event (declared plainDecls .event) ∧
    codePlace .server .rust .event = some (["implementation", "emitters"], "render_event_emitter") :=
  ⟨plainDecls_apart _ _ _, rfl⟩

/-! ### C113: files of the user are never overwritten -/

set_option maxRecDepth 20000 in
/-- The answer to an accepted request `Mod` is to be written in `responses/mod.rs`; the next run replaces
this file whatever is in it. -/
theorem C113_user_files_kept_violated : Accepted modDecls ∧
    run (ops .server .rust modDecls) noFiles ⟨dir ["responses"], "mod.rs".toList⟩ =
      some (.mods ["mod".toList]) ∧
    UserFile .server .rust ⟨dir ["responses"], "mod.rs".toList⟩ ∧
    ∀ fs : Files, run (ops .server .rust modDecls) fs ⟨dir ["responses"], "mod.rs".toList⟩ =
      some (.mods ["mod".toList]) := by
  have h : ∀ fs : Files, run (ops .server .rust modDecls) fs ⟨dir ["responses"], "mod.rs".toList⟩ =
      some (.mods ["mod".toList]) := fun fs =>
    listing_at (side := .server) (D := ["responses"]) (k := .request) (by simp [listings]) modDecls fs
  exact ⟨modDecls_accepted, h _, by simp [UserFile], h⟩

/-- Full statement: a file in a folder the user works in stays as it is when the code is generated again;
false by `C113_user_files_kept_violated`. Proved: for every file that is not a Rust `mod.rs`, whatever is
declared. -/
theorem C113_user_files_kept_partial (side : Side) (t : Target) (d : Decls) (fs : Files) (p : Path) (c : Content)
    (hp : UserFile side t p) (hm : t = .rust → p.file ≠ "mod.rs".toList) (hc : fs p = some c) :
    run (ops side t d) fs p = some c := by
  rw [user_kept hp hm d fs (by rw [hc]; rfl), hc]

example : UserFile .server .rust ⟨dir ["responses"], "a_b.rs".toList⟩ ∧
    (Target.rust = .rust → "a_b.rs".toList ≠ "mod.rs".toList) :=
  ⟨by simp [UserFile], fun _ => by decide⟩

/-- For TypeScript there is no exception. -/
theorem C113_user_files_kept_typescript (side : Side) (d : Decls) (fs : Files) (p : Path) (c : Content)
    (hp : UserFile side .typescript p) (hc : fs p = some c) :
    run (ops side .typescript d) fs p = some c :=
  C113_user_files_kept_partial side .typescript d fs p c hp (fun h => nomatch h) hc

example : UserFile .server .typescript ⟨dir ["responses"], "mod.ts".toList⟩ := by simp [UserFile]

/-! ### C114: generating again changes nothing -/

/-- Whether it succeeds or not: a second run with the same workflow ends like the first, with the same
files and manifests. -/
theorem C114_regeneration_changes_nothing (client server : Option Dir) (c : Flow.Config) (d : Decls)
    (w : World) : render client server c d (render client server c d w).1 = render client server c d w := by
  unfold render
  split
  · rfl
  · split
    · rfl
    · exact generateAll_twice d _ w

/-! ### C115: lists of modules are complete -/

/-- A Rust `mod.rs` next to the files of declarations lists, for every declaration, a module, and lists
no module without a file, nor one nobody declared. Every Rust file added next to it is listed. -/
theorem C115_module_lists_complete (side : Side) (D : List String) (k : Kind) (h : (D, k) ∈ listings side)
    (d : Decls) (fs : Files) : ∃ names,
      run (ops side .rust d) fs ⟨dir D, "mod.rs".toList⟩ = some (.mods names) ∧
      (∀ n ∈ names, (run (ops side .rust d) fs ⟨dir D, n ++ ".rs".toList⟩).isSome = true) ∧
      (∀ r ∈ declared d k, ∃ n ∈ names, Alike .rust n r) ∧
      (∀ n ∈ names, (∃ r ∈ declared d k, Alike .rust n r) ∨
        k = .event ∧ n ∈ ["connected", "disconnected", "error", "ready", "shutdown"].map String.toList) ∧
      (∀ n, n ≠ "mod".toList → fs ⟨dir D, n ++ ".rs".toList⟩ = none →
        (run (ops side .rust d) fs ⟨dir D, n ++ ".rs".toList⟩).isSome = true → n ∈ names) := by
  refine ⟨modsOf d k, listing_at h d fs, fun n hn => listed_there h d fs hn, ?_, ?_,
    fun n h1 h2 h3 => written_listed h d fs h1 h2 h3⟩
  · intro r hr
    cases k with
    | request => exact ⟨_, List.mem_map.mpr ⟨r, hr, rfl⟩, alike_rustName r⟩
    | beacon => exact ⟨_, List.mem_map.mpr ⟨r, hr, rfl⟩, alike_rustName r⟩
    | broadcast =>
      exact ⟨_, List.mem_map.mpr ⟨r, (mem_distinct _ _).mpr hr, rfl⟩, alike_rustName r⟩
    | event =>
      by_cases hd : Flow.isDefaultEvent r = true
      · have hr2 := default_cases hd
        refine ⟨r, List.mem_append.mpr (.inl ?_), (rustName_iff _ _).mp rfl⟩
        rcases hr2 with rfl | rfl <;> decide
      · refine ⟨_, List.mem_append.mpr (.inr (List.mem_map.mpr ⟨r, ?_, rfl⟩)), alike_rustName r⟩
        exact List.mem_filter.mpr ⟨hr, by simpa using hd⟩
  · intro n hn
    cases k with
    | request =>
      obtain ⟨r, hr, rfl⟩ := List.mem_map.mp hn
      exact .inl ⟨r, hr, alike_rustName r⟩
    | beacon =>
      obtain ⟨r, hr, rfl⟩ := List.mem_map.mp hn
      exact .inl ⟨r, hr, alike_rustName r⟩
    | broadcast =>
      obtain ⟨r, hr, rfl⟩ := List.mem_map.mp hn
      exact .inl ⟨r, (mem_distinct _ _).mp hr, alike_rustName r⟩
    | event =>
      rcases List.mem_append.mp hn with hn | hn
      · exact .inr ⟨rfl, hn⟩
      · obtain ⟨r, hr, rfl⟩ := List.mem_map.mp hn
        exact .inl ⟨r, (List.mem_filter.mp hr).1, alike_rustName r⟩

example : ((["implementation", "emitters"], Kind.event) : List String × Kind) ∈ listings .server := by
  simp [listings]

/-- The same for the handlers a TypeScript server exports. Each is exported under the name of its
declaration without points and with `Handler` after it. -/
theorem C115_export_lists_complete (D : List String) (k : Kind) (h : (D, k) ∈ exportings) (d : Decls)
    (fs : Files) : ∃ l,
      run (ops .server .typescript d) fs ⟨dir D, "index.ts".toList⟩ = some (.exports l) ∧
      (∀ e ∈ l, (run (ops .server .typescript d) fs ⟨dir D, e.2 ++ ".ts".toList⟩).isSome = true) ∧
      (∀ r ∈ declared d k, ∃ e ∈ l, Alike .typescript e.2 r ∧
        SameButFirst (noPoints r ++ "Handler".toList) e.1) ∧
      (∀ e ∈ l, (∃ r ∈ declared d k, Alike .typescript e.2 r ∧
          SameButFirst (noPoints r ++ "Handler".toList) e.1) ∨
        k = .event ∧ e.2 ∈ ["connected", "disconnected", "error", "ready", "shutdown"].map String.toList ∧
          e.1 = e.2 ++ "Handler".toList) ∧
      (∀ n, n ≠ "index".toList → fs ⟨dir D, n ++ ".ts".toList⟩ = none →
        (run (ops .server .typescript d) fs ⟨dir D, n ++ ".ts".toList⟩).isSome = true → ∃ e ∈ l, e.2 = n) := by
  have alike : ∀ r, Alike .typescript (tsExport r).2 r ∧
      SameButFirst (noPoints r ++ "Handler".toList) (tsExport r).1 := by
    intro r
    refine ⟨(lower_iff _ _).mp ?_, tsExport_same r⟩
    show lower (lower r) = lower r
    unfold lower
    rw [List.map_map]
    congr 1
    funext c
    rw [Function.comp, char_eq_iff, toNat_lower c.toLower, toNat_lower]
    repeat' split
    all_goals omega
  refine ⟨exportsOf d k, exporting_at h d fs, fun e he => exported_there h d fs he, ?_, ?_,
    fun n h1 h2 h3 => written_exported h d fs h1 h2 h3⟩
  · intro r hr
    cases k with
    | request => exact ⟨_, List.mem_map.mpr ⟨r, hr, rfl⟩, alike r⟩
    | beacon => exact ⟨_, List.mem_map.mpr ⟨r, hr, rfl⟩, alike r⟩
    | broadcast => simp [exportings] at h
    | event =>
      by_cases hd : Flow.isDefaultEvent r = true
      · have hr2 := default_cases hd
        refine ⟨(r ++ "Handler".toList, r), List.mem_append.mpr (.inr ?_), (lower_iff _ _).mp rfl, ?_⟩
        · rcases hr2 with rfl | rfl <;> decide
        · rcases hr2 with rfl | rfl <;> exact ⟨.inl rfl, rfl⟩
      · refine ⟨_, List.mem_append.mpr (.inl (List.mem_map.mpr ⟨r, ?_, rfl⟩)), alike r⟩
        exact List.mem_filter.mpr ⟨hr, by simpa using hd⟩
  · intro e he
    cases k with
    | request =>
      obtain ⟨r, hr, rfl⟩ := List.mem_map.mp he
      exact .inl ⟨r, hr, alike r⟩
    | beacon =>
      obtain ⟨r, hr, rfl⟩ := List.mem_map.mp he
      exact .inl ⟨r, hr, alike r⟩
    | broadcast => simp [exportings] at h
    | event =>
      rcases List.mem_append.mp he with he | he
      · obtain ⟨r, hr, rfl⟩ := List.mem_map.mp he
        exact .inl ⟨r, (List.mem_filter.mp hr).1, alike r⟩
      · obtain ⟨w, hw, rfl⟩ := List.mem_map.mp he
        refine .inr ⟨rfl, List.mem_map.mpr ⟨w, ?_, rfl⟩, rfl⟩
        simp only [List.mem_cons, List.not_mem_nil, or_false] at hw ⊢
        rcases hw with rfl | rfl | rfl | rfl | rfl <;> simp

example : ((["implementation", "events"], Kind.event) : List String × Kind) ∈ exportings := by
  simp [exportings]

/-! ### C116: no name is declared twice in generated lists -/

set_option maxRecDepth 20000 in
/-- Two accepted requests give `pub mod ab; pub mod ab;`, two others give `aBHandler` twice. -/
theorem C116_names_once_violated :
    (Accepted caseDecls ∧ ∀ fs, run (ops .server .rust caseDecls) fs
      ⟨dir ["implementation", "handlers"], "mod.rs".toList⟩ = some (.mods ["ab".toList, "ab".toList])) ∧
    (Accepted groupDecls ∧ ∀ fs, run (ops .server .typescript groupDecls) fs
      ⟨dir ["implementation", "responses"], "index.ts".toList⟩ =
        some (.exports [("aBHandler".toList, "a.b".toList), ("aBHandler".toList, "ab".toList)])) :=
  ⟨⟨caseDecls_accepted, fun fs => listing_at (side := .server) (D := ["implementation", "handlers"])
      (k := .request) (by simp [listings]) caseDecls fs⟩,
    groupDecls_accepted, fun fs => exporting_at (D := ["implementation", "responses"]) (k := .request)
      (by simp [exportings]) groupDecls fs⟩

/-- Full statement: in a generated list no module and no handler has the name of another one; false by
`C116_names_once_violated`. Proved: for references declared once that do not differ in case, `.` and `_` only
(Rust) or in points and the case of the first letter only (TypeScript), nor from names every server
uses. -/
theorem C116_names_once_partial (d : Decls) (fs : Files) :
    (∀ side D k, (D, k) ∈ listings side → Apart side .rust k (declared d k) →
      (k ≠ .broadcast → (declared d k).Nodup) → ∀ names,
      run (ops side .rust d) fs ⟨dir D, "mod.rs".toList⟩ = some (.mods names) → names.Nodup) ∧
    (∀ D k, (D, k) ∈ exportings → ExportsApart k (declared d k) → (declared d k).Nodup → ∀ l,
      run (ops .server .typescript d) fs ⟨dir D, "index.ts".toList⟩ = some (.exports l) →
      (l.map Prod.fst).Nodup) := by
  refine ⟨?_, ?_⟩
  · intro side D k h ha hn names hr
    rw [listing_at h d fs] at hr
    cases hr
    refine mods_nodup ha ?_ hn
    cases side
    · exact .inl rfl
    · right
      simp only [listings, List.mem_cons, Prod.mk.injEq, List.not_mem_nil, or_false] at h
      exact h.2
  · intro D k h ha hn l hr
    rw [exporting_at h d fs] at hr
    cases hr
    exact exports_nodup ha hn

theorem exportsApart_of {k : Kind} {l : List Ref}
    (h1 : ∀ r ∈ l, ∀ r2 ∈ l, firstLower (noPoints r) = firstLower (noPoints r2) → r = r2)
    (h2 : k = .event → ∀ r ∈ l, ∀ w ∈ ["connected", "disconnected", "error", "ready", "shutdown"],
      firstLower (noPoints r) = firstLower w.toList → r = w.toList ∧ (w = "connected" ∨ w = "disconnected")) :
    ExportsApart k l :=
  ⟨fun r hr r2 h h3 => h1 r hr r2 h ((firstLower_iff _ _).mpr h3),
    fun hk r hr w hw h3 => h2 hk r hr w hw ((firstLower_iff _ _).mpr h3)⟩

example : Apart .server .rust .event (declared plainDecls .event) ∧
    (declared plainDecls .event).Nodup ∧ ExportsApart .event (declared plainDecls .event) :=
  ⟨plainDecls_apart _ _ _, by decide, exportsApart_of (by decide) (by decide)⟩

/-! ### C117: modules have legal names -/

set_option maxRecDepth 20000 in
/-- An accepted event `Loop` gives `pub mod loop;`. -/
theorem C117_module_names_legal_violated : Accepted eventDecls ∧ (∀ fs, run (ops .server .rust eventDecls) fs
    ⟨dir ["events"], "mod.rs".toList⟩ = some (.mods ["connected".toList, "disconnected".toList,
      "error".toList, "ready".toList, "shutdown".toList, "error".toList, "loop".toList])) ∧
    ¬ ModuleName "loop".toList :=
  ⟨eventDecls_accepted, fun fs => listing_at (side := .server) (D := ["events"])
      (k := .event) (by simp [listings]) eventDecls fs,
    fun h => h.2.2 "loop" (by simp [keywords]) rfl⟩

/-- Full statement: what follows `pub mod` is a legal name of a Rust module; false by
`C117_module_names_legal_violated`. Proved: for accepted workflows no reference of which is a keyword (in any
case) or `_`. -/
theorem C117_module_names_legal_partial (side : Side) (D : List String) (k : Kind) (h : (D, k) ∈ listings side)
    (d : Decls) (fs : Files) (ha : Accepted d) (hd : ∀ r ∈ declared d k, ¬ Alike .rust r ['_'] ∧
      ∀ w ∈ keywords, ¬ Alike .rust r w.toList) (names : List Name)
    (hr : run (ops side .rust d) fs ⟨dir D, "mod.rs".toList⟩ = some (.mods names)) :
    ∀ n ∈ names, ModuleName n := by
  have one : ∀ r ∈ declared d k, ModuleName (rustName r) := fun r hr =>
    rustName_legal (accepted_declared ha k r hr) (hd r hr).1 (hd r hr).2
  have fixed : ∀ w ∈ fixedEvents, ModuleName w.toList := by
    intro w hw
    have : w.toList = rustName w.toList := by
      simp only [fixedEvents, List.mem_cons, List.not_mem_nil, or_false] at hw
      rcases hw with rfl | rfl | rfl | rfl | rfl <;> decide
    rw [this]
    refine rustName_legal ?_ ?_ ?_
    · simp only [fixedEvents, List.mem_cons, List.not_mem_nil, or_false] at hw
      rcases hw with rfl | rfl | rfl | rfl | rfl
      · exact ⟨_, _, rfl, by rw [idStart_iff]; decide, by simp only [idPart_iff]; decide⟩
      · exact ⟨_, _, rfl, by rw [idStart_iff]; decide, by simp only [idPart_iff]; decide⟩
      · exact ⟨_, _, rfl, by rw [idStart_iff]; decide, by simp only [idPart_iff]; decide⟩
      · exact ⟨_, _, rfl, by rw [idStart_iff]; decide, by simp only [idPart_iff]; decide⟩
      · exact ⟨_, _, rfl, by rw [idStart_iff]; decide, by simp only [idPart_iff]; decide⟩
    · rw [← rustName_iff]
      simp only [fixedEvents, List.mem_cons, List.not_mem_nil, or_false] at hw
      rcases hw with rfl | rfl | rfl | rfl | rfl <;> decide
    · intro x hx
      rw [← rustName_iff]
      have : ∀ w ∈ fixedEvents, ∀ x ∈ keywords, rustName w.toList ≠ rustName x.toList := by decide
      exact this w hw x hx
  rw [listing_at h d fs] at hr
  cases hr
  intro n hn
  cases k with
  | request => obtain ⟨r, hr, rfl⟩ := List.mem_map.mp hn; exact one r hr
  | beacon => obtain ⟨r, hr, rfl⟩ := List.mem_map.mp hn; exact one r hr
  | broadcast =>
    obtain ⟨r, hr, rfl⟩ := List.mem_map.mp hn
    exact one r ((mem_distinct _ _).mp hr)
  | event =>
    rcases List.mem_append.mp hn with hn | hn
    · obtain ⟨w, hw, rfl⟩ := List.mem_map.mp hn
      exact fixed w hw
    · obtain ⟨r, hr, rfl⟩ := List.mem_map.mp hn
      exact one r (List.mem_filter.mp hr).1

example : Accepted groupDecls ∧ ∀ r ∈ declared groupDecls .request, ¬ Alike .rust r ['_'] ∧
    ∀ w ∈ keywords, ¬ Alike .rust r w.toList := by
  refine ⟨groupDecls_accepted, ?_⟩
  intro r hr
  have hk : ∀ r ∈ declared groupDecls .request, ∀ w ∈ keywords, rustName r ≠ rustName w.toList := by
    decide
  have hu : ∀ r ∈ declared groupDecls .request, rustName r ≠ rustName ['_'] := by decide
  exact ⟨fun h => hu r hr ((rustName_iff _ _).mpr h), fun w hw h => hk r hr w hw ((rustName_iff _ _).mpr h)⟩

end Verif.Props
