import Verif.Proofs.Imports
import Verif.Props.Files
set_option autoImplicit false
/-!
Properties of what generated files refer to, and of names: C122 to C124.
-/
namespace Verif.Props

open Verif Verif.Files Verif.Files.Spec
open Verif.Flow (Target)

/-! ### C122: everything a generated file refers to is there -/

/-- A file that was written in this run is at `p`. For every module it refers to, one of the files the
compiler looks for is there when the generator is done. -/
theorem C122_imports_found (side : Side) (t : Target) (d : Decls) (fs : Files) (p : Path) (c : Content)
    (h : run (ops side t d) fs p = some c) (hn : fs p ≠ some c) :
    ∀ alts ∈ imports side t d p c, ∃ q ∈ alts, (run (ops side t d) fs q).isSome = true :=
  imports_there side t d fs h hn

set_option maxRecDepth 20000 in
/-- The file of a request refers to three generated modules in TypeScript. -/
example : run (ops .server .typescript plainDecls) noFiles
      ⟨dir ["implementation", "responses"], "a.b.ts".toList⟩ =
        some (.made "render_request_handler".toList "A.B".toList) ∧
    (imports .server .typescript plainDecls ⟨dir ["implementation", "responses"], "a.b.ts".toList⟩
      (.made "render_request_handler".toList "A.B".toList)).length = 3 := ⟨by decide, by decide⟩

/-! ### C123: exported names are legal -/

theorem handler_name {n : Name} (h : ∃ c l, n = c :: l ∧ IdStart c ∧ ∀ x ∈ l, IdPart x)
    (he : ∃ m, n = m ++ "Handler".toList) : ScriptName n := by
  refine ⟨h, ?_⟩
  rintro w hw rfl
  obtain ⟨m, hm⟩ := he
  have : ∀ w ∈ scriptWords, (w.toList.reverse).take 7 ≠ "Handler".toList.reverse := by decide
  refine this w hw ?_
  rw [hm, List.reverse_append]
  rfl

/-- Every name under which a handler is exported is a legal name of a variable, for every accepted
workflow. -/
theorem C123_export_names_legal (D : List String) (k : Kind) (h : (D, k) ∈ exportings) (d : Decls)
    (ha : Accepted d) (fs : Files) (l : List (Name × Name))
    (hr : run (ops .server .typescript d) fs ⟨dir D, "index.ts".toList⟩ = some (.exports l)) :
    ∀ e ∈ l, ScriptName e.1 := by
  have one : ∀ r ∈ declared d k, ScriptName (tsExport r).1 := fun r hr =>
    handler_name (tsExport_name (accepted_declared ha k r hr)) ⟨_, rfl⟩
  rw [exporting_at h d fs] at hr
  cases hr
  intro e he
  cases k with
  | request => obtain ⟨r, hr, rfl⟩ := List.mem_map.mp he; exact one r hr
  | beacon => obtain ⟨r, hr, rfl⟩ := List.mem_map.mp he; exact one r hr
  | broadcast => exact nomatch he
  | event =>
    rcases List.mem_append.mp he with he | he
    · obtain ⟨r, hr, rfl⟩ := List.mem_map.mp he
      exact one r (List.mem_filter.mp hr).1
    · obtain ⟨n, hn, rfl⟩ := List.mem_map.mp he
      refine handler_name ?_ ⟨_, rfl⟩
      simp only [List.mem_cons, List.not_mem_nil, or_false] at hn
      rcases hn with rfl | rfl | rfl | rfl | rfl <;>
        exact ⟨_, _, rfl, by rw [idStart_iff]; decide, by simp only [idPart_iff]; decide⟩

example : Accepted groupDecls ∧ (["implementation", "responses"], Kind.request) ∈ exportings :=
  ⟨groupDecls_accepted, by decide⟩

/-! ### C124: names of an accepted protocol can be used in generated code -/

set_option maxRecDepth 20000 in
/-- `type` and `fn` are accepted as the names of a struct and a field. -/
theorem C124_protocol_names_violated : ∃ s, Prot.Parses "struct type { u8 fn; }".toList (.accepted s) ∧
    s.structs.map (fun t => (t.name, t.fields.map Prot.Field.name)) = [("type".toList, ["fn".toList])] ∧
    ¬ ModuleName "type".toList ∧ ¬ ModuleName "fn".toList :=
  ⟨_, ⟨100, by rfl⟩, by rfl, fun h => h.2.2 "type" (by simp [keywords]) rfl,
    fun h => h.2.2 "fn" (by simp [keywords]) rfl⟩

/-- Full statement: the names of groups, structs, enums, fields and variants of an accepted protocol are
legal names in Rust; false by `C124_protocol_names_violated`. Proved: they are not empty, start with a letter or
an underscore and consist of letters, digits and underscores. So they are legal if none is a keyword or
`_`. -/
theorem C124_protocol_names_partial {text : List Char} {s : Prot.Store} (h : Prot.Parses text (.accepted s)) :
    ∀ n ∈ s.groups.map Prot.Group.name ++ s.structs.map Prot.Struct.name ++ s.enums.map Prot.Enum.name ++
        s.structs.flatMap (fun t => t.fields.map Prot.Field.name) ++
        s.enums.flatMap (fun e => e.variants.map Prot.EnumItem.name),
      (∃ c l, n = c :: l ∧ IdStart c ∧ ∀ x ∈ l, IdPart x) ∧
        ((n ≠ ['_'] ∧ ∀ w ∈ keywords, n ≠ w.toList) → ModuleName n) := by
  have hl := Prot.accepted_legal h
  have up : ∀ n : Name, Prot.Syntax.Ident n → (∃ c l, n = c :: l ∧ IdStart c ∧ ∀ x ∈ l, IdPart x) := by
    rintro n ⟨c, l, rfl, h1, h2⟩
    exact ⟨c, l, rfl, Flow.idStart_of (h2 c List.mem_cons_self) h1,
      fun x hx => Flow.idPart_of (h2 x (List.mem_cons_of_mem _ hx))⟩
  have goal : ∀ n : Name, Prot.Syntax.Ident n → (∃ c l, n = c :: l ∧ IdStart c ∧ ∀ x ∈ l, IdPart x) ∧
      ((n ≠ ['_'] ∧ ∀ w ∈ keywords, n ≠ w.toList) → ModuleName n) :=
    fun n hn => ⟨up n hn, fun hk => ⟨up n hn, hk.1, hk.2⟩⟩
  intro n hn
  apply goal
  simp only [List.mem_append, List.mem_map, List.mem_flatMap] at hn
  rcases hn with (((⟨g, hg, rfl⟩ | ⟨t, ht, rfl⟩) | ⟨e, he, rfl⟩) | ⟨t, ht, f, hf, rfl⟩) | ⟨e, he, v, hv, rfl⟩
  · exact hl.groups g hg
  · exact (hl.structs t ht).1
  · exact (hl.enums e he).1
  · exact (hl.structs t ht).2 f hf
  · exact (hl.enums e he).2 v hv

example : Prot.Parses fileProtText (.accepted fileProt) ∧ fileProt.structs.length = 7 :=
  ⟨fileProt_parses, rfl⟩

end Verif.Props
