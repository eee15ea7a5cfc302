import Verif.Model.Imports
import Verif.Proofs.FilesNames
set_option autoImplicit false
/-!
Everything a generated file refers to is generated too.
-/
namespace Verif.Files

open Verif Verif.Files.Spec
open Verif.Flow (Target)

/-- Something is written to a path. -/
def Written (l : List Op) (q : Path) : Prop := q ∈ l.map Op.path

theorem written_append (a b : List Op) (q : Path) : Written (a ++ b) q ↔ Written a q ∨ Written b q := by
  unfold Written
  rw [List.map_append, List.mem_append]

theorem written_some {l : List Op} {q : Path} (h : Written l q) (fs : Files) :
    (run l fs q).isSome = true := by
  obtain ⟨op, ho, hq⟩ := List.mem_map.mp h
  exact run_some (.inr ⟨op, ho, hq⟩)

theorem written_flat {α : Type} {f : α → List Op} {l : List α} {a : α} {q : Path} (ha : a ∈ l)
    (h : Written (f a) q) : Written (l.flatMap f) q := by
  obtain ⟨op, ho, hq⟩ := List.mem_map.mp h
  exact List.mem_map.mpr ⟨op, List.mem_flatMap.mpr ⟨a, ha, ho⟩, hq⟩

theorem written_map {α : Type} {f : α → Op} {l : List α} {a : α} {q : Path} (ha : a ∈ l)
    (h : (f a).path = q) : Written (l.map f) q :=
  List.mem_map.mpr ⟨f a, List.mem_map.mpr ⟨a, ha, rfl⟩, h⟩

/-- One of several paths is written. -/
def Found (l : List Op) (alts : List Path) : Prop := ∃ q ∈ alts, Written l q

theorem found_ts1 {l : List Op} {D : List String} {n : Name} (h : Written l ⟨dir D, n ++ ".ts".toList⟩) :
    Found l (tsAt D n) := ⟨_, List.mem_cons_self, h⟩

theorem found_ts2 {l : List Op} {D : List String} {n : Name} {q : Path} (h : Written l q)
    (hq : q = ⟨dir D ++ [n], "index.ts".toList⟩) : Found l (tsAt D n) :=
  ⟨q, by rw [hq]; exact List.mem_cons_of_mem _ List.mem_cons_self, h⟩

/-! ### TypeScript server -/

/-- Files written for every workflow, apart from those of `connected` and `disconnected`. -/
def tsPaths : List Path :=
  [⟨dir ["implementation", "responses"], "index.ts".toList⟩] ++
  [⟨dir ["implementation", "events"], "index.ts".toList⟩] ++
  [⟨dir ["implementation", "beacons"], "index.ts".toList⟩,
   ⟨dir ["implementation", "protocol"], "index.ts".toList⟩,
   ⟨dir ["implementation", "consumer"], "identification.ts".toList⟩] ++
  [⟨dir ["events"], "error.ts".toList⟩, ⟨dir ["events"], "ready.ts".toList⟩,
   ⟨dir ["events"], "shutdown.ts".toList⟩,
   ⟨dir ["implementation", "consumer"], "index.ts".toList⟩,
   ⟨dir ["implementation", "consumer"], "filter.ts".toList⟩,
   ⟨dir ["implementation", "scope"], "index.ts".toList⟩,
   ⟨dir ["implementation", "events"], "error.ts".toList⟩,
   ⟨dir ["implementation", "events"], "ready.ts".toList⟩,
   ⟨dir ["implementation", "events"], "shutdown.ts".toList⟩,
   ⟨[], "index.ts".toList⟩, ⟨[], "context.ts".toList⟩] ++
  [⟨dir ["implementation"], "index.ts".toList⟩]

theorem tsServer_written (d : Decls) (q : Path) : Written (tsServer d) q ↔
    Written (d.requests.flatMap tsRequest) q ∨ Written (d.events.flatMap tsEvent) q ∨
    Written (d.beacons.flatMap tsBeacon) q ∨ Written (tsDefault d.events "connected") q ∨
    Written (tsDefault d.events "disconnected") q ∨ q ∈ tsPaths := by
  unfold tsServer tsStatic tsPaths
  simp only [written_append, List.mem_append]
  unfold Written
  simp only [List.map_cons, List.map_nil, put, putStatic, keepStatic, keep]
  constructor
  · rintro ((((((((h | h) | h) | h) | h) | h) | ((h | h) | h)) | h))
    · exact .inl h
    · exact .inr (.inr (.inr (.inr (.inr (.inl (.inl (.inl (.inl h))))))))
    · exact .inr (.inl h)
    · exact .inr (.inr (.inr (.inr (.inr (.inl (.inl (.inl (.inr h))))))))
    · exact .inr (.inr (.inl h))
    · exact .inr (.inr (.inr (.inr (.inr (.inl (.inl (.inr h)))))))
    · exact .inr (.inr (.inr (.inl h)))
    · exact .inr (.inr (.inr (.inr (.inl h))))
    · exact .inr (.inr (.inr (.inr (.inr (.inl (.inr h))))))
    · exact .inr (.inr (.inr (.inr (.inr (.inr h)))))
  · rintro (h | h | h | h | h | ((((h | h) | h) | h) | h))
    · exact .inl (.inl (.inl (.inl (.inl (.inl (.inl h))))))
    · exact .inl (.inl (.inl (.inl (.inl (.inr h)))))
    · exact .inl (.inl (.inl (.inr h)))
    · exact .inl (.inr (.inl (.inl h)))
    · exact .inl (.inr (.inl (.inr h)))
    · exact .inl (.inl (.inl (.inl (.inl (.inl (.inr h))))))
    · exact .inl (.inl (.inl (.inl (.inr h))))
    · exact .inl (.inl (.inr h))
    · exact .inl (.inr (.inr h))
    · exact .inr h

theorem tsw_fixed (d : Decls) {q : Path} (h : q ∈ tsPaths) : Written (tsServer d) q :=
  (tsServer_written d q).mpr (.inr (.inr (.inr (.inr (.inr h)))))

theorem tsw_request (d : Decls) {r : Ref} (h : r ∈ d.requests) :
    Written (tsServer d) ⟨dir ["responses"], tsFile r⟩ ∧
    Written (tsServer d) ⟨dir ["implementation", "responses"], tsFile r⟩ :=
  ⟨(tsServer_written d _).mpr (.inl (written_flat h List.mem_cons_self)),
    (tsServer_written d _).mpr (.inl (written_flat h (List.mem_cons_of_mem _ List.mem_cons_self)))⟩

theorem tsw_event (d : Decls) {r : Ref} (h : r ∈ d.events) :
    Written (tsServer d) ⟨dir ["events"], tsFile r⟩ ∧
    Written (tsServer d) ⟨dir ["implementation", "events"], tsFile r⟩ :=
  ⟨(tsServer_written d _).mpr (.inr (.inl (written_flat h List.mem_cons_self))),
    (tsServer_written d _).mpr (.inr (.inl (written_flat h (List.mem_cons_of_mem _ List.mem_cons_self))))⟩

theorem tsw_beacon (d : Decls) {r : Ref} (h : r ∈ d.beacons) :
    Written (tsServer d) ⟨dir ["beacons"], tsFile r⟩ ∧
    Written (tsServer d) ⟨dir ["implementation", "beacons"], tsFile r⟩ :=
  ⟨(tsServer_written d _).mpr (.inr (.inr (.inl (written_flat h List.mem_cons_self)))),
    (tsServer_written d _).mpr
      (.inr (.inr (.inl (written_flat h (List.mem_cons_of_mem _ List.mem_cons_self)))))⟩

theorem tsDefault_written (events : List Ref) (n : String) (h : ¬ events.any (· == n.toList) = true) :
    Written (tsDefault events n) ⟨dir ["events"], n.toList ++ ".ts".toList⟩ ∧
    Written (tsDefault events n) ⟨dir ["implementation", "events"], n.toList ++ ".ts".toList⟩ := by
  unfold tsDefault
  rw [if_neg h]
  exact ⟨List.mem_cons_self, List.mem_cons_of_mem _ List.mem_cons_self⟩

/-- Also the files of `connected` and `disconnected`. -/
theorem tsw_default (d : Decls) (n : String) (h : n = "connected" ∨ n = "disconnected") :
    Written (tsServer d) ⟨dir ["events"], n.toList ++ ".ts".toList⟩ ∧
    Written (tsServer d) ⟨dir ["implementation", "events"], n.toList ++ ".ts".toList⟩ := by
  by_cases ha : d.events.any (· == n.toList) = true
  · obtain ⟨r, hr, he⟩ := List.any_eq_true.mp ha
    have he : r = n.toList := by simpa using he
    rw [he] at hr
    have := tsw_event d hr
    rcases h with rfl | rfl <;> exact this
  · obtain ⟨h1, h2⟩ := tsDefault_written d.events n ha
    rcases h with rfl | rfl
    · exact ⟨(tsServer_written d _).mpr (.inr (.inr (.inr (.inl h1)))),
        (tsServer_written d _).mpr (.inr (.inr (.inr (.inl h2))))⟩
    · exact ⟨(tsServer_written d _).mpr (.inr (.inr (.inr (.inr (.inl h1))))),
        (tsServer_written d _).mpr (.inr (.inr (.inr (.inr (.inl h2)))))⟩

theorem ts_index_found (d : Decls) (D : Dir) : ∀ alts ∈ tsIndexImports D, Found (tsServer d) alts := by
  intro alts ha
  unfold tsIndexImports at ha
  rcases List.mem_append.mp ha with ha | ha
  · simp only [List.mem_cons, List.not_mem_nil, or_false] at ha
    rcases ha with rfl | rfl | rfl | rfl
    · exact found_ts2 (tsw_fixed d (q := ⟨dir ["implementation", "protocol"], "index.ts".toList⟩) (by decide)) rfl
    · exact found_ts1 (tsw_fixed d (by decide))
    · exact found_ts2 (tsw_fixed d (q := ⟨dir ["implementation", "consumer"], "index.ts".toList⟩) (by decide)) rfl
    · exact found_ts1 (tsw_fixed d (by decide))
  · split at ha
    · rw [List.mem_singleton] at ha
      subst ha
      exact found_ts1 (tsw_fixed d (by decide))
    · exact nomatch ha

/-- Where the shipped files of the TypeScript server go. -/
theorem ts_static_found (d : Decls) {q : Path} (hq : q ∈ tsPaths ∨
    q ∈ [⟨dir ["events"], "connected.ts".toList⟩, ⟨dir ["events"], "disconnected.ts".toList⟩,
      ⟨dir ["implementation", "events"], "connected.ts".toList⟩,
      ⟨dir ["implementation", "events"], "disconnected.ts".toList⟩])
    (hx : q ≠ ⟨dir ["implementation", "events"], "index.ts".toList⟩) :
    ∀ alts ∈ tsStaticImports q, Found (tsServer d) alts := by
  have f : ∀ {q : Path}, q ∈ tsPaths → Written (tsServer d) q := fun h => tsw_fixed d h
  intro alts ha
  unfold tsStaticImports at ha
  split at ha
  · rw [List.mem_singleton] at ha
    subst ha
    exact found_ts2 (f (q := ⟨dir ["implementation", "events"], "index.ts".toList⟩) (by decide)) rfl
  · split at ha
    · rename_i h1 h2
      simp only [List.mem_cons, List.not_mem_nil, or_false] at ha
      rcases ha with rfl | rfl
      · exact found_ts1 (f (by decide))
      · refine ⟨_, List.mem_cons_self, ?_⟩
        have hf : ∀ q ∈ tsPaths, q.dir = dir ["implementation", "events"] →
            q ≠ ⟨dir ["implementation", "events"], "index.ts".toList⟩ →
            (⟨dir ["events"], q.file⟩ : Path) ∈ tsPaths := by decide
        rcases hq with hq | hq
        · exact f (hf q hq h2 hx)
        · simp only [List.mem_cons, List.not_mem_nil, or_false] at hq
          rcases hq with rfl | rfl | rfl | rfl
          · exact absurd rfl h1
          · exact absurd rfl h1
          · exact (tsw_default d "connected" (.inl rfl)).1
          · exact (tsw_default d "disconnected" (.inr rfl)).1
    · split at ha
      · simp only [List.mem_cons, List.not_mem_nil, or_false] at ha
        rcases ha with rfl | rfl | rfl
        · exact found_ts1 (f (by decide))
        · exact found_ts2 (f (q := ⟨dir ["implementation", "protocol"], "index.ts".toList⟩) (by decide)) rfl
        · exact found_ts1 (f (by decide))
      · split at ha
        · simp only [List.mem_cons, List.not_mem_nil, or_false] at ha
          rcases ha with rfl | rfl
          · exact found_ts1 (f (by decide))
          · exact found_ts1 (f (by decide))
        · split at ha
          · simp only [List.mem_cons, List.not_mem_nil, or_false] at ha
            rcases ha with rfl | rfl | rfl
            · exact found_ts2 (f (q := ⟨dir ["implementation", "consumer"], "index.ts".toList⟩) (by decide)) rfl
            · exact found_ts1 (f (by decide))
            · exact found_ts1 (f (by decide))
          · split at ha
            · simp only [List.mem_cons, List.not_mem_nil, or_false] at ha
              rcases ha with rfl | rfl
              · exact found_ts2 (f (q := ⟨dir ["implementation"], "index.ts".toList⟩) (by decide)) rfl
              · exact found_ts1 (f (by decide))
            · split at ha
              · rw [List.mem_singleton] at ha
                subst ha
                exact found_ts2 (f (q := ⟨dir ["implementation", "protocol"], "index.ts".toList⟩) (by decide)) rfl
              · exact nomatch ha

theorem written_of_run {l : List Op} {q : Path} (h : (run l (fun _ => none) q).isSome = true) : Written l q := by
  obtain ⟨c, hc⟩ := Option.isSome_iff_exists.mp h
  rcases run_from hc with h | ⟨op, ho, hp, _⟩
  · exact nomatch h
  · exact List.mem_map.mpr ⟨op, ho, hp⟩

theorem tsw_index {d : Decls} {n : Name} {D : List String} {q : Path}
    (hq : q = ⟨dir D ++ [n], "index.ts".toList⟩) (h : q ∈ tsPaths) : Found (tsServer d) (tsAt D n) :=
  found_ts2 (tsw_fixed d h) hq

theorem ts_made_found (d : Decls) {r : Ref} :
    (r ∈ d.requests → (∀ alts ∈ tsMadeImports "render_request_handler".toList r, Found (tsServer d) alts) ∧
      ∀ alts ∈ tsMadeImports "render_request_response".toList r, Found (tsServer d) alts) ∧
    (r ∈ d.events → (∀ alts ∈ tsMadeImports "render_event_emitter".toList r, Found (tsServer d) alts) ∧
      ∀ alts ∈ tsMadeImports "render_event_impl".toList r, Found (tsServer d) alts) ∧
    (r ∈ d.beacons → (∀ alts ∈ tsMadeImports "render_beacon_emitter".toList r, Found (tsServer d) alts) ∧
      ∀ alts ∈ tsMadeImports "render_beacon_impl".toList r, Found (tsServer d) alts) := by
  have scope : Found (tsServer d) (tsAt ["implementation"] "scope".toList) :=
    tsw_index (q := ⟨dir ["implementation", "scope"], "index.ts".toList⟩) rfl (by decide)
  refine ⟨fun h => ⟨?_, ?_⟩, fun h => ⟨?_, ?_⟩, fun h => ⟨?_, ?_⟩⟩
  · intro alts ha
    rw [show tsMadeImports "render_request_handler".toList r = [tsAt ["implementation", "responses"] "index".toList,
      tsAt ["responses"] (lower r), tsAt ["implementation"] "scope".toList] from rfl] at ha
    simp only [List.mem_cons, List.not_mem_nil, or_false] at ha
    rcases ha with rfl | rfl | rfl
    · exact found_ts1 (tsw_fixed d (by decide))
    · exact found_ts1 (tsw_request d h).1
    · exact scope
  · intro alts ha
    rw [show tsMadeImports "render_request_response".toList r = [tsAt ["implementation", "responses"] (lower r),
      tsAt ["implementation"] "responses".toList, tsAt ["implementation"] "scope".toList] from rfl] at ha
    simp only [List.mem_cons, List.not_mem_nil, or_false] at ha
    rcases ha with rfl | rfl | rfl
    · exact found_ts1 (tsw_request d h).2
    · exact tsw_index (q := ⟨dir ["implementation", "responses"], "index.ts".toList⟩) rfl (by decide)
    · exact scope
  · intro alts ha
    rw [show tsMadeImports "render_event_emitter".toList r = [tsAt ["implementation", "events"] "index".toList,
      tsAt ["events"] (lower r)] from rfl] at ha
    simp only [List.mem_cons, List.not_mem_nil, or_false] at ha
    rcases ha with rfl | rfl
    · exact found_ts1 (tsw_fixed d (by decide))
    · exact found_ts1 (tsw_event d h).1
  · intro alts ha
    rw [show tsMadeImports "render_event_impl".toList r = [tsAt ["implementation"] "events".toList,
      tsAt ["implementation", "events"] (lower r)] from rfl] at ha
    simp only [List.mem_cons, List.not_mem_nil, or_false] at ha
    rcases ha with rfl | rfl
    · exact tsw_index (q := ⟨dir ["implementation", "events"], "index.ts".toList⟩) rfl (by decide)
    · exact found_ts1 (tsw_event d h).2
  · intro alts ha
    rw [show tsMadeImports "render_beacon_emitter".toList r = [tsAt ["implementation", "beacons"] "index".toList,
      tsAt ["beacons"] (lower r), tsAt ["implementation"] "scope".toList] from rfl] at ha
    simp only [List.mem_cons, List.not_mem_nil, or_false] at ha
    rcases ha with rfl | rfl | rfl
    · exact found_ts1 (tsw_fixed d (by decide))
    · exact found_ts1 (tsw_beacon d h).1
    · exact scope
  · intro alts ha
    rw [show tsMadeImports "render_beacon_impl".toList r = [tsAt ["implementation"] "beacons".toList,
      tsAt ["implementation"] "scope".toList] from rfl] at ha
    simp only [List.mem_cons, List.not_mem_nil, or_false] at ha
    rcases ha with rfl | rfl
    · exact tsw_index (q := ⟨dir ["implementation", "beacons"], "index.ts".toList⟩) rfl (by decide)
    · exact scope

/-- A list of exports. -/
theorem ts_exports_found (d : Decls) {D : List String} {k : Kind} (h : (D, k) ∈ exportings) :
    ∀ alts ∈ imports .server .typescript d ⟨dir D, "index.ts".toList⟩ (.exports (exportsOf d k)),
      Found (tsServer d) alts := by
  intro alts ha
  simp only [imports, List.mem_append, List.mem_map] at ha
  rcases ha with ⟨e, he, rfl⟩ | ha
  · exact ⟨_, List.mem_cons_self, written_of_run (exported_there h d _ he)⟩
  · exact ts_index_found d _ alts ha

/-- The files shipped with the tool, apart from `connected` and `disconnected`. -/
theorem ts_shipped {op : Op} (h : op ∈ [keepStatic ["events"] "error.ts".toList,
    keepStatic ["events"] "ready.ts".toList, keepStatic ["events"] "shutdown.ts".toList,
    putStatic ["implementation", "consumer"] "index.ts".toList,
    putStatic ["implementation", "consumer"] "filter.ts".toList,
    putStatic ["implementation", "scope"] "index.ts".toList,
    putStatic ["implementation", "events"] "error.ts".toList,
    putStatic ["implementation", "events"] "ready.ts".toList,
    putStatic ["implementation", "events"] "shutdown.ts".toList,
    putStatic [] "index.ts".toList, keepStatic [] "context.ts".toList]) :
    op.content = .static op.path ∧ op.path ∈ tsPaths ∧
      op.path ≠ ⟨dir ["implementation", "events"], "index.ts".toList⟩ := by
  revert op
  decide

theorem ts_imports (d : Decls) {op : Op} (h : op ∈ tsServer d) :
    ∀ alts ∈ imports .server .typescript d op.path op.content, Found (tsServer d) alts := by
  have dflt : ∀ n : String, n = "connected" ∨ n = "disconnected" → op ∈ tsDefault d.events n →
      ∀ alts ∈ imports .server .typescript d op.path op.content, Found (tsServer d) alts := by
    intro n hn ho
    unfold tsDefault at ho
    split at ho
    · exact nomatch ho
    · simp only [List.mem_cons, List.not_mem_nil, or_false] at ho
      rcases ho with rfl | rfl
      · exact ts_static_found d (.inr (by rcases hn with rfl | rfl <;> decide))
          (by rcases hn with rfl | rfl <;> decide)
      · exact ts_static_found d (.inr (by rcases hn with rfl | rfl <;> decide))
          (by rcases hn with rfl | rfl <;> decide)
  unfold tsServer tsStatic at h
  simp only [List.mem_append] at h
  rcases h with (((((((h | h) | h) | h) | h) | h) | ((h | h) | h)) | h)
  · obtain ⟨r, hr, ho⟩ := List.mem_flatMap.mp h
    simp only [tsRequest, List.mem_cons, List.not_mem_nil, or_false] at ho
    rcases ho with rfl | rfl
    · exact ((ts_made_found d).1 hr).2
    · exact ((ts_made_found d).1 hr).1
  · rw [List.mem_singleton] at h
    subst h
    exact ts_exports_found d (D := ["implementation", "responses"]) (k := .request) (by decide)
  · obtain ⟨r, hr, ho⟩ := List.mem_flatMap.mp h
    simp only [tsEvent, List.mem_cons, List.not_mem_nil, or_false] at ho
    rcases ho with rfl | rfl
    · exact ((ts_made_found d).2.1 hr).2
    · exact ((ts_made_found d).2.1 hr).1
  · rw [List.mem_singleton] at h
    subst h
    exact ts_exports_found d (D := ["implementation", "events"]) (k := .event) (by decide)
  · obtain ⟨r, hr, ho⟩ := List.mem_flatMap.mp h
    simp only [tsBeacon, List.mem_cons, List.not_mem_nil, or_false] at ho
    rcases ho with rfl | rfl
    · exact ((ts_made_found d).2.2 hr).2
    · exact ((ts_made_found d).2.2 hr).1
  · simp only [List.mem_cons, List.not_mem_nil, or_false] at h
    rcases h with rfl | rfl | rfl
    · exact ts_exports_found d (D := ["implementation", "beacons"]) (k := .beacon) (by decide)
    · intro alts ha
      exact nomatch (show alts ∈ ([] : List (List Path)) from ha)
    · intro alts ha
      have ha : alts ∈ [tsAt ["implementation"] "protocol".toList] := ha
      rw [List.mem_singleton] at ha
      subst ha
      exact tsw_index (q := ⟨dir ["implementation", "protocol"], "index.ts".toList⟩) rfl (by decide)
  · exact dflt _ (.inl rfl) h
  · exact dflt _ (.inr rfl) h
  · obtain ⟨hc, hp, hx⟩ := ts_shipped h
    rw [hc]
    exact ts_static_found d (.inl hp) hx
  · rw [List.mem_singleton] at h
    subst h
    intro alts ha
    have ha : alts ∈ [tsAt ["implementation"] "consumer".toList, tsAt ["implementation"] "events".toList,
       tsAt [] "context".toList, tsAt ["implementation"] "responses".toList,
       tsAt ["implementation"] "beacons".toList, tsAt ["implementation"] "protocol".toList] := ha
    simp only [List.mem_cons, List.not_mem_nil, or_false] at ha
    rcases ha with rfl | rfl | rfl | rfl | rfl | rfl
    · exact tsw_index (q := ⟨dir ["implementation", "consumer"], "index.ts".toList⟩) rfl (by decide)
    · exact tsw_index (q := ⟨dir ["implementation", "events"], "index.ts".toList⟩) rfl (by decide)
    · exact found_ts1 (tsw_fixed d (by decide))
    · exact tsw_index (q := ⟨dir ["implementation", "responses"], "index.ts".toList⟩) rfl (by decide)
    · exact tsw_index (q := ⟨dir ["implementation", "beacons"], "index.ts".toList⟩) rfl (by decide)
    · exact tsw_index (q := ⟨dir ["implementation", "protocol"], "index.ts".toList⟩) rfl (by decide)

/-! ### Rust server -/

/-- Files written for every workflow that others refer to. -/
def rustPaths : List Path :=
  [⟨dir ["responses"], "mod.rs".toList⟩, ⟨dir ["implementation", "handlers"], "mod.rs".toList⟩] ++
  [⟨dir ["implementation", "beacons"], "mod.rs".toList⟩, ⟨dir ["beacons"], "mod.rs".toList⟩,
   ⟨dir ["events"], "mod.rs".toList⟩, ⟨dir ["implementation", "emitters"], "mod.rs".toList⟩] ++
  [⟨dir ["events"], "error.rs".toList⟩, ⟨dir ["events"], "ready.rs".toList⟩,
   ⟨dir ["events"], "shutdown.rs".toList⟩, ⟨dir ["implementation", "emitters"], "error.rs".toList⟩,
   ⟨dir ["implementation", "emitters"], "ready.rs".toList⟩,
   ⟨dir ["implementation", "emitters"], "shutdown.rs".toList⟩, ⟨[], "mod.rs".toList⟩,
   ⟨dir ["implementation", "scope"], "mod.rs".toList⟩, ⟨[], "context.rs".toList⟩] ++
  [⟨dir ["implementation", "protocol"], "mod.rs".toList⟩,
   ⟨dir ["implementation", "consumer"], "identification.rs".toList⟩,
   ⟨dir ["implementation", "consumer"], "mod.rs".toList⟩, ⟨dir ["implementation"], "mod.rs".toList⟩]

theorem rsw_fixed (d : Decls) {q : Path} (h : q ∈ rustPaths) : Written (rustServer d) q := by
  unfold rustServer rustStatic
  unfold rustPaths at h
  simp only [written_append]
  simp only [List.mem_append] at h
  rcases h with (((h | h) | h) | h)
  · exact .inl (.inl (.inl (.inl (.inl (.inr h)))))
  · exact .inl (.inl (.inr h))
  · exact .inl (.inr (.inr h))
  · exact .inr h

theorem found_rust2 {l : List Op} {D : List String} {n : Name} {q : Path} (h : Written l q)
    (hq : q = ⟨dir D ++ [n], "mod.rs".toList⟩) : Found l (rustAt D n) :=
  ⟨q, by rw [hq]; exact List.mem_cons_of_mem _ List.mem_cons_self, h⟩

theorem found_rust1 {l : List Op} {D : List String} {n : Name} {q : Path} (h : Written l q)
    (hq : q = ⟨dir D, n ++ ".rs".toList⟩) : Found l (rustAt D n) :=
  ⟨q, by rw [hq]; exact List.mem_cons_self, h⟩

theorem rs_mods_found {side : Side} (d : Decls) {D : List String} {k : Kind} (h : (D, k) ∈ listings side) :
    ∀ alts ∈ imports side .rust d ⟨dir D, "mod.rs".toList⟩ (.mods (modsOf d k)),
      Found (ops side .rust d) alts := by
  intro alts ha
  have ha : alts ∈ (modsOf d k).map fun n =>
      [(⟨dir D, n ++ ".rs".toList⟩ : Path), ⟨dir D ++ [n], "mod.rs".toList⟩] := by
    cases side <;> exact ha
  obtain ⟨n, hn, rfl⟩ := List.mem_map.mp ha
  exact ⟨_, List.mem_cons_self, written_of_run (listed_there h d _ hn)⟩

/-- Contents without references. -/
theorem rs_none {d : Decls} {p : Path} {r : String} {ref : Ref} {l : List Op} {side : Side} :
    ∀ alts ∈ imports side .rust d p (.made r.toList ref), Found l alts := by
  intro alts ha
  cases side <;> exact nomatch (show alts ∈ ([] : List (List Path)) from ha)

theorem rs_static_none {d : Decls} {p q : Path} {l : List Op} (h : q ≠ ⟨[], "mod.rs".toList⟩) :
    ∀ alts ∈ imports .server .rust d p (.static q), Found l alts := by
  intro alts ha
  simp only [imports] at ha
  rw [if_neg h] at ha
  exact nomatch ha

theorem rs_imports (d : Decls) {op : Op} (h : op ∈ rustServer d) :
    ∀ alts ∈ imports .server .rust d op.path op.content, Found (rustServer d) alts := by
  have dflt : ∀ n : String, op ∈ rustDefault d.events n →
      ∀ alts ∈ imports .server .rust d op.path op.content, Found (rustServer d) alts := by
    intro n ho
    unfold rustDefault at ho
    split at ho
    · exact nomatch ho
    · simp only [List.mem_cons, List.not_mem_nil, or_false] at ho
      rcases ho with rfl | rfl
      · exact rs_static_none (fun h => by injection h with h _; exact absurd h (by decide))
      · exact rs_static_none (fun h => by injection h with h _; exact absurd h (by decide))
  unfold rustServer rustStatic at h
  simp only [List.mem_append] at h
  rcases h with ((((((h | h) | h) | h) | h) | ((h | h) | h)) | h)
  · obtain ⟨r, hr, ho⟩ := List.mem_flatMap.mp h
    simp only [rustRequest, List.mem_cons, List.not_mem_nil, or_false] at ho
    rcases ho with rfl | rfl <;> exact rs_none
  · simp only [List.mem_cons, List.not_mem_nil, or_false] at h
    rcases h with rfl | rfl
    · exact rs_mods_found (side := .server) d (D := ["responses"]) (k := .request) (by decide)
    · exact rs_mods_found (side := .server) d (D := ["implementation", "handlers"]) (k := .request) (by decide)
  · obtain ⟨r, hr, ho⟩ := List.mem_flatMap.mp h
    simp only [rustEvent, List.mem_cons, List.not_mem_nil, or_false] at ho
    rcases ho with rfl | rfl <;> exact rs_none
  · obtain ⟨r, hr, ho⟩ := List.mem_flatMap.mp h
    simp only [rustBeacon, List.mem_cons, List.not_mem_nil, or_false] at ho
    rcases ho with rfl | rfl <;> exact rs_none
  · simp only [List.mem_cons, List.not_mem_nil, or_false] at h
    rcases h with rfl | rfl | rfl | rfl
    · exact rs_mods_found (side := .server) d (D := ["implementation", "beacons"]) (k := .beacon) (by decide)
    · exact rs_mods_found (side := .server) d (D := ["beacons"]) (k := .beacon) (by decide)
    · exact rs_mods_found (side := .server) d (D := ["events"]) (k := .event) (by decide)
    · exact rs_mods_found (side := .server) d (D := ["implementation", "emitters"]) (k := .event) (by decide)
  · exact dflt _ h
  · exact dflt _ h
  · simp only [List.mem_cons, List.not_mem_nil, or_false] at h
    rcases h with rfl | rfl | rfl | rfl | rfl | rfl | rfl | rfl | rfl
    · exact rs_static_none (by decide)
    · exact rs_static_none (by decide)
    · exact rs_static_none (by decide)
    · exact rs_static_none (by decide)
    · exact rs_static_none (by decide)
    · exact rs_static_none (by decide)
    · intro alts ha
      have ha : alts ∈ [rustAt [] "context".toList, rustAt [] "implementation".toList] := ha
      simp only [List.mem_cons, List.not_mem_nil, or_false] at ha
      rcases ha with rfl | rfl
      · exact found_rust1 (rsw_fixed d (q := ⟨[], "context.rs".toList⟩) (by decide)) rfl
      · exact found_rust2 (rsw_fixed d (q := ⟨dir ["implementation"], "mod.rs".toList⟩) (by decide)) rfl
    all_goals exact rs_static_none (by decide)
  · simp only [List.mem_cons, List.not_mem_nil, or_false] at h
    rcases h with rfl | rfl | rfl | rfl
    · intro alts ha
      exact nomatch (show alts ∈ ([] : List (List Path)) from ha)
    · intro alts ha
      exact nomatch (show alts ∈ ([] : List (List Path)) from ha)
    · intro alts ha
      have ha : alts ∈ [rustAt ["implementation", "consumer"] "identification".toList] := ha
      rw [List.mem_singleton] at ha
      subst ha
      exact found_rust1 (rsw_fixed d (q := ⟨dir ["implementation", "consumer"], "identification.rs".toList⟩)
        (by decide)) rfl
    · intro alts ha
      have ha : alts ∈ [rustAt ["implementation"] "consumer".toList, rustAt ["implementation"] "emitters".toList,
        rustAt ["implementation"] "handlers".toList, rustAt ["implementation"] "protocol".toList,
        rustAt ["implementation"] "scope".toList, [⟨dir ["implementation", "beacons"], "mod.rs".toList⟩],
        [⟨dir ["beacons"], "mod.rs".toList⟩], [⟨dir ["events"], "mod.rs".toList⟩],
        [⟨dir ["responses"], "mod.rs".toList⟩]] := ha
      simp only [List.mem_cons, List.not_mem_nil, or_false] at ha
      rcases ha with rfl | rfl | rfl | rfl | rfl | rfl | rfl | rfl | rfl
      · exact found_rust2 (rsw_fixed d (q := ⟨dir ["implementation", "consumer"], "mod.rs".toList⟩) (by decide)) rfl
      · exact found_rust2 (rsw_fixed d (q := ⟨dir ["implementation", "emitters"], "mod.rs".toList⟩) (by decide)) rfl
      · exact found_rust2 (rsw_fixed d (q := ⟨dir ["implementation", "handlers"], "mod.rs".toList⟩) (by decide)) rfl
      · exact found_rust2 (rsw_fixed d (q := ⟨dir ["implementation", "protocol"], "mod.rs".toList⟩) (by decide)) rfl
      · exact found_rust2 (rsw_fixed d (q := ⟨dir ["implementation", "scope"], "mod.rs".toList⟩) (by decide)) rfl
      all_goals exact ⟨_, List.mem_cons_self, rsw_fixed d (by decide)⟩

/-! ### Clients -/

theorem rc_written (d : Decls) {q : Path} (h : q ∈ ([
    ⟨dir ["broadcasts"], "mod.rs".toList⟩,
    ⟨dir ["implementation", "consumer"], "controller.rs".toList⟩,
    ⟨dir ["implementation", "consumer"], "mod.rs".toList⟩,
    ⟨dir ["implementation", "consumer"], "options.rs".toList⟩,
    ⟨dir ["implementation", "protocol"], "mod.rs".toList⟩] : List Path) ++
    rustClientStatic.map Op.path) : Written (rustClient d) q := by
  unfold rustClient
  simp only [written_append]
  rcases List.mem_append.mp h with h | h
  · exact .inl (.inr h)
  · exact .inr h

theorem rc_imports (d : Decls) {op : Op} (h : op ∈ rustClient d) :
    ∀ alts ∈ imports .client .rust d op.path op.content, Found (rustClient d) alts := by
  unfold rustClient at h
  simp only [List.mem_append] at h
  rcases h with (h | h) | h
  · obtain ⟨r, hr, rfl⟩ := List.mem_map.mp h
    exact rs_none
  · simp only [List.mem_cons, List.not_mem_nil, or_false] at h
    rcases h with rfl | rfl | rfl | rfl | rfl
    · exact rs_mods_found (side := .client) d (D := ["broadcasts"]) (k := .broadcast) (by decide)
    · intro alts ha
      exact nomatch (show alts ∈ ([] : List (List Path)) from ha)
    · intro alts ha
      have ha : alts ∈ [rustAt ["implementation", "consumer"] "api".toList,
        rustAt ["implementation", "consumer"] "controller".toList,
        rustAt ["implementation", "consumer"] "error".toList,
        rustAt ["implementation", "consumer"] "options".toList] := ha
      simp only [List.mem_cons, List.not_mem_nil, or_false] at ha
      rcases ha with rfl | rfl | rfl | rfl
      · exact found_rust1 (rc_written d (q := ⟨dir ["implementation", "consumer"], "api.rs".toList⟩) (by decide)) rfl
      · exact found_rust1 (rc_written d (q := ⟨dir ["implementation", "consumer"], "controller.rs".toList⟩) (by decide)) rfl
      · exact found_rust1 (rc_written d (q := ⟨dir ["implementation", "consumer"], "error.rs".toList⟩) (by decide)) rfl
      · exact found_rust1 (rc_written d (q := ⟨dir ["implementation", "consumer"], "options.rs".toList⟩) (by decide)) rfl
    · intro alts ha
      exact nomatch (show alts ∈ ([] : List (List Path)) from ha)
    · intro alts ha
      exact nomatch (show alts ∈ ([] : List (List Path)) from ha)
  · have hs : op.content = .static op.path := by
      revert op
      decide
    rw [hs]
    have nice : ∀ p ∈ rustClientStatic.map Op.path, ∀ alts ∈ imports .client .rust ⟨[], [], [], []⟩ p (.static p),
        ∃ q ∈ alts, q ∈ ([
          ⟨dir ["broadcasts"], "mod.rs".toList⟩,
          ⟨dir ["implementation", "consumer"], "controller.rs".toList⟩,
          ⟨dir ["implementation", "consumer"], "mod.rs".toList⟩,
          ⟨dir ["implementation", "consumer"], "options.rs".toList⟩,
          ⟨dir ["implementation", "protocol"], "mod.rs".toList⟩] : List Path) ++
          rustClientStatic.map Op.path := by decide
    intro alts ha
    obtain ⟨q, hq, hw⟩ := nice op.path (List.mem_map.mpr ⟨op, h, rfl⟩) alts ha
    exact ⟨q, hq, rc_written d hw⟩

theorem tc_imports (d : Decls) {op : Op} (h : op ∈ tsClient d) :
    ∀ alts ∈ imports .client .typescript d op.path op.content, Found (tsClient d) alts := by
  have w : ∀ {q : Path}, q ∈ ([⟨[], "index.ts".toList⟩, ⟨dir ["interfaces"], "request.ts".toList⟩,
      ⟨[], "options.ts".toList⟩, ⟨dir ["protocol"], "protocol.ts".toList⟩] : List Path) →
      Written (tsClient d) q := by
    intro q hq
    unfold tsClient
    simp only [written_append]
    exact .inr hq
  have made : ∀ {p : Path} {n : Name} {r : Ref},
      ∀ alts ∈ imports .client .typescript d p (.made n r), Found (tsClient d) alts := by
    intro p n r alts ha
    have ha : alts ∈ [tsAt ["protocol"] "protocol".toList, tsAt [] "index".toList,
      tsAt ["interfaces"] "request".toList] := ha
    simp only [List.mem_cons, List.not_mem_nil, or_false] at ha
    rcases ha with rfl | rfl | rfl
    · exact found_ts1 (w (by decide))
    · exact found_ts1 (w (by decide))
    · exact found_ts1 (w (by decide))
  unfold tsClient at h
  simp only [List.mem_append] at h
  rcases h with (h | h) | h
  · obtain ⟨r, hr, rfl⟩ := List.mem_map.mp h
    exact made
  · obtain ⟨r, hr, rfl⟩ := List.mem_map.mp h
    exact made
  · simp only [List.mem_cons, List.not_mem_nil, or_false] at h
    rcases h with rfl | rfl | rfl | rfl
    · intro alts ha
      have ha : alts ∈ [tsAt [] "options".toList, tsAt ["protocol"] "protocol".toList] ++
        d.requests.map (fun r => tsAt ["requests"] (lower r)) ++
        d.beacons.map (fun r => tsAt ["beacons"] (lower r)) := ha
      simp only [List.mem_append, List.mem_cons, List.not_mem_nil, or_false, List.mem_map] at ha
      rcases ha with ((rfl | rfl) | ⟨r, hr, rfl⟩) | ⟨r, hr, rfl⟩
      · exact found_ts1 (w (by decide))
      · exact found_ts1 (w (by decide))
      · refine found_ts1 ?_
        unfold tsClient
        simp only [written_append]
        exact .inl (.inl (written_map hr rfl))
      · refine found_ts1 ?_
        unfold tsClient
        simp only [written_append]
        exact .inl (.inr (written_map hr rfl))
    all_goals
      intro alts ha
      exact nomatch (show alts ∈ ([] : List (List Path)) from ha)

/-- All four generators. -/
theorem imports_found (side : Side) (t : Target) (d : Decls) {op : Op} (h : op ∈ ops side t d) :
    ∀ alts ∈ imports side t d op.path op.content, Found (ops side t d) alts := by
  cases side <;> cases t
  · exact rs_imports d h
  · exact ts_imports d h
  · exact rc_imports d h
  · exact tc_imports d h

/-- The files a run leaves behind. -/
theorem imports_there (side : Side) (t : Target) (d : Decls) (fs : Files) {p : Path} {c : Content}
    (h : run (ops side t d) fs p = some c) (hn : fs p ≠ some c) :
    ∀ alts ∈ imports side t d p c, ∃ q ∈ alts, (run (ops side t d) fs q).isSome = true := by
  rcases run_from h with h | ⟨op, ho, rfl, rfl⟩
  · exact absurd h hn
  · intro alts ha
    obtain ⟨q, hq, hw⟩ := imports_found side t d ho alts ha
    exact ⟨q, hq, written_some hw fs⟩

end Verif.Files
