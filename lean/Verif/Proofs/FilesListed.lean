import Verif.Proofs.FilesNames
set_option autoImplicit false
/-!
Every file a generator adds next to a list of modules is in the list.
-/
namespace Verif.Files

open Verif Verif.Files.Spec
open Verif.Flow (Target)

theorem written_by {l : List Op} {fs : Files} {D : Dir} {f : Name} (hn : fs ⟨D, f⟩ = none)
    (h : (run l fs ⟨D, f⟩).isSome = true) : ∃ op ∈ l.filter (inDir D), op.path = ⟨D, f⟩ := by
  obtain ⟨c, hc⟩ := Option.isSome_iff_exists.mp h
  rcases run_from hc with h2 | ⟨op, ho, h1, -⟩
  · rw [hn] at h2
    exact nomatch h2
  · exact ⟨op, List.mem_filter.mpr ⟨ho, by simp [inDir, h1]⟩, h1⟩

theorem rustDefaultIn_file {b : Bool} {D : List String} {events : List Ref} {w : String} {op : Op}
    (h : op ∈ rustDefaultIn b D events w) : op.path = ⟨dir D, w.toList ++ ".rs".toList⟩ := by
  unfold rustDefaultIn at h
  split at h
  · exact nomatch h
  · rw [List.mem_singleton] at h
    rw [h]

theorem tsDefaultIn_file {b : Bool} {D : List String} {events : List Ref} {w : String} {op : Op}
    (h : op ∈ tsDefaultIn b D events w) : op.path = ⟨dir D, w.toList ++ ".ts".toList⟩ := by
  unfold tsDefaultIn at h
  split at h
  · exact nomatch h
  · rw [List.mem_singleton] at h
    rw [h]

theorem same_module {D : Dir} {a b e : Name} (h : (⟨D, a ++ e⟩ : Path) = ⟨D, b ++ e⟩) : a = b :=
  List.append_cancel_right (congrArg Path.file h)

/-- Every file added next to a `mod.rs` is listed there. -/
theorem written_listed {side : Side} {D : List String} {k : Kind} (h : (D, k) ∈ listings side) (d : Decls)
    (fs : Files) {n : Name} (hm : n ≠ "mod".toList) (hn : fs ⟨dir D, n ++ ".rs".toList⟩ = none)
    (hs : (run (ops side .rust d) fs ⟨dir D, n ++ ".rs".toList⟩).isSome = true) : n ∈ modsOf d k := by
  obtain ⟨op, ho, hp⟩ := written_by hn hs
  have one : ∀ {refs : List Ref} {rend : String} {kp : Bool} {c : Content},
      op ∈ refs.map (slot D .rust rend kp) ++ [put D "mod.rs".toList c] → n ∈ refs.map rustName := by
    intro refs rend kp c ho
    rcases List.mem_append.mp ho with ho | ho
    · obtain ⟨r, hr, rfl⟩ := List.mem_map.mp ho
      exact List.mem_map.mpr ⟨r, hr, same_module hp⟩
    · rw [List.mem_singleton] at ho
      subst ho
      exact absurd (same_module (a := "mod".toList) hp).symm hm
  have many : ∀ {rend : String} {kp b : Bool} {c : Content} {mk : Name → Op},
      (∀ f, (mk f).path = ⟨dir D, f⟩) →
      op ∈ d.events.map (slot D .rust rend kp) ++
        ([put D "mod.rs".toList c] ++ (rustDefaultIn b D d.events "connected" ++
        (rustDefaultIn b D d.events "disconnected" ++
        [mk "error.rs".toList, mk "ready.rs".toList, mk "shutdown.rs".toList]))) →
      n ∈ rustEventMods d.events := by
    intro rend kp b c mk hmk ho
    have fixed : ∀ w ∈ fixedEvents, op.path = ⟨dir D, w.toList ++ ".rs".toList⟩ →
        n ∈ rustEventMods d.events := by
      intro w hw he
      rw [hp] at he
      rw [same_module he]
      exact List.mem_append.mpr (.inl (List.mem_map.mpr ⟨w, hw, rfl⟩))
    rw [List.mem_append, List.mem_append, List.mem_append, List.mem_append, List.mem_singleton] at ho
    rcases ho with ho | rfl | ho | ho | ho
    · obtain ⟨r, hr, rfl⟩ := List.mem_map.mp ho
      by_cases hd : Flow.isDefaultEvent r = true
      · have he : rustName r ∈ fixedEvents.map String.toList := by
          rcases default_cases hd with rfl | rfl <;> decide
        rw [← same_module hp]
        exact List.mem_append.mpr (.inl he)
      · rw [← same_module hp]
        exact List.mem_append.mpr (.inr (List.mem_map.mpr
          ⟨r, List.mem_filter.mpr ⟨hr, by simpa using hd⟩, rfl⟩))
    · exact absurd (same_module (a := "mod".toList) hp).symm hm
    · exact fixed "connected" (by simp [fixedEvents]) (rustDefaultIn_file ho)
    · exact fixed "disconnected" (by simp [fixedEvents]) (rustDefaultIn_file ho)
    · simp only [List.mem_cons, List.not_mem_nil, or_false] at ho
      rcases ho with rfl | rfl | rfl
      · exact fixed "error" (by simp [fixedEvents]) (hmk _)
      · exact fixed "ready" (by simp [fixedEvents]) (hmk _)
      · exact fixed "shutdown" (by simp [fixedEvents]) (hmk _)
  cases side
  · simp only [listings, List.mem_cons, Prod.mk.injEq, List.not_mem_nil, or_false] at h
    rcases h with ⟨rfl, rfl⟩ | ⟨rfl, rfl⟩ | ⟨rfl, rfl⟩ | ⟨rfl, rfl⟩ | ⟨rfl, rfl⟩ | ⟨rfl, rfl⟩
    · exact one ((rustServer_responses d) ▸ ho)
    · exact one ((rustServer_handlers d) ▸ ho)
    · exact many (mk := keepStatic _) (fun _ => rfl) ((rustServer_events d) ▸ ho)
    · exact many (mk := putStatic _) (fun _ => rfl) ((rustServer_emitters d) ▸ ho)
    · exact one ((rustServer_beacons d) ▸ ho)
    · exact one ((rustServer_beaconCode d) ▸ ho)
  · simp only [listings, List.mem_cons, Prod.mk.injEq, List.not_mem_nil, or_false] at h
    obtain ⟨rfl, rfl⟩ := h
    exact one ((rustClient_broadcasts d) ▸ ho)

/-- Every file added next to an `index.ts` with handlers is exported there. -/
theorem written_exported {D : List String} {k : Kind} (h : (D, k) ∈ exportings) (d : Decls)
    (fs : Files) {n : Name} (hm : n ≠ "index".toList) (hn : fs ⟨dir D, n ++ ".ts".toList⟩ = none)
    (hs : (run (ops .server .typescript d) fs ⟨dir D, n ++ ".ts".toList⟩).isSome = true) :
    ∃ e ∈ exportsOf d k, e.2 = n := by
  obtain ⟨op, ho, hp⟩ := written_by hn hs
  have one : ∀ {refs : List Ref} {rend : String} {kp : Bool} {c : Content},
      op ∈ refs.map (slot D .typescript rend kp) ++ [put D "index.ts".toList c] →
      ∃ e ∈ refs.map tsExport, e.2 = n := by
    intro refs rend kp c ho
    rcases List.mem_append.mp ho with ho | ho
    · obtain ⟨r, hr, rfl⟩ := List.mem_map.mp ho
      exact ⟨_, List.mem_map.mpr ⟨r, hr, rfl⟩, same_module hp⟩
    · rw [List.mem_singleton] at ho
      subst ho
      exact absurd (same_module (a := "index".toList) hp).symm hm
  simp only [exportings, List.mem_cons, Prod.mk.injEq, List.not_mem_nil, or_false] at h
  rcases h with ⟨rfl, rfl⟩ | ⟨rfl, rfl⟩ | ⟨rfl, rfl⟩
  · exact one ((tsServer_handlers d) ▸ ho)
  · replace ho := (tsServer_emitters d) ▸ ho
    have fixed : ∀ w ∈ ["disconnected", "connected", "error", "ready", "shutdown"],
        op.path = ⟨dir ["implementation", "events"], w.toList ++ ".ts".toList⟩ →
        ∃ e ∈ tsEventExports d.events, e.2 = n := by
      intro w hw he
      rw [hp] at he
      exact ⟨_, List.mem_append.mpr (.inr (List.mem_map.mpr ⟨w, hw, rfl⟩)), (same_module he).symm⟩
    rw [List.mem_append, List.mem_append, List.mem_append, List.mem_append, List.mem_singleton] at ho
    rcases ho with ho | rfl | ho | ho | ho
    · obtain ⟨r, hr, rfl⟩ := List.mem_map.mp ho
      by_cases hd : Flow.isDefaultEvent r = true
      · refine fixed (String.ofList r) ?_ ?_
        · rcases default_cases hd with rfl | rfl <;> decide
        · rcases default_cases hd with rfl | rfl <;> decide
      · exact ⟨_, List.mem_append.mpr (.inl (List.mem_map.mpr
          ⟨r, List.mem_filter.mpr ⟨hr, by simpa using hd⟩, rfl⟩)), same_module hp⟩
    · exact absurd (same_module (a := "index".toList) hp).symm hm
    · exact fixed "connected" (by simp) (tsDefaultIn_file ho)
    · exact fixed "disconnected" (by simp) (tsDefaultIn_file ho)
    · simp only [List.mem_cons, List.not_mem_nil, or_false] at ho
      rcases ho with rfl | rfl | rfl
      · exact fixed "error" (by simp) rfl
      · exact fixed "ready" (by simp) rfl
      · exact fixed "shutdown" (by simp) rfl
  · exact one ((tsServer_beaconCode d) ▸ ho)

/-- The name a handler is exported under. -/
theorem tsExport_same (r : Ref) : SameButFirst (noPoints r ++ "Handler".toList) (tsExport r).1 := by
  unfold tsExport noPoints
  cases he : r.filter (· ≠ '.') with
  | nil => exact ⟨.inl rfl, rfl⟩
  | cons c l =>
    refine ⟨(toLower_eq_iff _ _).mp ?_, rfl⟩
    rw [char_eq_iff, toNat_lower c.toLower, toNat_lower]
    repeat' split
    all_goals omega

end Verif.Files
