import Verif.Proofs.FilesList
set_option autoImplicit false
/-!
Names in the lists of modules and exports.
-/
namespace Verif.Files

open Verif Verif.Files.Spec
open Verif.Flow (Target)

/-! ### No module twice -/

theorem nodup_map {α β : Type} {f : α → β} {l : List α} (h : ∀ a ∈ l, ∀ b ∈ l, f a = f b → a = b)
    (hn : l.Nodup) : (l.map f).Nodup := by
  induction l with
  | nil => exact List.nodup_nil
  | cons a l ih =>
    rw [List.nodup_cons] at hn
    rw [List.map_cons, List.nodup_cons]
    refine ⟨?_, ih (fun x hx y hy => h x (by simp [hx]) y (by simp [hy])) hn.2⟩
    intro hm
    obtain ⟨b, hb, he⟩ := List.mem_map.mp hm
    have := h b (by simp [hb]) a (by simp) he
    exact hn.1 (this ▸ hb)

theorem distinct_nodup (l : List Ref) : (distinct l).Nodup := by
  unfold distinct
  suffices h : ∀ (l acc : List Ref), acc.Nodup →
      (l.foldl (fun acc r => if acc.any (· == r) then acc else acc ++ [r]) acc).Nodup from
    h l [] List.nodup_nil
  intro l
  induction l with
  | nil => exact fun acc h => h
  | cons r l ih =>
    intro acc h
    rw [List.foldl_cons]
    refine ih _ ?_
    split
    · exact h
    · rename_i hn
      rw [List.nodup_append]
      refine ⟨h, by simp, ?_⟩
      intro a ha b hb he
      rw [List.mem_singleton] at hb
      apply hn
      rw [List.any_eq_true]
      exact ⟨a, ha, by rw [he, hb]; simp⟩

/-- Module names are all different for references that are apart. -/
theorem mods_nodup {side : Side} {d : Decls} {k : Kind} (h : Apart side .rust k (declared d k))
    (hs : side = .server ∨ k = .broadcast)
    (hn : k ≠ .broadcast → (declared d k).Nodup) : (modsOf d k).Nodup := by
  have inj : ∀ a ∈ declared d k, ∀ b ∈ declared d k, rustName a = rustName b → a = b :=
    fun a ha b hb he => h.1 a ha b hb ((rustName_iff a b).mp he)
  cases k with
  | request => exact nodup_map inj (hn (by decide))
  | beacon => exact nodup_map inj (hn (by decide))
  | broadcast =>
    refine nodup_map (fun a ha b hb => inj a ?_ b ?_) (distinct_nodup _)
    · exact (mem_distinct _ _).mp ha
    · exact (mem_distinct _ _).mp hb
  | event =>
    have hs : side = .server := hs.resolve_right (by decide)
    subst hs
    show (rustEventMods d.events).Nodup
    unfold rustEventMods
    rw [List.nodup_append]
    refine ⟨by decide, nodup_map (fun a ha b hb => inj a ?_ b ?_) ((hn (by decide)).filter _), ?_⟩
    · exact (List.mem_filter.mp ha).1
    · exact (List.mem_filter.mp hb).1
    · intro a ha b hb he
      obtain ⟨w, hw, rfl⟩ := List.mem_map.mp ha
      obtain ⟨r, hr, rfl⟩ := List.mem_map.mp hb
      obtain ⟨hr, hd⟩ := List.mem_filter.mp hr
      have hw2 : w ∈ reserved .server .rust .event := List.mem_cons_of_mem _ hw
      have hi : rustName w.toList = w.toList := by
        simp only [fixedEvents, List.mem_cons, List.not_mem_nil, or_false] at hw
        rcases hw with rfl | rfl | rfl | rfl | rfl <;> decide
      obtain ⟨-, h2, h3⟩ := h.2 r hr w hw2 ((rustName_iff _ _).mp (by rw [← he, hi]))
      subst h2
      rcases h3 with rfl | rfl <;> exact absurd hd (by decide)

theorem default_cases {r : Ref} (h : Flow.isDefaultEvent r = true) :
    r = "connected".toList ∨ r = "disconnected".toList := by
  unfold Flow.isDefaultEvent at h
  rw [Bool.or_eq_true, decide_eq_true_eq, decide_eq_true_eq] at h
  exact h

/-! ### Legal names -/

theorem idStart_iff (c : Char) : IdStart c ↔
    (97 ≤ c.toNat ∧ c.toNat ≤ 122) ∨ (65 ≤ c.toNat ∧ c.toNat ≤ 90) ∨ c.toNat = 95 := by
  unfold IdStart
  rw [char_eq_iff]
  exact Iff.rfl

theorem idPart_iff (c : Char) : IdPart c ↔
    ((97 ≤ c.toNat ∧ c.toNat ≤ 122) ∨ (65 ≤ c.toNat ∧ c.toNat ≤ 90) ∨ c.toNat = 95) ∨
    (48 ≤ c.toNat ∧ c.toNat ≤ 57) := by
  unfold IdPart
  rw [idStart_iff]
  exact Iff.rfl

theorem rustName_legal {r : Ref} (hd : Dotted r) (hu : ¬ Alike .rust r ['_'])
    (hk : ∀ w ∈ keywords, ¬ Alike .rust r w.toList) : ModuleName (rustName r) := by
  have hw : ∀ w ∈ keywords, rustName w.toList = w.toList := by decide
  refine ⟨?_, ?_, ?_⟩
  · obtain ⟨c, l, rfl, hc, hl⟩ := hd
    rw [rustName_eq, List.map_cons]
    refine ⟨_, _, rfl, ?_, ?_⟩
    · rw [idStart_iff] at hc ⊢
      rw [toNat_rustChar]
      split
      · omega
      · split <;> omega
    · intro x hx
      obtain ⟨y, hy, rfl⟩ := List.mem_map.mp hx
      have hdot : '.'.toNat = 46 := rfl
      have := hl y hy
      rw [idPart_iff, char_eq_iff, hdot] at this
      rw [idPart_iff, toNat_rustChar]
      split
      · omega
      · split <;> omega
  · intro he
    exact hu ((rustName_iff _ _).mp (by rw [he]; decide))
  · intro w hm he
    exact hk w hm ((rustName_iff _ _).mp (by rw [he, hw w hm]))

/-! ### TypeScript exports -/

/-- What a list of exports should contain. -/
def exportsOf (d : Decls) : Kind → List (Name × Name)
  | .request => d.requests.map tsExport
  | .event => tsEventExports d.events
  | .beacon => d.beacons.map tsExport
  | .broadcast => []

theorem firstLower_iff (a b : List Char) : firstLower a = firstLower b ↔ SameButFirst a b := by
  cases a <;> cases b <;> simp [firstLower, SameButFirst, toLower_eq_iff]

theorem tsExport_iff (a b : Ref) :
    (tsExport a).1 = (tsExport b).1 ↔ SameButFirst (noPoints a) (noPoints b) := by
  unfold tsExport
  rw [List.append_left_inj, firstLower_iff]
  rfl

theorem exports_nodup {d : Decls} {k : Kind} (h : ExportsApart k (declared d k))
    (hn : (declared d k).Nodup) : ((exportsOf d k).map Prod.fst).Nodup := by
  have inj : ∀ a ∈ declared d k, ∀ b ∈ declared d k, (tsExport a).1 = (tsExport b).1 → a = b :=
    fun a ha b hb he => h.1 a ha b hb ((tsExport_iff a b).mp he)
  cases k with
  | request =>
    show ((d.requests.map tsExport).map Prod.fst).Nodup
    rw [List.map_map]
    exact nodup_map inj hn
  | beacon =>
    show ((d.beacons.map tsExport).map Prod.fst).Nodup
    rw [List.map_map]
    exact nodup_map inj hn
  | broadcast => exact List.nodup_nil
  | event =>
    show ((tsEventExports d.events).map Prod.fst).Nodup
    unfold tsEventExports
    rw [List.map_append, List.map_map, List.map_map, List.nodup_append]
    refine ⟨nodup_map (fun a ha b hb => inj a ?_ b ?_) (hn.filter _), by decide, ?_⟩
    · exact (List.mem_filter.mp ha).1
    · exact (List.mem_filter.mp hb).1
    · intro a ha b hb he
      obtain ⟨r, hr, rfl⟩ := List.mem_map.mp ha
      obtain ⟨w, hw, rfl⟩ := List.mem_map.mp hb
      obtain ⟨hr, hd⟩ := List.mem_filter.mp hr
      have hw2 : w ∈ ["connected", "disconnected", "error", "ready", "shutdown"] := by
        simp only [List.mem_cons, List.not_mem_nil, or_false] at hw ⊢
        rcases hw with rfl | rfl | rfl | rfl | rfl <;> simp
      have hi : firstLower w.toList = w.toList := by
        simp only [List.mem_cons, List.not_mem_nil, or_false] at hw
        rcases hw with rfl | rfl | rfl | rfl | rfl <;> decide
      have he : firstLower (noPoints r) ++ "Handler".toList = w.toList ++ "Handler".toList := he
      obtain ⟨h2, h3⟩ := h.2 rfl r hr w hw2
        ((firstLower_iff _ _).mp (by rw [hi, List.append_cancel_right he]))
      subst h2
      rcases h3 with rfl | rfl <;> exact absurd hd (by decide)

theorem tsDefaultIn_path (b : Bool) (D : List String) (events : List Ref) (n : String) (f : Name)
    (hf : n.toList ++ ".ts".toList ≠ f) : ∀ op ∈ tsDefaultIn b D events n, op.path ≠ ⟨dir D, f⟩ := by
  intro op ho he
  unfold tsDefaultIn at ho
  split at ho
  · exact nomatch ho
  · rw [List.mem_singleton] at ho
    subst ho
    exact hf (congrArg Path.file he)

/-- The list of exports at the end. -/
theorem exporting_at {D : List String} {k : Kind} (h : (D, k) ∈ exportings) (d : Decls) (fs : Files) :
    run (ops .server .typescript d) fs ⟨dir D, "index.ts".toList⟩ = some (.exports (exportsOf d k)) := by
  rw [run_dir]
  have one : ∀ {D : List String} {l : List Op} {c : Content},
      run (l ++ [put D "index.ts".toList c]) fs ⟨dir D, "index.ts".toList⟩ = some c :=
    fun {D l c} => run_last (op := put D "index.ts".toList c) rfl (fun o h => nomatch h)
  simp only [exportings, List.mem_cons, Prod.mk.injEq, List.not_mem_nil, or_false] at h
  rcases h with ⟨rfl, rfl⟩ | ⟨rfl, rfl⟩ | ⟨rfl, rfl⟩
  · show run ((tsServer d).filter _) fs _ = _
    rw [tsServer_handlers]; exact one
  · show run ((tsServer d).filter _) fs _ = _
    rw [tsServer_emitters]
    refine run_last (op := put ["implementation", "events"] "index.ts".toList _) rfl ?_
    intro o ho
    have ho : o ∈ tsDefaultIn false ["implementation", "events"] d.events "connected" ++
        (tsDefaultIn false ["implementation", "events"] d.events "disconnected" ++
        [putStatic ["implementation", "events"] "error.ts".toList,
          putStatic ["implementation", "events"] "ready.ts".toList,
          putStatic ["implementation", "events"] "shutdown.ts".toList]) := ho
    rw [List.mem_append, List.mem_append] at ho
    rcases ho with ho | ho | ho
    · exact tsDefaultIn_path _ _ d.events _ _ (by decide) o ho
    · exact tsDefaultIn_path _ _ d.events _ _ (by decide) o ho
    · simp only [List.mem_cons, List.not_mem_nil, or_false] at ho
      rcases ho with rfl | rfl | rfl
      · exact fun h => absurd (show "error.ts".toList = "index.ts".toList from congrArg Path.file h)
          (by decide)
      · exact fun h => absurd (show "ready.ts".toList = "index.ts".toList from congrArg Path.file h)
          (by decide)
      · exact fun h => absurd (show "shutdown.ts".toList = "index.ts".toList from congrArg Path.file h)
          (by decide)
  · show run ((tsServer d).filter _) fs _ = _
    rw [tsServer_beaconCode]; exact one

/-- Every module with an exported handler has its file. -/
theorem exported_there {D : List String} {k : Kind} (h : (D, k) ∈ exportings) (d : Decls) (fs : Files)
    {e : Name × Name} (he : e ∈ exportsOf d k) :
    (run (ops .server .typescript d) fs ⟨dir D, e.2 ++ ".ts".toList⟩).isSome = true := by
  have plain : ∀ {refs : List Ref} {l : List Op} {rend : String} {kp : Bool} {tail : List Op},
      l.filter (inDir (dir D)) = refs.map (slot D .typescript rend kp) ++ tail → e ∈ refs.map tsExport →
      (run l fs ⟨dir D, e.2 ++ ".ts".toList⟩).isSome = true := by
    intro refs l rend kp tail hf hm
    obtain ⟨r, hr, rfl⟩ := List.mem_map.mp hm
    exact slot_there hf hr
  simp only [exportings, List.mem_cons, Prod.mk.injEq, List.not_mem_nil, or_false] at h
  rcases h with ⟨rfl, rfl⟩ | ⟨rfl, rfl⟩ | ⟨rfl, rfl⟩
  · exact plain (tsServer_handlers d) he
  · have hf := tsServer_emitters d
    rcases List.mem_append.mp he with he | he
    · obtain ⟨r, hr, rfl⟩ := List.mem_map.mp he
      exact slot_there hf (List.mem_filter.mp hr).1
    · obtain ⟨w, hw, rfl⟩ := List.mem_map.mp he
      show (run (tsServer d) fs ⟨dir _, w.toList ++ ".ts".toList⟩).isSome = true
      have dflt : ∀ w : String, tsFile w.toList = w.toList ++ ".ts".toList →
          (∀ op ∈ tsDefaultIn false ["implementation", "events"] d.events w,
            op ∈ (tsServer d).filter (inDir (dir ["implementation", "events"]))) →
          (run (tsServer d) fs ⟨dir ["implementation", "events"], w.toList ++ ".ts".toList⟩).isSome
            = true := by
        intro w hw hi
        by_cases ha : d.events.any (· == w.toList) = true
        · obtain ⟨r, hr, he⟩ := List.any_eq_true.mp ha
          have he : r = w.toList := by simpa using he
          rw [he] at hr
          have := slot_there (fs := fs) hf hr
          rw [show fileName .typescript w.toList = tsFile w.toList from rfl, hw] at this
          exact this
        · refine run_some_dir ⟨⟨⟨dir ["implementation", "events"], w.toList ++ ".ts".toList⟩,
            .static ⟨dir ["implementation", "events"], w.toList ++ ".ts".toList⟩, false⟩, hi _ ?_, rfl⟩
          unfold tsDefaultIn
          rw [if_neg ha]
          exact List.mem_singleton.mpr rfl
      simp only [List.mem_cons, List.not_mem_nil, or_false] at hw
      rcases hw with rfl | rfl | rfl | rfl | rfl
      · refine dflt "disconnected" (by decide) ?_
        intro op ho
        rw [hf]
        simp only [List.mem_append]
        exact .inr (.inr (.inr (.inl ho)))
      · refine dflt "connected" (by decide) ?_
        intro op ho
        rw [hf]
        simp only [List.mem_append]
        exact .inr (.inr (.inl ho))
      · exact run_some_dir ⟨putStatic ["implementation", "events"] "error.ts".toList, by rw [hf]; simp, rfl⟩
      · exact run_some_dir ⟨putStatic ["implementation", "events"] "ready.ts".toList, by rw [hf]; simp, rfl⟩
      · exact run_some_dir ⟨putStatic ["implementation", "events"] "shutdown.ts".toList, by rw [hf]; simp, rfl⟩
  · exact plain (tsServer_beaconCode d) he

/-- An exported name starts like a name and goes on like one. -/
theorem tsExport_name {r : Ref} (h : Dotted r) :
    ∃ c l, (tsExport r).1 = c :: l ∧ IdStart c ∧ ∀ x ∈ l, IdPart x := by
  obtain ⟨c, l, rfl, hc, hl⟩ := h
  have hdot : '.'.toNat = 46 := rfl
  have hcd : c ≠ '.' := by
    intro he
    rw [idStart_iff, he, hdot] at hc
    omega
  refine ⟨c.toLower, l.filter (· ≠ '.') ++ "Handler".toList, ?_, ?_, ?_⟩
  · unfold tsExport
    rw [List.filter_cons_of_pos (by simpa using hcd)]
    rfl
  · rw [idStart_iff] at hc ⊢
    rw [toNat_lower]
    split <;> omega
  · intro x hx
    rcases List.mem_append.mp hx with hx | hx
    · obtain ⟨h1, h2⟩ := List.mem_filter.mp hx
      exact (hl x h1).resolve_right (by simpa using h2)
    · have : ∀ x ∈ "Handler".toList, (97 ≤ x.toNat ∧ x.toNat ≤ 122) ∨ (65 ≤ x.toNat ∧ x.toNat ≤ 90) := by
        decide
      rw [idPart_iff]
      rcases this x hx with h | h
      · exact .inl (.inl h)
      · exact .inl (.inr (.inl h))

end Verif.Files
