import Verif.Proofs.FilesMade
set_option autoImplicit false
/-!
Files of the user, lists of modules, and where what is in a file comes from.
-/
namespace Verif.Files

open Verif Verif.Files.Spec
open Verif.Flow (Target)

/-! ### Files of the user -/

theorem keeps_slots {D : List String} {t : Target} {rend : String} (l : List Ref) :
    ∀ op ∈ l.map (slot D t rend true), op.keep = true := by
  intro op ho
  obtain ⟨r, -, rfl⟩ := List.mem_map.mp ho
  rfl

theorem rustServer_top (d : Decls) : (rustServer d).filter (inDir []) =
    [putStatic [] "mod.rs".toList, keepStatic [] "context.rs".toList] := by
  simp only [rustServer, rustStatic, List.filter_append]
  rw [flat_nil d.requests (fun _ => rfl), flat_nil d.events (fun _ => rfl),
    flat_nil d.beacons (fun _ => rfl), rustDefault_nil _ _ _ (by decide) (by decide),
    rustDefault_nil _ _ _ (by decide) (by decide)]
  rfl

theorem tsServer_top (d : Decls) : (tsServer d).filter (inDir []) =
    [putStatic [] "index.ts".toList, keepStatic [] "context.ts".toList] := by
  simp only [tsServer, tsStatic, List.filter_append]
  rw [flat_nil d.requests (fun _ => rfl), flat_nil d.events (fun _ => rfl),
    flat_nil d.beacons (fun _ => rfl), tsDefault_nil _ _ _ (by decide) (by decide),
    tsDefault_nil _ _ _ (by decide) (by decide)]
  rfl

theorem rustClient_top (d : Decls) : (rustClient d).filter (inDir []) =
    [putStatic [] "mod.rs".toList, keepStatic [] "context.rs".toList] := by
  simp only [rustClient, List.filter_append]
  rw [map_nil _ (fun _ => rfl)]
  rfl

theorem rustClient_events (d : Decls) : (rustClient d).filter (inDir (dir ["events"])) =
    ["connected", "disconnected", "error", "reconnect", "shutdown"].map
      (fun n => keepStatic ["events"] (n.toList ++ ".rs".toList)) ++
    [putStatic ["events"] "mod.rs".toList] := by
  simp only [rustClient, List.filter_append]
  rw [map_nil _ (fun _ => rfl)]
  rfl

theorem defaultIn_keep (D : List String) (events : List Ref) (n : String) :
    (∀ op ∈ rustDefaultIn true D events n, op.keep = true) ∧
    ∀ op ∈ tsDefaultIn true D events n, op.keep = true := by
  unfold rustDefaultIn tsDefaultIn
  constructor <;>
  · intro op ho
    split at ho
    · exact nomatch ho
    · rw [List.mem_singleton] at ho
      rw [ho]

/-- Every write into the user's files leaves existing files alone, except for Rust's `mod.rs`. -/
theorem user_writes {side : Side} {t : Target} {p : Path} (hp : UserFile side t p)
    (hm : t = .rust → p.file ≠ "mod.rs".toList) (d : Decls) :
    ∀ op ∈ (ops side t d).filter (inDir p.dir), op.path = p → op.keep = true := by
  have mod_ne : ∀ {D : List String} {c : Content} {op : Op}, t = .rust → op ∈ [put D "mod.rs".toList c] →
      op.path = p → op.keep = true := by
    intro D c op ht ho he
    rw [List.mem_singleton] at ho
    subst ho
    exact absurd (congrArg Path.file he).symm (hm ht)
  obtain ⟨pd, pf⟩ := p
  cases side <;> cases t <;> simp only [UserFile, List.mem_cons, List.not_mem_nil, or_false] at hp
  · rcases hp with (rfl | rfl | rfl) | hp
    · show ∀ op ∈ (rustServer d).filter _, _
      rw [rustServer_responses]
      intro op ho he
      rcases List.mem_append.mp ho with ho | ho
      · exact keeps_slots _ op ho
      · exact mod_ne rfl ho he
    · show ∀ op ∈ (rustServer d).filter _, _
      rw [rustServer_events]
      intro op ho he
      simp only [List.mem_append] at ho
      rcases ho with ho | ho | ho | ho | ho
      · exact keeps_slots _ op ho
      · exact mod_ne rfl ho he
      · exact (defaultIn_keep _ _ _).1 op ho
      · exact (defaultIn_keep _ _ _).1 op ho
      · simp only [List.mem_cons, List.not_mem_nil, or_false] at ho
        rcases ho with rfl | rfl | rfl <;> rfl
    · show ∀ op ∈ (rustServer d).filter _, _
      rw [rustServer_beacons]
      intro op ho he
      rcases List.mem_append.mp ho with ho | ho
      · exact keeps_slots _ op ho
      · exact mod_ne rfl ho he
    · cases hp
      show ∀ op ∈ (rustServer d).filter _, _
      rw [rustServer_top]
      intro op ho he
      simp only [List.mem_cons, List.not_mem_nil, or_false] at ho
      rcases ho with rfl | rfl
      · exact absurd (congrArg Path.file he) (by decide)
      · rfl
  · rcases hp with (rfl | rfl | rfl) | hp
    · show ∀ op ∈ (tsServer d).filter _, _
      rw [tsServer_responses]
      exact fun op ho _ => keeps_slots _ op ho
    · show ∀ op ∈ (tsServer d).filter _, _
      rw [tsServer_events]
      intro op ho he
      simp only [List.mem_append] at ho
      rcases ho with ho | ho | ho | ho
      · exact keeps_slots _ op ho
      · exact (defaultIn_keep _ _ _).2 op ho
      · exact (defaultIn_keep _ _ _).2 op ho
      · simp only [List.mem_cons, List.not_mem_nil, or_false] at ho
        rcases ho with rfl | rfl | rfl <;> rfl
    · show ∀ op ∈ (tsServer d).filter _, _
      rw [tsServer_beacons]
      exact fun op ho _ => keeps_slots _ op ho
    · cases hp
      show ∀ op ∈ (tsServer d).filter _, _
      rw [tsServer_top]
      intro op ho he
      simp only [List.mem_cons, List.not_mem_nil, or_false] at ho
      rcases ho with rfl | rfl
      · exact absurd (congrArg Path.file he) (by decide)
      · rfl
  · rcases hp with (rfl | rfl) | hp
    · show ∀ op ∈ (rustClient d).filter _, _
      rw [rustClient_broadcasts]
      intro op ho he
      rcases List.mem_append.mp ho with ho | ho
      · exact keeps_slots _ op ho
      · exact mod_ne rfl ho he
    · show ∀ op ∈ (rustClient d).filter _, _
      rw [rustClient_events]
      intro op ho he
      rcases List.mem_append.mp ho with ho | ho
      · obtain ⟨n, -, rfl⟩ := List.mem_map.mp ho
        rfl
      · exact mod_ne rfl ho he
    · cases hp
      show ∀ op ∈ (rustClient d).filter _, _
      rw [rustClient_top]
      intro op ho he
      simp only [List.mem_cons, List.not_mem_nil, or_false] at ho
      rcases ho with rfl | rfl
      · exact absurd (congrArg Path.file he) (by decide)
      · rfl

theorem user_kept {side : Side} {t : Target} {p : Path} (hp : UserFile side t p)
    (hm : t = .rust → p.file ≠ "mod.rs".toList) (d : Decls) (fs : Files) (hs : (fs p).isSome = true) :
    run (ops side t d) fs p = fs p := by
  rw [run_dir]
  exact run_kept (user_writes hp hm d) hs

/-! ### Where contents come from -/

theorem fold_from (l : List Op) (v : Option Content) (c : Content)
    (h : l.foldl (fun v op => at1 op v) v = some c) : v = some c ∨ ∃ op ∈ l, op.content = c := by
  induction l generalizing v with
  | nil => exact .inl h
  | cons op l ih =>
    rw [List.foldl_cons] at h
    rcases ih _ h with h2 | ⟨o, ho, hc⟩
    · unfold at1 at h2
      split at h2
      · exact .inl h2
      · exact .inr ⟨op, by simp, Option.some.inj h2⟩
    · exact .inr ⟨o, by simp [ho], hc⟩

theorem run_from {l : List Op} {fs : Files} {p : Path} {c : Content} (h : run l fs p = some c) :
    fs p = some c ∨ ∃ op ∈ l, op.path = p ∧ op.content = c := by
  rw [run_at] at h
  rcases fold_from _ _ _ h with h | ⟨op, ho, hc⟩
  · exact .inl h
  · simp only [List.mem_filter, decide_eq_true_eq] at ho
    exact .inr ⟨op, ho.1, ho.2, hc⟩

/-- A write after which nothing else is written to the file. -/
theorem run_last {a b : List Op} {op : Op} {fs : Files} (hk : op.keep = false)
    (hb : ∀ o ∈ b, o.path ≠ op.path) : run (a ++ op :: b) fs op.path = some op.content := by
  rw [run_append, run_cons, run_at]
  have : b.filter (fun o => o.path = op.path) = [] := by
    rw [List.filter_eq_nil_iff]
    intro o ho
    simpa using hb o ho
  rw [this]
  show op.run (run a fs) op.path = _
  rw [Op.run_at, if_pos rfl]
  simp [at1, hk]

/-! ### Lists of Rust modules -/

theorem rustChar_idem (c : Char) : rustChar (rustChar c) = rustChar c := by
  rw [char_eq_iff, toNat_rustChar (rustChar c)]
  simp only [toNat_rustChar]
  repeat' split
  all_goals omega

theorem rustName_idem (r : Ref) : rustName (rustName r) = rustName r := by
  rw [rustName_eq, rustName_eq, List.map_map]
  congr 1
  funext c
  exact rustChar_idem c

theorem alike_rustName (r : Ref) : Alike .rust (rustName r) r :=
  (rustName_iff _ _).mp (rustName_idem r)

/-- The modules a list should contain. -/
def modsOf (d : Decls) : Kind → List Name
  | .request => d.requests.map rustName
  | .event => rustEventMods d.events
  | .beacon => d.beacons.map rustName
  | .broadcast => (distinct d.broadcasts).map rustName

theorem defaultIn_path (b : Bool) (D : List String) (events : List Ref) (n : String) (f : Name)
    (hf : n.toList ++ ".rs".toList ≠ f) : ∀ op ∈ rustDefaultIn b D events n, op.path ≠ ⟨dir D, f⟩ := by
  intro op ho he
  unfold rustDefaultIn at ho
  split at ho
  · exact nomatch ho
  · rw [List.mem_singleton] at ho
    subst ho
    exact hf (congrArg Path.file he)

/-- The list of modules at the end. -/
theorem listing_at {side : Side} {D : List String} {k : Kind} (h : (D, k) ∈ listings side) (d : Decls)
    (fs : Files) : run (ops side .rust d) fs ⟨dir D, "mod.rs".toList⟩ = some (.mods (modsOf d k)) := by
  rw [run_dir]
  have one : ∀ {D : List String} {l : List Op} {c : Content},
      run (l ++ [put D "mod.rs".toList c]) fs ⟨dir D, "mod.rs".toList⟩ = some c :=
    fun {D l c} => run_last (op := put D "mod.rs".toList c) rfl (fun o h => nomatch h)
  have many : ∀ {D : List String} {l : List Op} {c : Content} {b : Bool} {mk : Name → Op},
      (∀ f, (mk f).path = ⟨dir D, f⟩) →
      run (l ++ ([put D "mod.rs".toList c] ++ (rustDefaultIn b D d.events "connected" ++
        (rustDefaultIn b D d.events "disconnected" ++
        [mk "error.rs".toList, mk "ready.rs".toList, mk "shutdown.rs".toList])))) fs
        ⟨dir D, "mod.rs".toList⟩ = some c := by
    intro D l c b mk hmk
    refine run_last (op := put D "mod.rs".toList c) rfl ?_
    intro o ho
    have ho : o ∈ rustDefaultIn b D d.events "connected" ++ (rustDefaultIn b D d.events "disconnected" ++
        [mk "error.rs".toList, mk "ready.rs".toList, mk "shutdown.rs".toList]) := ho
    rw [List.mem_append, List.mem_append] at ho
    rcases ho with ho | ho | ho
    · exact defaultIn_path b D d.events _ _ (by decide) o ho
    · exact defaultIn_path b D d.events _ _ (by decide) o ho
    · simp only [List.mem_cons, List.not_mem_nil, or_false] at ho
      have ne : ∀ f : Name, f ≠ "mod.rs".toList → (mk f).path ≠ (put D "mod.rs".toList c).path := by
        intro f hf h
        rw [hmk] at h
        exact hf (congrArg Path.file h)
      rcases ho with rfl | rfl | rfl
      · exact ne _ (by decide)
      · exact ne _ (by decide)
      · exact ne _ (by decide)
  cases side
  · simp only [listings, List.mem_cons, Prod.mk.injEq, List.not_mem_nil, or_false] at h
    rcases h with ⟨rfl, rfl⟩ | ⟨rfl, rfl⟩ | ⟨rfl, rfl⟩ | ⟨rfl, rfl⟩ | ⟨rfl, rfl⟩ | ⟨rfl, rfl⟩
    · show run ((rustServer d).filter _) fs _ = _
      rw [rustServer_responses]; exact one
    · show run ((rustServer d).filter _) fs _ = _
      rw [rustServer_handlers]; exact one
    · show run ((rustServer d).filter _) fs _ = _
      rw [rustServer_events]; exact many (mk := keepStatic _) (fun _ => rfl)
    · show run ((rustServer d).filter _) fs _ = _
      rw [rustServer_emitters]; exact many (mk := putStatic _) (fun _ => rfl)
    · show run ((rustServer d).filter _) fs _ = _
      rw [rustServer_beacons]; exact one
    · show run ((rustServer d).filter _) fs _ = _
      rw [rustServer_beaconCode]; exact one
  · simp only [listings, List.mem_cons, Prod.mk.injEq, List.not_mem_nil, or_false] at h
    obtain ⟨rfl, rfl⟩ := h
    show run ((rustClient d).filter _) fs _ = _
    rw [rustClient_broadcasts]; exact one

theorem run_some_dir {l : List Op} {fs : Files} {D : Dir} {f : Name}
    (h : ∃ op ∈ l.filter (inDir D), op.path = ⟨D, f⟩) : (run l fs ⟨D, f⟩).isSome = true := by
  obtain ⟨op, ho, hp⟩ := h
  exact run_some (.inr ⟨op, (List.mem_filter.mp ho).1, hp⟩)

theorem slot_there {l : List Op} {fs : Files} {D : List String} {t : Target} {rend : String} {kp : Bool}
    {refs : List Ref} {tail : List Op} (hf : l.filter (inDir (dir D)) = refs.map (slot D t rend kp) ++ tail)
    {r : Ref} (hr : r ∈ refs) : (run l fs ⟨dir D, fileName t r⟩).isSome = true :=
  run_some_dir ⟨slot D t rend kp r, by
    rw [hf, List.mem_append]; exact .inl (List.mem_map.mpr ⟨r, hr, rfl⟩), rfl⟩

/-- Every listed module has its file. -/
theorem listed_there {side : Side} {D : List String} {k : Kind} (h : (D, k) ∈ listings side) (d : Decls)
    (fs : Files) {n : Name} (hn : n ∈ modsOf d k) :
    (run (ops side .rust d) fs ⟨dir D, n ++ ".rs".toList⟩).isSome = true := by
  have plain : ∀ {refs : List Ref} {l : List Op} {rend : String} {kp : Bool} {tail : List Op},
      l.filter (inDir (dir D)) = refs.map (slot D .rust rend kp) ++ tail → n ∈ refs.map rustName →
      (run l fs ⟨dir D, n ++ ".rs".toList⟩).isSome = true := by
    intro refs l rend kp tail hf hm
    obtain ⟨r, hr, rfl⟩ := List.mem_map.mp hm
    exact slot_there hf hr
  have event : ∀ {l : List Op} {rend : String} {kp b : Bool} {c : Content} {mk : Name → Op},
      (∀ f, (mk f).path = ⟨dir D, f⟩) →
      l.filter (inDir (dir D)) = d.events.map (slot D .rust rend kp) ++
        ([put D "mod.rs".toList c] ++ (rustDefaultIn b D d.events "connected" ++
        (rustDefaultIn b D d.events "disconnected" ++
        [mk "error.rs".toList, mk "ready.rs".toList, mk "shutdown.rs".toList]))) →
      n ∈ rustEventMods d.events → (run l fs ⟨dir D, n ++ ".rs".toList⟩).isSome = true := by
    intro l rend kp b c mk hmk hf hm
    have dflt : ∀ w : String, rustFile w.toList = w.toList ++ ".rs".toList →
        (∀ op ∈ rustDefaultIn b D d.events w, op ∈ l.filter (inDir (dir D))) →
        (run l fs ⟨dir D, w.toList ++ ".rs".toList⟩).isSome = true := by
      intro w hw hi
      by_cases ha : d.events.any (· == w.toList) = true
      · obtain ⟨r, hr, he⟩ := List.any_eq_true.mp ha
        have he : r = w.toList := by simpa using he
        rw [he] at hr
        have := slot_there (fs := fs) hf hr
        rw [show fileName .rust w.toList = rustFile w.toList from rfl, hw] at this
        exact this
      · refine run_some_dir ⟨⟨⟨dir D, w.toList ++ ".rs".toList⟩,
          .static ⟨dir D, w.toList ++ ".rs".toList⟩, b⟩, hi _ ?_, rfl⟩
        unfold rustDefaultIn
        rw [if_neg ha]
        exact List.mem_singleton.mpr rfl
    simp only [rustEventMods, fixedEvents, List.mem_append, List.map_cons, List.map_nil, List.mem_cons,
      List.not_mem_nil, or_false] at hm
    rcases hm with (rfl | rfl | rfl | rfl | rfl) | hm
    · refine dflt "connected" (by decide) ?_
      intro op ho
      rw [hf]
      simp only [List.mem_append]
      exact .inr (.inr (.inl ho))
    · refine dflt "disconnected" (by decide) ?_
      intro op ho
      rw [hf]
      simp only [List.mem_append]
      exact .inr (.inr (.inr (.inl ho)))
    · exact run_some_dir ⟨mk "error.rs".toList, by rw [hf]; simp, hmk _⟩
    · exact run_some_dir ⟨mk "ready.rs".toList, by rw [hf]; simp, hmk _⟩
    · exact run_some_dir ⟨mk "shutdown.rs".toList, by rw [hf]; simp, hmk _⟩
    · obtain ⟨r, hr, rfl⟩ := List.mem_map.mp hm
      exact slot_there hf (List.mem_filter.mp hr).1
  cases side
  · simp only [listings, List.mem_cons, Prod.mk.injEq, List.not_mem_nil, or_false] at h
    rcases h with ⟨rfl, rfl⟩ | ⟨rfl, rfl⟩ | ⟨rfl, rfl⟩ | ⟨rfl, rfl⟩ | ⟨rfl, rfl⟩ | ⟨rfl, rfl⟩
    · exact plain (rustServer_responses d) hn
    · exact plain (rustServer_handlers d) hn
    · exact event (mk := keepStatic _) (fun _ => rfl) (rustServer_events d) hn
    · exact event (mk := putStatic _) (fun _ => rfl) (rustServer_emitters d) hn
    · exact plain (rustServer_beacons d) hn
    · exact plain (rustServer_beaconCode d) hn
  · simp only [listings, List.mem_cons, Prod.mk.injEq, List.not_mem_nil, or_false] at h
    obtain ⟨rfl, rfl⟩ := h
    exact plain (rustClient_broadcasts d) hn

end Verif.Files
