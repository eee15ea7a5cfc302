import Verif.Proofs.Files
set_option autoImplicit false
/-!
What each generator writes into each folder.
-/
namespace Verif.Files

open Verif Verif.Files.Spec
open Verif.Flow (Target)

theorem flat_nil {f : Ref → List Op} {q : Op → Bool} (l : List Ref) (h : ∀ r, (f r).filter q = []) :
    (l.flatMap f).filter q = [] := by
  induction l with
  | nil => rfl
  | cons r l ih => rw [List.flatMap_cons, List.filter_append, h, ih]; rfl

theorem flat_one {f : Ref → List Op} {g : Ref → Op} {q : Op → Bool} (l : List Ref)
    (h : ∀ r, (f r).filter q = [g r]) : (l.flatMap f).filter q = l.map g := by
  induction l with
  | nil => rfl
  | cons r l ih => rw [List.flatMap_cons, List.filter_append, h, ih]; rfl

theorem map_nil {g : Ref → Op} {q : Op → Bool} (l : List Ref) (h : ∀ r, q (g r) = false) :
    (l.map g).filter q = [] := by
  induction l with
  | nil => rfl
  | cons r l ih => rw [List.map_cons, List.filter_cons_of_neg (by simp [h]), ih]

theorem map_all {g : Ref → Op} {q : Op → Bool} (l : List Ref) (h : ∀ r, q (g r) = true) :
    (l.map g).filter q = l.map g := by
  induction l with
  | nil => rfl
  | cons r l ih => rw [List.map_cons, List.filter_cons_of_pos (h r), ih]

/-- The write for a declaration. -/
def slot (D : List String) (t : Target) (rend : String) (kp : Bool) (r : Ref) : Op :=
  ⟨⟨dir D, fileName t r⟩, .made rend.toList r, kp⟩

theorem place {ops : List Op} {D : List String} {t : Target} {rend : String} {kp : Bool} {l : List Ref}
    {tail : List Op} (hf : ops.filter (inDir (dir D)) = l.map (slot D t rend kp) ++ tail) {r : Ref}
    (hr : r ∈ l) (inj : ∀ r2 ∈ l, Alike t r r2 → r = r2)
    (ht : ∀ op ∈ tail, op.path.file ≠ fileName t r) (fs : Files) :
    run ops fs ⟨dir D, fileName t r⟩ = at1 (slot D t rend kp r) (fs ⟨dir D, fileName t r⟩) := by
  rw [run_dir]
  show run (ops.filter (inDir (dir D))) fs (slot D t rend kp r).path = _
  rw [hf]
  refine run_put (op := slot D t rend kp r) ?_ ?_
  · rw [List.mem_append]
    exact .inl (List.mem_map.mpr ⟨r, hr, rfl⟩)
  · intro op2 h2 h3
    rw [List.mem_append, List.mem_map] at h2
    rcases h2 with ⟨r2, hr2, rfl⟩ | h2
    · have h4 : fileName t r = fileName t r2 := congrArg Path.file h3.symm
      have h5 := inj r2 hr2 ((fileName_iff t r r2).mp h4)
      rw [h5]
    · exact absurd (congrArg Path.file h3) (ht op2 h2)

/-! ### Rust server -/

theorem rustDefault_nil (D : Dir) (events : List Ref) (n : String)
    (h1 : D ≠ dir ["events"]) (h2 : D ≠ dir ["implementation", "emitters"]) :
    (rustDefault events n).filter (inDir D) = [] := by
  unfold rustDefault
  split
  · rfl
  · rw [List.filter_cons_of_neg, List.filter_cons_of_neg]
    · rfl
    · simp only [inDir, decide_eq_true_eq]; exact fun h => h2 h.symm
    · simp only [inDir, decide_eq_true_eq]; exact fun h => h1 h.symm

/-- The shipped file of an event in one folder. -/
def rustDefaultIn (kp : Bool) (D : List String) (events : List Ref) (n : String) : List Op :=
  if events.any (· == n.toList) then []
  else [⟨⟨dir D, n.toList ++ ".rs".toList⟩, .static ⟨dir D, n.toList ++ ".rs".toList⟩, kp⟩]

theorem rustDefault_user (events : List Ref) (n : String) :
    (rustDefault events n).filter (inDir (dir ["events"])) =
      rustDefaultIn true ["events"] events n := by
  unfold rustDefault rustDefaultIn
  split <;> rfl

theorem rustDefault_code (events : List Ref) (n : String) :
    (rustDefault events n).filter (inDir (dir ["implementation", "emitters"])) =
      rustDefaultIn false ["implementation", "emitters"] events n := by
  unfold rustDefault rustDefaultIn
  split <;> rfl

theorem rustServer_responses (d : Decls) : (rustServer d).filter (inDir (dir ["responses"])) =
    d.requests.map (slot ["responses"] .rust "render_request_response" true) ++
      ([put ["responses"] "mod.rs".toList (.mods (d.requests.map rustName))]) := by
  simp only [rustServer, rustStatic, List.filter_append]
  rw [flat_one (g := slot ["responses"] .rust "render_request_response" true) d.requests (fun _ => rfl),
    flat_nil d.events (fun _ => rfl),
    flat_nil d.beacons (fun _ => rfl),
    rustDefault_nil _ _ _ (by decide) (by decide),
    rustDefault_nil _ _ _ (by decide) (by decide)]
  simp only [List.append_assoc, List.nil_append]
  rfl

theorem rustServer_handlers (d : Decls) : (rustServer d).filter (inDir (dir ["implementation", "handlers"])) =
    d.requests.map (slot ["implementation", "handlers"] .rust "render_request_handler" false) ++
      ([put ["implementation", "handlers"] "mod.rs".toList (.mods (d.requests.map rustName))]) := by
  simp only [rustServer, rustStatic, List.filter_append]
  rw [flat_one (g := slot ["implementation", "handlers"] .rust "render_request_handler" false) d.requests (fun _ => rfl),
    flat_nil d.events (fun _ => rfl),
    flat_nil d.beacons (fun _ => rfl),
    rustDefault_nil _ _ _ (by decide) (by decide),
    rustDefault_nil _ _ _ (by decide) (by decide)]
  simp only [List.append_assoc, List.nil_append]
  rfl

theorem rustServer_beacons (d : Decls) : (rustServer d).filter (inDir (dir ["beacons"])) =
    d.beacons.map (slot ["beacons"] .rust "render_beacon_impl" true) ++
      ([put ["beacons"] "mod.rs".toList (.mods (d.beacons.map rustName))]) := by
  simp only [rustServer, rustStatic, List.filter_append]
  rw [flat_nil d.requests (fun _ => rfl),
    flat_nil d.events (fun _ => rfl),
    flat_one (g := slot ["beacons"] .rust "render_beacon_impl" true) d.beacons (fun _ => rfl),
    rustDefault_nil _ _ _ (by decide) (by decide),
    rustDefault_nil _ _ _ (by decide) (by decide)]
  simp only [List.append_assoc, List.nil_append]
  rfl

theorem rustServer_beaconCode (d : Decls) : (rustServer d).filter (inDir (dir ["implementation", "beacons"])) =
    d.beacons.map (slot ["implementation", "beacons"] .rust "render_beacon_emitter" false) ++
      ([put ["implementation", "beacons"] "mod.rs".toList (.mods (d.beacons.map rustName))]) := by
  simp only [rustServer, rustStatic, List.filter_append]
  rw [flat_nil d.requests (fun _ => rfl),
    flat_nil d.events (fun _ => rfl),
    flat_one (g := slot ["implementation", "beacons"] .rust "render_beacon_emitter" false) d.beacons (fun _ => rfl),
    rustDefault_nil _ _ _ (by decide) (by decide),
    rustDefault_nil _ _ _ (by decide) (by decide)]
  simp only [List.append_assoc, List.nil_append]
  rfl

theorem rustServer_events (d : Decls) : (rustServer d).filter (inDir (dir ["events"])) =
    d.events.map (slot ["events"] .rust "render_event_impl" true) ++
      ([put ["events"] "mod.rs".toList (.mods (rustEventMods d.events))] ++
      (rustDefaultIn true ["events"] d.events "connected" ++
      (rustDefaultIn true ["events"] d.events "disconnected" ++
      [keepStatic ["events"] "error.rs".toList, keepStatic ["events"] "ready.rs".toList, keepStatic ["events"] "shutdown.rs".toList]))) := by
  simp only [rustServer, rustStatic, List.filter_append]
  rw [flat_nil d.requests (fun _ => rfl),
    flat_one (g := slot ["events"] .rust "render_event_impl" true) d.events (fun _ => rfl),
    flat_nil d.beacons (fun _ => rfl),
    rustDefault_user,
    rustDefault_user]
  simp only [List.append_assoc, List.nil_append]
  rfl

theorem rustServer_emitters (d : Decls) : (rustServer d).filter (inDir (dir ["implementation", "emitters"])) =
    d.events.map (slot ["implementation", "emitters"] .rust "render_event_emitter" false) ++
      ([put ["implementation", "emitters"] "mod.rs".toList (.mods (rustEventMods d.events))] ++
      (rustDefaultIn false ["implementation", "emitters"] d.events "connected" ++
      (rustDefaultIn false ["implementation", "emitters"] d.events "disconnected" ++
      [putStatic ["implementation", "emitters"] "error.rs".toList, putStatic ["implementation", "emitters"] "ready.rs".toList, putStatic ["implementation", "emitters"] "shutdown.rs".toList]))) := by
  simp only [rustServer, rustStatic, List.filter_append]
  rw [flat_nil d.requests (fun _ => rfl),
    flat_one (g := slot ["implementation", "emitters"] .rust "render_event_emitter" false) d.events (fun _ => rfl),
    flat_nil d.beacons (fun _ => rfl),
    rustDefault_code,
    rustDefault_code]
  simp only [List.append_assoc, List.nil_append]
  rfl

/-! ### TypeScript server -/

theorem tsDefault_nil (D : Dir) (events : List Ref) (n : String)
    (h1 : D ≠ dir ["events"]) (h2 : D ≠ dir ["implementation", "events"]) :
    (tsDefault events n).filter (inDir D) = [] := by
  unfold tsDefault
  split
  · rfl
  · rw [List.filter_cons_of_neg, List.filter_cons_of_neg]
    · rfl
    · simp only [inDir, decide_eq_true_eq]; exact fun h => h2 h.symm
    · simp only [inDir, decide_eq_true_eq]; exact fun h => h1 h.symm

/-- The shipped file of an event in one folder. -/
def tsDefaultIn (kp : Bool) (D : List String) (events : List Ref) (n : String) : List Op :=
  if events.any (· == n.toList) then []
  else [⟨⟨dir D, n.toList ++ ".ts".toList⟩, .static ⟨dir D, n.toList ++ ".ts".toList⟩, kp⟩]

theorem tsDefault_user (events : List Ref) (n : String) :
    (tsDefault events n).filter (inDir (dir ["events"])) =
      tsDefaultIn true ["events"] events n := by
  unfold tsDefault tsDefaultIn
  split <;> rfl

theorem tsDefault_code (events : List Ref) (n : String) :
    (tsDefault events n).filter (inDir (dir ["implementation", "events"])) =
      tsDefaultIn false ["implementation", "events"] events n := by
  unfold tsDefault tsDefaultIn
  split <;> rfl

theorem tsServer_responses (d : Decls) : (tsServer d).filter (inDir (dir ["responses"])) =
    d.requests.map (slot ["responses"] .typescript "render_request_response" true) := by
  simp only [tsServer, tsStatic, List.filter_append]
  rw [flat_one (g := slot ["responses"] .typescript "render_request_response" true) d.requests (fun _ => rfl),
    flat_nil d.events (fun _ => rfl),
    flat_nil d.beacons (fun _ => rfl),
    tsDefault_nil _ _ _ (by decide) (by decide),
    tsDefault_nil _ _ _ (by decide) (by decide)]
  simp only [List.append_assoc, List.nil_append]
  exact List.append_nil _

theorem tsServer_handlers (d : Decls) : (tsServer d).filter (inDir (dir ["implementation", "responses"])) =
    d.requests.map (slot ["implementation", "responses"] .typescript "render_request_handler" false) ++
      ([put ["implementation", "responses"] "index.ts".toList (.exports (d.requests.map tsExport))]) := by
  simp only [tsServer, tsStatic, List.filter_append]
  rw [flat_one (g := slot ["implementation", "responses"] .typescript "render_request_handler" false) d.requests (fun _ => rfl),
    flat_nil d.events (fun _ => rfl),
    flat_nil d.beacons (fun _ => rfl),
    tsDefault_nil _ _ _ (by decide) (by decide),
    tsDefault_nil _ _ _ (by decide) (by decide)]
  simp only [List.append_assoc, List.nil_append]
  rfl

theorem tsServer_beacons (d : Decls) : (tsServer d).filter (inDir (dir ["beacons"])) =
    d.beacons.map (slot ["beacons"] .typescript "render_beacon_impl" true) := by
  simp only [tsServer, tsStatic, List.filter_append]
  rw [flat_nil d.requests (fun _ => rfl),
    flat_nil d.events (fun _ => rfl),
    flat_one (g := slot ["beacons"] .typescript "render_beacon_impl" true) d.beacons (fun _ => rfl),
    tsDefault_nil _ _ _ (by decide) (by decide),
    tsDefault_nil _ _ _ (by decide) (by decide)]
  simp only [List.append_assoc, List.nil_append]
  exact List.append_nil _

theorem tsServer_beaconCode (d : Decls) : (tsServer d).filter (inDir (dir ["implementation", "beacons"])) =
    d.beacons.map (slot ["implementation", "beacons"] .typescript "render_beacon_emitter" false) ++
      ([put ["implementation", "beacons"] "index.ts".toList (.exports (d.beacons.map tsExport))]) := by
  simp only [tsServer, tsStatic, List.filter_append]
  rw [flat_nil d.requests (fun _ => rfl),
    flat_nil d.events (fun _ => rfl),
    flat_one (g := slot ["implementation", "beacons"] .typescript "render_beacon_emitter" false) d.beacons (fun _ => rfl),
    tsDefault_nil _ _ _ (by decide) (by decide),
    tsDefault_nil _ _ _ (by decide) (by decide)]
  simp only [List.append_assoc, List.nil_append]
  rfl

theorem tsServer_events (d : Decls) : (tsServer d).filter (inDir (dir ["events"])) =
    d.events.map (slot ["events"] .typescript "render_event_impl" true) ++
      ((tsDefaultIn true ["events"] d.events "connected" ++
      (tsDefaultIn true ["events"] d.events "disconnected" ++
      [keepStatic ["events"] "error.ts".toList, keepStatic ["events"] "ready.ts".toList, keepStatic ["events"] "shutdown.ts".toList]))) := by
  simp only [tsServer, tsStatic, List.filter_append]
  rw [flat_nil d.requests (fun _ => rfl),
    flat_one (g := slot ["events"] .typescript "render_event_impl" true) d.events (fun _ => rfl),
    flat_nil d.beacons (fun _ => rfl),
    tsDefault_user,
    tsDefault_user]
  simp only [List.append_assoc, List.nil_append]
  rfl

theorem tsServer_emitters (d : Decls) : (tsServer d).filter (inDir (dir ["implementation", "events"])) =
    d.events.map (slot ["implementation", "events"] .typescript "render_event_emitter" false) ++
      ([put ["implementation", "events"] "index.ts".toList (.exports (tsEventExports d.events))] ++
      (tsDefaultIn false ["implementation", "events"] d.events "connected" ++
      (tsDefaultIn false ["implementation", "events"] d.events "disconnected" ++
      [putStatic ["implementation", "events"] "error.ts".toList, putStatic ["implementation", "events"] "ready.ts".toList, putStatic ["implementation", "events"] "shutdown.ts".toList]))) := by
  simp only [tsServer, tsStatic, List.filter_append]
  rw [flat_nil d.requests (fun _ => rfl),
    flat_one (g := slot ["implementation", "events"] .typescript "render_event_emitter" false) d.events (fun _ => rfl),
    flat_nil d.beacons (fun _ => rfl),
    tsDefault_code,
    tsDefault_code]
  simp only [List.append_assoc, List.nil_append]
  rfl

/-! ### Clients -/

theorem rustClient_broadcasts (d : Decls) : (rustClient d).filter (inDir (dir ["broadcasts"])) =
    (distinct d.broadcasts).map (slot ["broadcasts"] .rust "render_broadcast" true) ++
      [put ["broadcasts"] "mod.rs".toList (.mods ((distinct d.broadcasts).map rustName))] := by
  simp only [rustClient, List.filter_append]
  rw [map_all _ (fun _ => rfl)]
  simp only [List.append_assoc]
  rfl

theorem tsClient_requests (d : Decls) : (tsClient d).filter (inDir (dir ["requests"])) =
    d.requests.map (slot ["requests"] .typescript "render_request" false) ++ [] := by
  simp only [tsClient, List.filter_append]
  rw [map_all _ (fun _ => rfl), map_nil d.beacons (fun _ => rfl)]
  simp only [List.append_assoc]
  rfl

theorem tsClient_beacons (d : Decls) : (tsClient d).filter (inDir (dir ["beacons"])) =
    d.beacons.map (slot ["beacons"] .typescript "render_beacon" false) ++ [] := by
  simp only [tsClient, List.filter_append]
  rw [map_nil d.requests (fun _ => rfl), map_all _ (fun _ => rfl)]
  simp only [List.append_assoc]
  rfl

theorem mem_distinct (l : List Ref) (r : Ref) : r ∈ distinct l ↔ r ∈ l := by
  have key : ∀ (l acc : List Ref),
      r ∈ l.foldl (fun acc r => if acc.any (· == r) then acc else acc ++ [r]) acc ↔ r ∈ acc ∨ r ∈ l := by
    intro l
    induction l with
    | nil => intro acc; simp
    | cons x l ih =>
      intro acc
      rw [List.foldl_cons, ih]
      by_cases hx : acc.any (· == x) = true
      · rw [if_pos hx]
        rw [List.any_eq_true] at hx
        obtain ⟨y, hy, he⟩ := hx
        have he : y = x := by simpa using he
        subst he
        rw [List.mem_cons]
        constructor
        · rintro (h | h)
          · exact .inl h
          · exact .inr (.inr h)
        · rintro (h | h | h)
          · exact .inl h
          · exact .inl (h ▸ hy)
          · exact .inr h
      · rw [if_neg hx, List.mem_append, List.mem_singleton, List.mem_cons, or_assoc]
  simpa [distinct] using key l []

end Verif.Files
