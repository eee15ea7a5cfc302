import Verif.Proofs.FilesPlace
set_option autoImplicit false
/-!
Declarations that are kept apart have their files; files of the user stay.
-/
namespace Verif.Files

open Verif Verif.Files.Spec
open Verif.Flow (Target)

theorem reserved_hit {side : Side} {t : Target} {k : Kind} {l : List Ref} (h : Apart side t k l) {r : Ref}
    (hr : r ∈ l) (w : String) (hw : w ∈ reserved side t k) {f : Name} (hf : f = fileName t w.toList)
    (he : f = fileName t r) : k = .event ∧ r = w.toList ∧ (w = "connected" ∨ w = "disconnected") :=
  h.2 r hr w hw ((fileName_iff t r w.toList).mp (by rw [← he, hf]))

/-- What a generator writes into the folder for declarations of a kind: the writes for them, and files
with reserved names. -/
structure Slots (side : Side) (t : Target) (k : Kind) (d : Decls) (D : List String) (rend : String)
    (kp : Bool) where
  l : List Ref
  tail : List Op
  mem : ∀ r, r ∈ l ↔ r ∈ declared d k
  eq : (ops side t d).filter (inDir (dir D)) = l.map (slot D t rend kp) ++ tail
  clash : ∀ op ∈ tail, ∃ w, w ∈ reserved side t k ∧ op.path.file = fileName t w.toList ∧
    ¬ ((w = "connected" ∨ w = "disconnected") ∧ w.toList ∈ declared d k)

theorem Slots.run_at {side : Side} {t : Target} {k : Kind} {d : Decls} {D : List String} {rend : String}
    {kp : Bool} (s : Slots side t k d D rend kp) (h : Apart side t k (declared d k)) {r : Ref}
    (hr : r ∈ declared d k) (fs : Files) :
    run (ops side t d) fs ⟨dir D, fileName t r⟩ =
      at1 (slot D t rend kp r) (fs ⟨dir D, fileName t r⟩) := by
  refine place s.eq ((s.mem r).mpr hr) (fun r2 h2 => h.1 r hr r2 ((s.mem r2).mp h2)) ?_ fs
  intro op ho he
  obtain ⟨w, hw, hf, hn⟩ := s.clash op ho
  obtain ⟨-, h2, h3⟩ := reserved_hit h hr w hw hf he
  exact hn ⟨h3, h2 ▸ hr⟩

theorem clash_one {side : Side} {t : Target} {k : Kind} {d : Decls} {D : List String} {f : Name}
    {c : Content} {w : String} (hw : w ∈ reserved side t k) (hf : f = fileName t w.toList)
    (hn : w ≠ "connected" ∧ w ≠ "disconnected") :
    ∀ op ∈ [put D f c], ∃ w, w ∈ reserved side t k ∧ op.path.file = fileName t w.toList ∧
      ¬ ((w = "connected" ∨ w = "disconnected") ∧ w.toList ∈ declared d k) := by
  intro op ho
  rw [List.mem_singleton] at ho
  subst ho
  exact ⟨w, hw, hf, fun h => h.1.elim hn.1 hn.2⟩

theorem clash_events {t : Target} {d : Decls} {D : List String} {ext : List Char} {kp : Bool}
    {mk : Name → Op} (hmk : ∀ f, (mk f).path.file = f)
    (hx : ∀ n ∈ ["connected", "disconnected", "error", "ready", "shutdown"],
      n.toList ++ ext = fileName t n.toList ∧ n ∈ reserved .server t .event)
    (f1 f2 f3 : Name) (e1 : f1 = "error".toList ++ ext) (e2 : f2 = "ready".toList ++ ext)
    (e3 : f3 = "shutdown".toList ++ ext) :
    ∀ op ∈ (if d.events.any (· == "connected".toList) then []
        else [(⟨⟨dir D, "connected".toList ++ ext⟩, .static ⟨dir D, "connected".toList ++ ext⟩, kp⟩ : Op)]) ++
      ((if d.events.any (· == "disconnected".toList) then []
        else [(⟨⟨dir D, "disconnected".toList ++ ext⟩,
          .static ⟨dir D, "disconnected".toList ++ ext⟩, kp⟩ : Op)]) ++
      [mk f1, mk f2, mk f3]),
      ∃ w, w ∈ reserved .server t .event ∧ op.path.file = fileName t w.toList ∧
        ¬ ((w = "connected" ∨ w = "disconnected") ∧ w.toList ∈ declared d .event) := by
  intro op ho
  rw [List.mem_append, List.mem_append] at ho
  rcases ho with ho | ho | ho
  · split at ho
    · exact nomatch ho
    · rename_i hn
      rw [List.mem_singleton] at ho
      subst ho
      obtain ⟨a, b⟩ := hx "connected" (by simp)
      refine ⟨_, b, a, fun h => hn ?_⟩
      exact List.any_eq_true.mpr ⟨_, h.2, by simp⟩
  · split at ho
    · exact nomatch ho
    · rename_i hn
      rw [List.mem_singleton] at ho
      subst ho
      obtain ⟨a, b⟩ := hx "disconnected" (by simp)
      refine ⟨_, b, a, fun h => hn ?_⟩
      exact List.any_eq_true.mpr ⟨_, h.2, by simp⟩
  · simp only [List.mem_cons, List.not_mem_nil, or_false] at ho
    rcases ho with rfl | rfl | rfl
    · obtain ⟨a, b⟩ := hx "error" (by simp)
      exact ⟨_, b, by rw [hmk, e1]; exact a, by rintro ⟨h | h, -⟩ <;> exact absurd h (by decide)⟩
    · obtain ⟨a, b⟩ := hx "ready" (by simp)
      exact ⟨_, b, by rw [hmk, e2]; exact a, by rintro ⟨h | h, -⟩ <;> exact absurd h (by decide)⟩
    · obtain ⟨a, b⟩ := hx "shutdown" (by simp)
      exact ⟨_, b, by rw [hmk, e3]; exact a, by rintro ⟨h | h, -⟩ <;> exact absurd h (by decide)⟩

theorem rust_fixed : ∀ n ∈ ["connected", "disconnected", "error", "ready", "shutdown"],
    n.toList ++ ".rs".toList = fileName .rust n.toList ∧ n ∈ reserved .server .rust .event := by
  decide

theorem ts_fixed : ∀ n ∈ ["connected", "disconnected", "error", "ready", "shutdown"],
    n.toList ++ ".ts".toList = fileName .typescript n.toList ∧
      n ∈ reserved .server .typescript .event := by
  decide

theorem clash_cons {side : Side} {t : Target} {k : Kind} {d : Decls} {a b : List Op}
    (ha : ∀ op ∈ a, ∃ w, w ∈ reserved side t k ∧ op.path.file = fileName t w.toList ∧
      ¬ ((w = "connected" ∨ w = "disconnected") ∧ w.toList ∈ declared d k))
    (hb : ∀ op ∈ b, ∃ w, w ∈ reserved side t k ∧ op.path.file = fileName t w.toList ∧
      ¬ ((w = "connected" ∨ w = "disconnected") ∧ w.toList ∈ declared d k)) :
    ∀ op ∈ a ++ b, ∃ w, w ∈ reserved side t k ∧ op.path.file = fileName t w.toList ∧
      ¬ ((w = "connected" ∨ w = "disconnected") ∧ w.toList ∈ declared d k) := by
  intro op ho
  rcases List.mem_append.mp ho with ho | ho
  · exact ha op ho
  · exact hb op ho

/-- Code of the tool. -/
theorem code_slots {side : Side} {t : Target} {k : Kind} {D : List String} {rend : String}
    (h : codePlace side t k = some (D, rend)) (d : Decls) : Nonempty (Slots side t k d D rend false) := by
  cases side <;> cases t <;> cases k <;> simp only [codePlace, reduceCtorEq, Option.some.injEq,
    Prod.mk.injEq] at h <;> obtain ⟨rfl, rfl⟩ := h
  · exact ⟨⟨_, _, fun _ => Iff.rfl, rustServer_handlers d,
      clash_one (w := "mod") (by decide) (by decide) (by decide)⟩⟩
  · exact ⟨⟨_, _, fun _ => Iff.rfl, rustServer_emitters d,
      clash_cons (clash_one (w := "mod") (by decide) (by decide) (by decide))
        (clash_events (mk := putStatic _) (fun _ => rfl) rust_fixed _ _ _ (by decide) (by decide) (by decide))⟩⟩
  · exact ⟨⟨_, _, fun _ => Iff.rfl, rustServer_beaconCode d,
      clash_one (w := "mod") (by decide) (by decide) (by decide)⟩⟩
  · exact ⟨⟨_, _, fun _ => Iff.rfl, tsServer_handlers d,
      clash_one (w := "index") (by decide) (by decide) (by decide)⟩⟩
  · exact ⟨⟨_, _, fun _ => Iff.rfl, tsServer_emitters d,
      clash_cons (clash_one (w := "index") (by decide) (by decide) (by decide))
        (clash_events (mk := putStatic _) (fun _ => rfl) ts_fixed _ _ _ (by decide) (by decide) (by decide))⟩⟩
  · exact ⟨⟨_, _, fun _ => Iff.rfl, tsServer_beaconCode d,
      clash_one (w := "index") (by decide) (by decide) (by decide)⟩⟩
  · exact ⟨⟨_, _, fun _ => Iff.rfl, tsClient_requests d, fun _ h => nomatch h⟩⟩
  · exact ⟨⟨_, _, fun _ => Iff.rfl, tsClient_beacons d, fun _ h => nomatch h⟩⟩

/-- Files for the user. -/
theorem user_slots {side : Side} {t : Target} {k : Kind} {D : List String} {rend : String}
    (h : userPlace side t k = some (D, rend)) (d : Decls) : Nonempty (Slots side t k d D rend true) := by
  cases side <;> cases t <;> cases k <;> simp only [userPlace, reduceCtorEq, Option.some.injEq,
    Prod.mk.injEq] at h <;> obtain ⟨rfl, rfl⟩ := h
  · exact ⟨⟨_, _, fun _ => Iff.rfl, rustServer_responses d,
      clash_one (w := "mod") (by decide) (by decide) (by decide)⟩⟩
  · exact ⟨⟨_, _, fun _ => Iff.rfl, rustServer_events d,
      clash_cons (clash_one (w := "mod") (by decide) (by decide) (by decide))
        (clash_events (mk := keepStatic _) (fun _ => rfl) rust_fixed _ _ _ (by decide) (by decide) (by decide))⟩⟩
  · exact ⟨⟨_, _, fun _ => Iff.rfl, rustServer_beacons d,
      clash_one (w := "mod") (by decide) (by decide) (by decide)⟩⟩
  · exact ⟨⟨_, [], fun _ => Iff.rfl, by rw [List.append_nil]; exact tsServer_responses d,
      fun _ h => nomatch h⟩⟩
  · exact ⟨⟨_, _, fun _ => Iff.rfl, tsServer_events d,
      clash_events (mk := keepStatic _) (fun _ => rfl) ts_fixed _ _ _ (by decide) (by decide) (by decide)⟩⟩
  · exact ⟨⟨_, [], fun _ => Iff.rfl, by rw [List.append_nil]; exact tsServer_beacons d,
      fun _ h => nomatch h⟩⟩
  · exact ⟨⟨_, _, mem_distinct _, rustClient_broadcasts d,
      clash_one (w := "mod") (by decide) (by decide) (by decide)⟩⟩

theorem apart_of_files {side : Side} {t : Target} {k : Kind} {l : List Ref}
    (h1 : ∀ r ∈ l, ∀ r2 ∈ l, fileName t r = fileName t r2 → r = r2)
    (h2 : ∀ r ∈ l, ∀ w ∈ reserved side t k, fileName t r = fileName t w.toList →
      k = .event ∧ r = w.toList ∧ (w = "connected" ∨ w = "disconnected")) : Apart side t k l :=
  ⟨fun r hr r2 h h3 => h1 r hr r2 h ((fileName_iff t r r2).mpr h3),
    fun r hr w hw h3 => h2 r hr w hw ((fileName_iff t r w.toList).mpr h3)⟩

end Verif.Files
