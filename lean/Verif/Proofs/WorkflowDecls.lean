import Verif.Proofs.WorkflowExact
import Verif.Proofs.ProtocolAbs
set_option autoImplicit false
/-!
The result of parsing a list of declarations.
-/
namespace Verif.Flow.Syntax

open Verif Verif.Flow
open Verif.Prot (Name Sound Known)
open Verif.Prot.Syntax (IdChar Ident)

/-- The store says what the declarations say. -/
structure Holds (st : Store) (done : List Decl) : Prop where
  requests : st.requests.map requestView = requestsOf done
  events : st.events.map eventView = eventsOf done
  beacons : st.beacons = beaconsOf done
  config : st.config.map configView = (configs done).head?.map configOf

/-- The declaration does not repeat an earlier one. -/
def Fresh (done : List Decl) : Decl → Prop
  | .plain r => r ∉ requestRefs done
  | .announce r _ => r ∉ requestRefs done
  | .request r _ _ => r ∉ requestRefs done
  | .event r _ => r ∉ eventRefs done
  | .beacons rs => rs.Nodup ∧ ∀ r ∈ rs, r ∉ beaconRefs done
  | .config _ => configs done = []

theorem requestRefs_append (a b : List Decl) : requestRefs (a ++ b) = requestRefs a ++ requestRefs b := by
  simp [requestRefs]
theorem eventRefs_append (a b : List Decl) : eventRefs (a ++ b) = eventRefs a ++ eventRefs b := by
  simp [eventRefs]
theorem beaconRefs_append (a b : List Decl) : beaconRefs (a ++ b) = beaconRefs a ++ beaconRefs b := by
  simp [beaconRefs]
theorem configs_append (a b : List Decl) : configs (a ++ b) = configs a ++ configs b := by
  simp [configs]
theorem requestsOf_append (a b : List Decl) : requestsOf (a ++ b) = requestsOf a ++ requestsOf b := by
  simp [requestsOf]
theorem eventsOf_append (a b : List Decl) : eventsOf (a ++ b) = eventsOf a ++ eventsOf b := by
  simp [eventsOf]
theorem beaconsOf_append (a b : List Decl) : beaconsOf (a ++ b) = beaconsOf a ++ beaconsOf b := by
  simp [beaconsOf, beaconRefs_append]

theorem requestRefs_shape {done : List Decl} (h : ∀ d ∈ done, d.Shape) :
    ∀ r ∈ requestRefs done, PathShape r := by
  intro r hr
  simp only [requestRefs, List.mem_filterMap] at hr
  obtain ⟨d, hd, he⟩ := hr
  have hs := h d hd
  cases d with
  | plain x => simp only [Option.some.injEq] at he; exact he ▸ hs.1.1
  | announce x _ => simp only [Option.some.injEq] at he; exact he ▸ hs.1.1
  | request x _ _ => simp only [Option.some.injEq] at he; exact he ▸ hs.1.1
  | _ => simp at he

theorem eventRefs_shape {done : List Decl} (h : ∀ d ∈ done, d.Shape) :
    ∀ r ∈ eventRefs done, PathShape r := by
  intro r hr
  simp only [eventRefs, List.mem_filterMap] at hr
  obtain ⟨d, hd, he⟩ := hr
  have hs := h d hd
  cases d with
  | event x _ => simp only [Option.some.injEq] at he; exact he ▸ hs.1
  | _ => simp at he

theorem beaconRefs_shape {done : List Decl} (h : ∀ d ∈ done, d.Shape) :
    ∀ r ∈ beaconRefs done, PathShape r := by
  intro r hr
  simp only [beaconRefs, List.mem_flatMap] at hr
  obtain ⟨d, hd, he⟩ := hr
  have hs := h d hd
  cases d with
  | beacons rs => exact hs.2 r he
  | _ => simp at he

theorem requestsOf_refs : ∀ (done : List Decl),
    (requestsOf done).map Prod.fst = (requestRefs done).map (fun r => some (dotted r))
  | [] => rfl
  | d :: ds => by
    have ih := requestsOf_refs ds
    cases d <;> simp only [requestsOf, requestRefs, List.filterMap_cons, List.map_cons] at ih ⊢ <;>
      rw [ih]

theorem eventsOf_refs : ∀ (done : List Decl),
    (eventsOf done).map Prod.fst = (eventRefs done).map (fun r => some (dotted r))
  | [] => rfl
  | d :: ds => by
    have ih := eventsOf_refs ds
    cases d <;> simp only [eventsOf, eventRefs, List.filterMap_cons, List.map_cons] at ih ⊢ <;>
      rw [ih]

theorem mem_dotted {l : List Path} (hl : ∀ p ∈ l, PathShape p) {r : Path} (hr : PathShape r) :
    dotted r ∈ l.map dotted ↔ r ∈ l := by
  rw [List.mem_map]
  constructor
  · rintro ⟨p, h1, h2⟩
    exact dotted_inj (hl p h1) hr h2 ▸ h1
  · intro h
    exact ⟨r, h, rfl⟩

theorem request_known {st : Store} {done : List Decl} (hh : Holds st done) (hd : ∀ d ∈ done, d.Shape)
    {r : Path} (hr : PathShape r) :
    st.requests.any (fun x => x.request == some (dotted r)) = true ↔ r ∈ requestRefs done := by
  have h1 : st.requests.map Request.request = (requestRefs done).map (fun r => some (dotted r)) := by
    rw [← requestsOf_refs, ← hh.requests, List.map_map]
    rfl
  rw [← mem_dotted (requestRefs_shape hd) hr, List.any_eq_true]
  constructor
  · rintro ⟨x, hx, he⟩
    have : some (dotted r) ∈ st.requests.map Request.request :=
      List.mem_map.2 ⟨x, hx, by simpa using he⟩
    rw [h1, List.mem_map] at this
    obtain ⟨y, hy, he⟩ := this
    exact List.mem_map.2 ⟨y, hy, Option.some.inj he⟩
  · intro h
    obtain ⟨y, hy, he⟩ := List.mem_map.1 h
    have : some (dotted r) ∈ st.requests.map Request.request := by
      rw [h1]
      exact List.mem_map.2 ⟨y, hy, by rw [he]⟩
    obtain ⟨x, hx, he⟩ := List.mem_map.1 this
    exact ⟨x, hx, by simp [he]⟩

theorem event_known {st : Store} {done : List Decl} (hh : Holds st done) (hd : ∀ d ∈ done, d.Shape)
    {r : Path} (hr : PathShape r) :
    st.events.any (fun x => x.reference == some (dotted r)) = true ↔ r ∈ eventRefs done := by
  have h1 : st.events.map Event.reference = (eventRefs done).map (fun r => some (dotted r)) := by
    rw [← eventsOf_refs, ← hh.events, List.map_map]
    rfl
  rw [← mem_dotted (eventRefs_shape hd) hr, List.any_eq_true]
  constructor
  · rintro ⟨x, hx, he⟩
    have : some (dotted r) ∈ st.events.map Event.reference :=
      List.mem_map.2 ⟨x, hx, by simpa using he⟩
    rw [h1, List.mem_map] at this
    obtain ⟨y, hy, he⟩ := this
    exact List.mem_map.2 ⟨y, hy, Option.some.inj he⟩
  · intro h
    obtain ⟨y, hy, he⟩ := List.mem_map.1 h
    have : some (dotted r) ∈ st.events.map Event.reference := by
      rw [h1]
      exact List.mem_map.2 ⟨y, hy, by rw [he]⟩
    obtain ⟨x, hx, he⟩ := List.mem_map.1 this
    exact ⟨x, hx, by simp [he]⟩

/-- Beacons are added if none repeats another. -/
theorem addBeacons_spec : ∀ (rs have_ : List Path) (st : Store), (∀ r ∈ rs, PathShape r) →
    (∀ r ∈ have_, PathShape r) → st.beacons = have_.map (fun r => ⟨dotted r, false⟩) →
    (rs.Nodup ∧ (∀ r ∈ rs, r ∉ have_) ∧ st.addBeacons (rs.map (fun p => ⟨dotted p, false⟩)) =
      some { st with beacons := (have_ ++ rs).map (fun r => ⟨dotted r, false⟩) }) ∨
    (¬ (rs.Nodup ∧ ∀ r ∈ rs, r ∉ have_) ∧
      st.addBeacons (rs.map (fun p => ⟨dotted p, false⟩)) = none)
  | [], have_, st, _, _, h => .inl ⟨by simp, by simp, by simp [Store.addBeacons, ← h]⟩
  | r :: rs, have_, st, hr, hh, h => by
    have hr0 := hr r List.mem_cons_self
    have hk : st.beacons.any (fun x => x.reference == dotted r) = true ↔ r ∈ have_ := by
      rw [h, List.any_map, List.any_eq_true, ← mem_dotted hh hr0, List.mem_map]
      constructor
      · rintro ⟨x, hx, he⟩
        exact ⟨x, hx, by simpa using he⟩
      · rintro ⟨x, hx, he⟩
        exact ⟨x, hx, by simpa using he⟩
    rw [List.map_cons, Store.addBeacons]
    by_cases hm : r ∈ have_
    · right
      refine ⟨fun hx => hx.2 r List.mem_cons_self hm, ?_⟩
      simp only [hk.2 hm, if_true]
    · have hf : ¬ (st.beacons.any (fun x => x.reference == dotted r) = true) := fun x => hm (hk.1 x)
      simp only [hf, Bool.false_eq_true, if_false]
      have ih := addBeacons_spec rs (have_ ++ [r]) { st with beacons := st.beacons ++ [⟨dotted r, false⟩] }
        (fun x hx => hr x (List.mem_cons_of_mem _ hx))
        (by
          intro x hx
          rcases List.mem_append.1 hx with hx | hx
          · exact hh x hx
          · exact List.mem_singleton.1 hx ▸ hr0)
        (by simp [h])
      have hiff : ((r :: rs).Nodup ∧ ∀ x ∈ r :: rs, x ∉ have_) ↔
          (rs.Nodup ∧ ∀ x ∈ rs, x ∉ have_ ++ [r]) := by
        rw [List.nodup_cons]
        constructor
        · rintro ⟨⟨a, b⟩, c⟩
          refine ⟨b, fun x hx hm => ?_⟩
          rcases List.mem_append.1 hm with hm | hm
          · exact c x (List.mem_cons_of_mem _ hx) hm
          · exact a (List.mem_singleton.1 hm ▸ hx)
        · rintro ⟨a, b⟩
          refine ⟨⟨fun hx => b r hx (by simp), a⟩, fun x hx => ?_⟩
          rcases List.mem_cons.1 hx with hx | hx
          · exact hx ▸ hm
          · exact fun hx2 => b x hx (List.mem_append_left _ hx2)
      rcases ih with ⟨h1, h2, h3⟩ | ⟨h1, h2⟩
      · left
        obtain ⟨k1, k2⟩ := hiff.2 ⟨h1, h2⟩
        refine ⟨k1, k2, ?_⟩
        rw [h3]
        simp
      · right
        exact ⟨fun hx => h1 (hiff.1 hx), h2⟩

/-- What one declaration does. -/
theorem step_decl {st : Store} {pr : Prot.Store} {done : List Decl} (hh : Holds st done)
    (hd : ∀ d ∈ done, d.Shape) (hs : Sound pr) {d : Decl} (hsh : d.Shape) :
    (d.Fine (Known pr) ∧ Fresh done d ∧ ∃ st2 pr2, declResult st pr d = some (st2, pr2) ∧
      Holds st2 (done ++ [d]) ∧ Sound pr2 ∧ ∀ p, Known pr2 p ↔ knownAfter (Known pr) d p) ∨
    (¬ (d.Fine (Known pr) ∧ Fresh done d) ∧ declResult st pr d = none) := by
  -- putting a closed request into the store
  have addReq : ∀ (r : Path) (q : Request), PathShape r → q.request = some (dotted r) →
      (r ∉ requestRefs done ∧ st.addRequest q = some { st with requests := st.requests ++ [q] }) ∨
      (¬ r ∉ requestRefs done ∧ st.addRequest q = none) := by
    intro r q hr hq
    have hk := request_known hh hd hr
    unfold Store.addRequest
    rw [hq]
    by_cases hm : r ∈ requestRefs done
    · right
      exact ⟨fun h => h hm, by simp only [hk.2 hm, if_true]⟩
    · left
      have hf : ¬ (st.requests.any (fun x => x.request == some (dotted r)) = true) :=
        fun x => hm (hk.1 x)
      exact ⟨hm, by simp only [hf, Bool.false_eq_true, if_false]⟩
  have holdsReq : ∀ (d : Decl) (q : Request), requestsOf [d] = [requestView q] → eventsOf [d] = [] →
      beaconsOf [d] = [] → configs [d] = [] →
      Holds { st with requests := st.requests ++ [q] } (done ++ [d]) := by
    intro d q h1 h2 h3 h4
    refine ⟨?_, ?_, ?_, ?_⟩
    · rw [requestsOf_append, h1, List.map_append, hh.requests]
      rfl
    · rw [eventsOf_append, h2, List.append_nil]
      exact hh.events
    · rw [beaconsOf_append, h3, List.append_nil]
      exact hh.beacons
    · rw [configs_append, h4, List.append_nil]
      exact hh.config
  cases d with
  | plain r =>
    obtain ⟨hr, _⟩ := hsh
    simp only [declResult, closeRequest]
    rcases close_plain hs (bs := []) hr.1 (by simp) with ⟨h1, h2⟩ | ⟨h1, h2⟩
    · rw [h1, Option.bind_some]
      rcases addReq r (closedRequest r none [] []) hr.1 rfl with ⟨h3, h4⟩ | ⟨h3, h4⟩
      · left
        refine ⟨h2.1, h3, _, pr, by rw [h4]; rfl, holdsReq _ _ rfl rfl rfl rfl, hs, fun p => Iff.rfl⟩
      · right
        exact ⟨fun h => h3 h.2, by rw [h4]; rfl⟩
    · right
      exact ⟨fun h => h2 ⟨h.1, by simp⟩, by rw [h1]; rfl⟩
  | announce r bs =>
    obtain ⟨hr, _, _, hb⟩ := hsh
    simp only [declResult, closeRequest]
    rcases close_plain hs hr.1 hb with ⟨h1, h2⟩ | ⟨h1, h2⟩
    · rw [h1, Option.bind_some]
      rcases addReq r (closedRequest r none [] bs) hr.1 rfl with ⟨h3, h4⟩ | ⟨h3, h4⟩
      · left
        refine ⟨h2, h3, _, pr, by rw [h4]; rfl, holdsReq _ _ rfl rfl rfl rfl, hs, fun p => Iff.rfl⟩
      · right
        exact ⟨fun h => h3 h.2, by rw [h4]; rfl⟩
    · right
      exact ⟨fun h => h2 h.1, by rw [h1]; rfl⟩
  | request r e as =>
    obtain ⟨hr, he, _, ha⟩ := hsh
    have hfr : as.all (fun a => fresh [] a.broadcasts) = true ↔
        ∀ a ∈ as, (a.broadcasts.map BroadcastD.ref).Nodup := by
      rw [List.all_eq_true]
      constructor
      · intro h a hm
        exact ((fresh_iff a.broadcasts [] (ha a hm).2.2.1 (by simp)).1 (h a hm)).1
      · intro h a hm
        exact (fresh_iff a.broadcasts [] (ha a hm).2.2.1 (by simp)).2 ⟨h a hm, by simp⟩
    simp only [declResult, closeRequest]
    by_cases hf : as.all (fun a => fresh [] a.broadcasts) = true
    · rw [if_pos hf]
      have hn := hfr.1 hf
      rcases close_request hs hr.1 he ha with ⟨h1, g1, g2, g3, g4⟩ | ⟨h1, h2⟩
      · rw [h1, Option.bind_some]
        rcases addReq r (closedRequest r (some e) (as.map actionEntity) []) hr.1 rfl with
          ⟨h3, h4⟩ | ⟨h3, h4⟩
        · left
          refine ⟨⟨g1, g2, fun a hm => ⟨(g3 a hm).1, (g3 a hm).2, hn a hm⟩, g4⟩, h3, _, pr,
            by rw [h4]; rfl, holdsReq _ _ ?_ rfl rfl rfl, hs, fun p => Iff.rfl⟩
          simp only [requestsOf, List.filterMap_cons, List.filterMap_nil, requestView, closedRequest,
            List.map_map, List.map_nil, Option.map_some]
          rfl
        · right
          exact ⟨fun h => h3 h.2, by rw [h4]; rfl⟩
      · right
        refine ⟨fun h => h2 ?_, by rw [h1]; rfl⟩
        obtain ⟨⟨g1, g2, g3, g4⟩, _⟩ := h
        exact ⟨g1, g2, fun a hm => ⟨(g3 a hm).1, (g3 a hm).2.1⟩, g4⟩
    · right
      rw [if_neg hf]
      exact ⟨fun h => hf (hfr.2 (fun a hm => (h.1.2.2.1 a hm).2.2)), rfl⟩
  | beacons rs =>
    obtain ⟨_, hr⟩ := hsh
    simp only [declResult]
    have hk := all_defined hs id rs hr
    simp only [id] at hk
    by_cases hf : rs.all (fun p => defined pr (dotted p)) = true
    · rw [if_pos hf]
      rcases addBeacons_spec rs (beaconRefs done) st hr (beaconRefs_shape hd) hh.beacons with
        ⟨h1, h2, h3⟩ | ⟨h1, h2⟩
      · left
        refine ⟨hk.1 hf, ⟨h1, h2⟩, _, pr, by rw [h3]; rfl, ⟨?_, ?_, ?_, ?_⟩, hs, fun p => Iff.rfl⟩
        · rw [requestsOf_append]
          simpa [requestsOf] using hh.requests
        · rw [eventsOf_append]
          simpa [eventsOf] using hh.events
        · rw [beaconsOf, beaconRefs_append]
          simp [beaconRefs]
        · rw [configs_append]
          simpa [configs] using hh.config
      · right
        exact ⟨fun h => h1 h.2, by rw [h2]; rfl⟩
    · right
      rw [if_neg hf]
      exact ⟨fun h => hf (hk.2 h.1), rfl⟩
  | event r bs =>
    obtain ⟨hr, _, _, hb⟩ := hsh
    simp only [declResult]
    have hk := all_defined hs BroadcastD.ref bs hb
    have hc : ((isDefaultEvent (dotted r) || defined pr (dotted r)) &&
        bs.all (fun b => defined pr (dotted b.ref))) = true ↔
        (Decl.event r bs).Fine (Known pr) := by
      rw [Bool.and_eq_true, Bool.or_eq_true, isDefault_iff hr, defined_iff hs hr, hk, or_assoc]
      rfl
    by_cases hf : ((isDefaultEvent (dotted r) || defined pr (dotted r)) &&
        bs.all (fun b => defined pr (dotted b.ref))) = true
    · rw [if_pos hf]
      have hek := event_known hh hd hr
      by_cases hm : r ∈ eventRefs done
      · right
        refine ⟨fun h => h.2 hm, ?_⟩
        simp only [Store.addEvent, eventEntity, hek.2 hm, if_true]
        rfl
      · left
        have hno : ¬ (st.events.any (fun x => x.reference == some (dotted r)) = true) :=
          fun x => hm (hek.1 x)
        refine ⟨hc.1 hf, hm, { st with events := st.events ++ [eventEntity r bs] }, pr, ?_,
          ⟨?_, ?_, ?_, ?_⟩, hs, fun p => Iff.rfl⟩
        · simp only [Store.addEvent, eventEntity, hno, Bool.false_eq_true, if_false]
          rfl
        · rw [requestsOf_append]
          simpa [requestsOf] using hh.requests
        · rw [eventsOf_append, List.map_append, hh.events]
          rfl
        · rw [beaconsOf_append]
          simpa [beaconsOf, beaconRefs] using hh.beacons
        · rw [configs_append]
          simpa [configs] using hh.config
    · right
      rw [if_neg hf]
      exact ⟨fun h => hf (hc.2 h.1), rfl⟩
  | config es =>
    simp only [declResult]
    have hbind : (applyEntries (conf [] [] none none [.word] .nothing) es).bind (closeConfig st pr) =
        ((applyEntries (conf [] [] none none [.word] .nothing) es).bind (fun c => c.close pr)).bind
          (fun x => (st.setConfig x.1).map (fun s => (s, x.2))) := by
      rw [Option.bind_assoc]
      rfl
    rw [hbind]
    have hset : st.config.isSome = true ↔ configs done ≠ [] := by
      have := hh.config
      cases hc : configs done with
      | nil => rw [hc] at this; simpa using this
      | cons a l =>
        rw [hc] at this
        cases h2 : st.config with
        | none => rw [h2] at this; simp at this
        | some c => simp
    rcases config_result hs hsh with ⟨h1, c, pr2, h2, h3, h4, h5⟩ | ⟨h1, h2⟩
    · rw [h2, Option.bind_some]
      by_cases hm : configs done = []
      · left
        have hno : st.config.isSome = false := by
          cases hx : st.config.isSome with
          | false => rfl
          | true => exact absurd hm (hset.1 hx)
        refine ⟨h1, hm, { st with config := some c }, pr2, ?_, ⟨?_, ?_, ?_, ?_⟩, h4, h5⟩
        · simp only [Store.setConfig, hno, Bool.false_eq_true, if_false, Option.map_some]
        · rw [requestsOf_append]
          simpa [requestsOf] using hh.requests
        · rw [eventsOf_append]
          simpa [eventsOf] using hh.events
        · rw [beaconsOf_append]
          simpa [beaconsOf, beaconRefs] using hh.beacons
        · rw [configs_append, hm]
          simp [configs, h3]
      · right
        refine ⟨fun h => hm h.2, ?_⟩
        simp only [Store.setConfig, hset.2 hm, if_true, Option.map_none]
    · right
      exact ⟨fun h => h1 h.1, by rw [h2]; rfl⟩

/-- Nothing repeats an earlier declaration. -/
def AllFresh (done : List Decl) : List Decl → Prop
  | [] => True
  | d :: ds => Fresh done d ∧ AllFresh (done ++ [d]) ds

/-- What a list of declarations does. -/
theorem step_decls : ∀ (ds done : List Decl) (st : Store) (pr : Prot.Store), Holds st done →
    (∀ d ∈ done, d.Shape) → Sound pr → (∀ d ∈ ds, d.Shape) →
    (AllFine (Known pr) ds ∧ AllFresh done ds ∧ ∃ st2 pr2, declsResult st pr ds = some (st2, pr2) ∧
      Holds st2 (done ++ ds) ∧ Known pr2 = knownAfterAll (Known pr) ds) ∨
    (¬ (AllFine (Known pr) ds ∧ AllFresh done ds) ∧ declsResult st pr ds = none)
  | [], done, st, pr, hh, _, _, _ =>
    .inl ⟨trivial, trivial, st, pr, rfl, by rw [List.append_nil]; exact hh, rfl⟩
  | d :: ds, done, st, pr, hh, hd, hs, hsh => by
    rw [declsResult]
    rcases step_decl hh hd hs (hsh d List.mem_cons_self) with
      ⟨h1, h2, st2, pr2, h3, h4, h5, h6⟩ | ⟨h1, h2⟩
    · have hK : Known pr2 = knownAfter (Known pr) d := funext (fun p => propext (h6 p))
      have ih := step_decls ds (done ++ [d]) st2 pr2 h4 (by
        intro x hx
        rcases List.mem_append.1 hx with hx | hx
        · exact hd x hx
        · exact List.mem_singleton.1 hx ▸ hsh d List.mem_cons_self) h5
        (fun x hx => hsh x (List.mem_cons_of_mem _ hx))
      rw [h3, Option.bind_some]
      rw [hK] at ih
      rcases ih with ⟨a, b, c⟩ | ⟨a, b⟩
      · left
        refine ⟨⟨h1, a⟩, ⟨h2, b⟩, ?_⟩
        simpa [knownAfterAll] using c
      · right
        exact ⟨fun h => a ⟨h.1.2, h.2.2⟩, b⟩
    · right
      refine ⟨fun h => h1 ⟨h.1.1, h.2.1⟩, ?_⟩
      rw [h2]
      rfl

theorem nodup_snoc {α : Type} {l m : List α} :
    (l ++ m).Nodup ↔ l.Nodup ∧ m.Nodup ∧ ∀ x ∈ m, x ∉ l := by
  rw [List.nodup_append]
  constructor
  · rintro ⟨a, b, c⟩
    exact ⟨a, b, fun x hx hl => c x hl x hx rfl⟩
  · rintro ⟨a, b, c⟩
    exact ⟨a, b, fun x hx y hy he => c y hy (he ▸ hx)⟩

/-- `Unique` without the last part. -/
def NoRepeat (ds : List Decl) : Prop :=
  (requestRefs ds).Nodup ∧ (eventRefs ds).Nodup ∧ (beaconRefs ds).Nodup ∧ (configs ds).length ≤ 1

theorem fresh_noRepeat (done : List Decl) (d : Decl) (h : NoRepeat done) :
    NoRepeat (done ++ [d]) ↔ Fresh done d := by
  obtain ⟨h1, h2, h3, h4⟩ := h
  unfold NoRepeat
  rw [requestRefs_append, eventRefs_append, beaconRefs_append, configs_append, nodup_snoc, nodup_snoc,
    nodup_snoc, List.length_append]
  cases d with
  | config es =>
    simp only [requestRefs, eventRefs, beaconRefs, List.filterMap_cons, List.filterMap_nil,
      List.flatMap_cons, List.flatMap_nil, List.append_nil, Fresh]
    constructor
    · rintro ⟨_, _, _, h⟩
      apply List.eq_nil_of_length_eq_zero
      simp [configs] at h ⊢
      omega
    · intro h
      refine ⟨⟨h1, by simp, by simp⟩, ⟨h2, by simp, by simp⟩, ⟨h3, by simp, by simp⟩, ?_⟩
      rw [h]
      simp [configs]
  | _ =>
    simp [requestRefs, eventRefs, beaconRefs, configs, Fresh] at h1 h2 h3 h4 ⊢
    simp [h1, h2, h3, h4]

theorem allFresh_iff : ∀ (ds done : List Decl), NoRepeat done →
    (AllFresh done ds ↔ NoRepeat (done ++ ds))
  | [], done, h => by simp [AllFresh, h]
  | d :: ds, done, h => by
    have hf := fresh_noRepeat done d h
    rw [AllFresh]
    constructor
    · rintro ⟨h1, h2⟩
      have := (allFresh_iff ds (done ++ [d]) (hf.2 h1)).1 h2
      simpa using this
    · intro hn
      have h1 : NoRepeat (done ++ [d]) := by
        obtain ⟨a1, a2, a3, a4⟩ := hn
        rw [show done ++ d :: ds = (done ++ [d]) ++ ds by simp] at a1 a2 a3 a4
        rw [requestRefs_append (done ++ [d])] at a1
        rw [eventRefs_append (done ++ [d])] at a2
        rw [beaconRefs_append (done ++ [d])] at a3
        rw [configs_append (done ++ [d]), List.length_append] at a4
        exact ⟨(nodup_snoc.1 a1).1, (nodup_snoc.1 a2).1, (nodup_snoc.1 a3).1, by omega⟩
      refine ⟨hf.1 h1, (allFresh_iff ds (done ++ [d]) h1).2 ?_⟩
      simpa using hn

theorem requestExists_iff (r : Ref) : ∀ (l : List Request) (refs : List Ref),
    l.map Request.request = refs.map some → (requestExists r l = some false ↔ r ∉ refs)
  | [], [], _ => by simp [requestExists]
  | [], _ :: _, h => by simp at h
  | _ :: _, [], h => by simp at h
  | q :: l, x :: refs, h => by
    rw [List.map_cons, List.map_cons] at h
    obtain ⟨h1, h2⟩ := List.cons.inj h
    have ih := requestExists_iff r l refs h2
    rw [requestExists, h1]
    by_cases he : x = r
    · subst he
      simp
    · have : (x == r) = false := by simpa using he
      simp only [this, Bool.false_eq_true, if_false, ih, List.mem_cons, not_or]
      exact ⟨fun h => ⟨fun hx => he hx.symm, h⟩, fun h => h.2⟩

/-- The check at the end of the file. -/
theorem validate_iff {st : Store} {done : List Decl} (hh : Holds st done) (hd : ∀ d ∈ done, d.Shape) :
    st.validate = true ↔ ∀ r ∈ beaconRefs done, r ∉ requestRefs done := by
  have h1 : st.requests.map Request.request = ((requestRefs done).map dotted).map some := by
    rw [List.map_map]
    have : (requestRefs done).map (some ∘ dotted) = (requestsOf done).map Prod.fst :=
      (requestsOf_refs done).symm
    rw [this, ← hh.requests, List.map_map]
    rfl
  rw [Store.validate, hh.beacons, List.all_eq_true]
  constructor
  · intro h r hr hm
    have := h ⟨dotted r, false⟩ (List.mem_map.2 ⟨r, hr, rfl⟩)
    rw [beq_iff_eq, requestExists_iff _ _ _ h1,
      mem_dotted (requestRefs_shape hd) (beaconRefs_shape hd r hr)] at this
    exact this hm
  · intro h b hb
    obtain ⟨r, hr, he⟩ := List.mem_map.1 hb
    rw [← he, beq_iff_eq, requestExists_iff _ _ _ h1,
      mem_dotted (requestRefs_shape hd) (beaconRefs_shape hd r hr)]
    exact h r hr

theorem unique_iff (ds : List Decl) :
    Unique ds ↔ NoRepeat ds ∧ ∀ r ∈ beaconRefs ds, r ∉ requestRefs ds := by
  unfold Unique NoRepeat
  constructor
  · rintro ⟨a, b, c, d, e⟩
    exact ⟨⟨a, b, c, d⟩, e⟩
  · rintro ⟨⟨a, b, c, d⟩, e⟩
    exact ⟨a, b, c, d, e⟩

/-- The outcome for a file with these declarations. -/
theorem parse_decls {pr : Prot.Store} (hs : Sound pr) {ds : List Decl} (hsh : ∀ d ∈ ds, d.Shape)
    {text : List Char} (hsp : Spelled (ds.flatMap declSyms) text) :
    (AllFine (Known pr) ds ∧ Unique ds ∧ ∃ st pr2, Parses pr text (.accepted st pr2) ∧
      Holds st ds ∧ Known pr2 = knownAfterAll (Known pr) ds) ∨
    (¬ (AllFine (Known pr) ds ∧ Unique ds) ∧ Parses pr text .rejected) := by
  obtain ⟨n, hn⟩ := parse_spelled _ _ (PState.init pr) hsp
  have hrun := run_decls ds Store.new pr hsh
  unfold PState.init at hn
  unfold toks at hrun
  rw [hrun] at hn
  have h0 : Holds Store.new [] := ⟨rfl, rfl, rfl, rfl⟩
  have hN : NoRepeat [] := ⟨by simp [requestRefs], by simp [eventRefs], by simp [beaconRefs],
    by simp [configs]⟩
  have hfr := allFresh_iff ds [] hN
  rw [List.nil_append] at hfr
  rcases step_decls ds [] Store.new pr h0 (by simp) hs hsh with ⟨h1, h2, st, pr2, h3, h4, h5⟩ | ⟨h1, h2⟩
  · rw [h3, Option.map_some, finish] at hn
    rw [List.nil_append] at h4
    have hv := validate_iff h4 hsh
    by_cases hval : st.validate = true
    · left
      refine ⟨h1, (unique_iff ds).2 ⟨hfr.1 h2, hv.1 hval⟩, st, pr2, ⟨n, hn.trans ?_⟩, h4, h5⟩
      simp only [hval, if_true]
    · right
      refine ⟨fun h => hval (hv.2 ((unique_iff ds).1 h.2).2), ⟨n, hn.trans ?_⟩⟩
      simp only [hval, Bool.false_eq_true, if_false]
  · right
    rw [h2] at hn
    exact ⟨fun h => h1 ⟨h.1, hfr.2 ((unique_iff ds).1 h.2).1⟩, ⟨n, hn⟩⟩

theorem parses_det {pr : Prot.Store} {text : List Char} {a b : Outcome} (ha : Parses pr text a)
    (hb : Parses pr text b) : a = b := by
  have mono : ∀ n m (p : PState) c o, loop n p c = some o → n ≤ m → loop m p c = some o := by
    intro n
    induction n with
    | zero => intro m p c o h; simp [loop] at h
    | succ n ih =>
      intro m p c o h hm
      cases m with
      | zero => omega
      | succ m =>
        rw [loop] at h ⊢
        cases hs : step p c with
        | go p2 c2 => rw [hs] at h; exact ih m p2 c2 o h (by omega)
        | halt o2 => rw [hs] at h; exact h
  obtain ⟨n, hn⟩ := ha
  obtain ⟨m, hm⟩ := hb
  have h1 := mono n (n + m) _ _ _ hn (by omega)
  have h2 := mono m (n + m) _ _ _ hm (by omega)
  rw [h1] at h2
  exact Option.some.inj h2

end Verif.Flow.Syntax

namespace Verif.Prot

open Verif.Prot.Syntax (allGroups_eq groupId_pos)

/-- Stores of accepted protocols with unique group names are sound. -/
theorem sound_accepted {text : List Char} {s : Store} (h : Parses text (.accepted s))
    (hu : GroupNamesUnique s) : Sound s := by
  have hr := accepted_reach h
  have hi := reach_idsOk hr
  have hg := reach_ginv hr
  have hsub : ∀ h ∈ s.groups, h ∈ allGroups s := fun h hh => by simp [allGroups, hh]
  have hle : ∀ g ∈ allGroups s, g.id ≤ s.sequence := by
    intro g hg
    have := hi g.id
    have hpos : 1 ≤ (allIds s).count g.id := by
      apply List.one_le_count_iff.2
      simp only [allGroups, List.mem_append, Option.mem_toList] at hg
      simp only [allIds, List.mem_append, List.mem_map]
      rcases hg with hg | hg
      · grind
      · grind
    split at this
    · rename_i h; exact h.2
    · omega
  have hpar : ∀ {i : Nat} {p : List Name}, GroupPath (allGroups s) i p → i ≤ s.sequence := by
    intro i p hp
    cases hp with
    | root => omega
    | down hg _ => exact hle _ hg
  refine ⟨hu, fun g hg1 h hh he => allGroups_eq hi (hsub g hg1) (hsub h hh) he, ?_, ?_, ?_⟩
  · intro g hg1
    have h1 := groupId_pos hi (hsub g hg1)
    have h2 := hle g (hsub g hg1)
    have h3 := hg.older g (hsub g hg1)
    omega
  · intro t ht
    exact hpar (hg.struct t (by simp [ht]))
  · intro t ht
    exact hpar (hg.enum t (by simp [ht]))

end Verif.Prot
