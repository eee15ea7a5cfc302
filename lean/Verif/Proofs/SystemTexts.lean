import Verif.Spec.SystemTexts
import Verif.Proofs.WorkflowExact
import Verif.Proofs.WorkflowInv
import Verif.Proofs.RustRender
import Verif.Proofs.ProtocolService
set_option autoImplicit false
/-!
What a workflow adds to a protocol, and what is generated for it.
-/
namespace Verif.System

open Verif Verif.Flow Verif.Flow.Syntax Verif.Prot

/-- All structs a workflow adds. -/
def services (self assigned : Bool) : List (Name × List Prot.Field) :=
  selfStructs self ++ assignedStructs assigned ++ restStructs

theorem close_adds {c0 c : Config} {pr pr2 : Prot.Store} (h : c0.close pr = some (c, pr2)) :
    ∃ self assigned, pr2 = addAll pr (services self assigned) ∧
      ((∃ k, c.selfKey = some k ∧ defined pr k = true) ∨ c.selfKey = some (serviceRef "SelfKeyRequest".toList)) := by
  unfold Config.close at h
  cases h1 : c0.closeSelf pr with
  | none => rw [h1] at h; exact nomatch h
  | some x =>
    obtain ⟨c1, p1⟩ := x
    rw [h1] at h
    simp only at h
    cases h2 : c1.closeAssigned p1 with
    | none => rw [h2] at h; exact nomatch h
    | some y =>
      obtain ⟨c2, p2⟩ := y
      rw [h2] at h
      simp only at h
      split at h
      · exact nomatch h
      · split at h
        · exact nomatch h
        · injection h with h
          injection h with hc hp
          have k2 : c2.selfKey = c1.selfKey ∧ ∃ assigned, p2 = addAll p1 (assignedStructs assigned) := by
            unfold Config.closeAssigned at h2
            split at h2
            · split at h2
              · injection h2 with h2; injection h2 with e1 e2
                exact ⟨by rw [e1], true, e2.symm⟩
              · exact nomatch h2
            · injection h2 with h2; injection h2 with e1 e2
              exact ⟨by rw [← e1], false, e2.symm⟩
          have k1 : ((∃ k, c1.selfKey = some k ∧ defined pr k = true) ∨
              c1.selfKey = some (serviceRef "SelfKeyRequest".toList)) ∧ ∃ self, p1 = addAll pr (selfStructs self) := by
            unfold Config.closeSelf at h1
            simp only at h1
            split at h1
            · rename_i k hk
              split at h1
              · rename_i hd
                injection h1 with h1; injection h1 with e1 e2
                refine ⟨.inl ⟨k, by rw [← e1, hk], hd⟩, true, ?_⟩
                rw [← e2]; simp only [addAll, selfStructs, if_true, List.nil_append, List.foldl_cons, List.foldl_nil]
              · exact nomatch h1
            · injection h1 with h1; injection h1 with e1 e2
              refine ⟨.inr (by rw [← e1]), false, ?_⟩
              rw [← e2]; simp only [addAll, selfStructs, Bool.false_eq_true, if_false, List.cons_append, List.nil_append, List.foldl_cons, List.foldl_nil]
          obtain ⟨e2, assigned, rfl⟩ := k2
          obtain ⟨e1, self, rfl⟩ := k1
          refine ⟨self, assigned, ?_, ?_⟩
          · rw [← hp, services, addAll_append, addAll_append]
            simp only [addAll, restStructs, List.foldl_cons, List.foldl_nil]
          · rw [← hc]; simp only; rw [e2]; exact e1

theorem addBeacons_config : ∀ (bs : List Flow.Broadcast) (s s2 : Flow.Store), s.addBeacons bs = some s2 → s2.config = s.config
  | [], s, s2, h => by simp only [Flow.Store.addBeacons, Option.some.injEq] at h; rw [h]
  | b :: bs, s, s2, h => by
    simp only [Flow.Store.addBeacons] at h
    split at h
    · exact nomatch h
    · exact (addBeacons_config bs _ s2 h).trans rfl

theorem addBeacons_requests : ∀ (bs : List Flow.Broadcast) (s s2 : Flow.Store), s.addBeacons bs = some s2 → s2.requests = s.requests
  | [], s, s2, h => by simp only [Flow.Store.addBeacons, Option.some.injEq] at h; rw [h]
  | b :: bs, s, s2, h => by
    simp only [Flow.Store.addBeacons] at h
    split at h
    · exact nomatch h
    · exact (addBeacons_requests bs _ s2 h).trans rfl

/-- Every request of an accepted workflow was checked. -/
theorem accepted_requests {pr pr2 : Prot.Store} {text : List Char} {s : Flow.Store}
    (h : Flow.Parses pr text (.accepted s pr2)) : ∀ r ∈ s.requests, ∃ p, ReqRefs r p := by
  refine (accepted_change (I := fun st _ => ∀ r ∈ st.requests, ∃ p, ReqRefs r p) (fun r hr => nomatch hr) ?_ h).1
  intro st p st2 p2 hch hi
  cases hch with
  | same => exact hi
  | request h1 h2 =>
    have := close_refs h1
    unfold Flow.Store.addRequest at h2
    split at h2
    · exact nomatch h2
    · split at h2
      · exact nomatch h2
      · injection h2 with h2
        subst h2
        intro x hx
        rcases List.mem_append.1 hx with hx | hx
        · exact hi x hx
        · exact ⟨_, List.mem_singleton.1 hx ▸ this⟩
  | event _ h2 =>
    unfold Flow.Store.addEvent at h2
    split at h2
    · exact nomatch h2
    · split at h2
      · exact nomatch h2
      · injection h2 with h2
        subst h2
        exact hi
  | beacons _ h2 => rw [addBeacons_requests _ _ _ h2]; exact hi
  | config _ h2 =>
    unfold Flow.Store.setConfig at h2
    split at h2
    · exact nomatch h2
    · injection h2 with h2
      subst h2
      exact hi

/-- The protocol of an accepted workflow with a config is the given one with the added structs. -/
theorem accepted_adds {pr pr2 : Prot.Store} {text : List Char} {s : Flow.Store} {c : Config}
    (h : Flow.Parses pr text (.accepted s pr2)) (hc : s.config = some c) :
    ∃ c0 : Config, c0.close pr = some (c, pr2) := by
  have := (accepted_change (I := fun st p => (st.config = none ∧ p = pr) ∨
    ∃ c c0, st.config = some c ∧ Config.close c0 pr = some (c, p)) (.inl ⟨rfl, rfl⟩) (by
      intro st p st2 p2 hch hi
      have same : ∀ {st2 : Flow.Store}, st2.config = st.config → (st2.config = none ∧ p = pr) ∨
          ∃ c c0, st2.config = some c ∧ Config.close c0 pr = some (c, p) := by
        intro st2 e; rw [e]; exact hi
      cases hch with
      | same => exact hi
      | request _ ha =>
        unfold Flow.Store.addRequest at ha
        split at ha
        · exact nomatch ha
        · split at ha
          · exact nomatch ha
          · injection ha with ha; exact same (by rw [← ha])
      | event _ ha =>
        unfold Flow.Store.addEvent at ha
        split at ha
        · exact nomatch ha
        · split at ha
          · exact nomatch ha
          · injection ha with ha; exact same (by rw [← ha])
      | beacons _ ha => exact same (addBeacons_config _ _ _ ha)
      | config hcl ha =>
        unfold Flow.Store.setConfig at ha
        split at ha
        · exact nomatch ha
        · rename_i hno
          rcases hi with ⟨_, rfl⟩ | ⟨c, _, h1, _⟩
          · injection ha with ha
            exact .inr ⟨_, _, by rw [← ha], hcl⟩
          · rw [h1] at hno; exact absurd rfl hno) h).1
  rcases this with ⟨h1, _⟩ | ⟨c', c0, h1, h2⟩
  · rw [h1] at hc; exact nomatch hc
  · rw [h1] at hc
    injection hc with hc
    exact ⟨c0, hc ▸ h2⟩

/-- What `addService` does to structs. -/
theorem addService_struct {s : Prot.Store} (hi : IdsOk s) (name : Name) (fields : List Prot.Field) :
    ∃ id par, (s.addService name fields).structs =
      s.structs ++ [⟨id, par, name, numberFields id id fields, [serviceGroup]⟩] := by
  obtain ⟨g, h1, h2, h3, h4⟩ := addService_eq s name fields
  have hi1 : IdsOk (withService s) := by
    unfold withService
    split
    · exact hi
    · intro i
      have h2 := hi i
      simp only [allIds, List.map_append, List.count_append, List.map_cons,
        List.map_nil, List.count_cons, List.count_nil, beq_iff_eq] at h2 ⊢
      split at h2 <;> (repeat' split) <;> omega
  obtain ⟨hnd, hb⟩ := idsOk_declared hi1
  have hg : g.id ∈ declaredIds (withService s) := by
    simp only [declaredIds, List.mem_append, List.mem_map]; exact .inr ⟨g, h1, rfl⟩
  have hg0 : g.id ≠ 0 := by have := (hb _ hg).1; omega
  have hfind : (withService s).getGroup g.id = some g := by
    unfold Prot.Store.getGroup
    have := find_unique Group.id h1 (List.nodup_append.1 hnd).2.1
    simpa using this
  have hp : (withService s).pathByParent g.id = [serviceGroup] := by
    unfold Prot.Store.pathByParent
    rw [if_neg hg0, hfind]
    simp [h3, h2]
  have hs : (withService s).structs = s.structs := by unfold withService; split <;> rfl
  refine ⟨(withService s).sequence + 1, g.id, ?_⟩
  rw [h4, addTo, hp, hs]

theorem addAll_structs : ∀ (l : List (Name × List Prot.Field)) {s : Prot.Store}, IdsOk s →
    IdsOk (addAll s l) ∧ (addAll s l).enums = s.enums ∧ ∃ ts, (addAll s l).structs = s.structs ++ ts ∧
      Pairwise2 (fun x (t : Struct) => t.name = x.1 ∧ t.path = [serviceGroup] ∧ t.fields = numberFields t.id t.id x.2) l ts
  | [], s, hi => ⟨hi, rfl, [], by simp [addAll], .nil⟩
  | x :: l, s, hi => by
    have hi2 := idsOk_addService hi x.1 x.2
    obtain ⟨h1, h2, ts, h3, h4⟩ := addAll_structs l hi2
    obtain ⟨id, par, h5⟩ := addService_struct hi x.1 x.2
    refine ⟨h1, h2.trans (addService_types s x.1 x.2).1,
      ⟨id, par, x.1, numberFields id id x.2, [serviceGroup]⟩ :: ts, ?_, .cons ⟨rfl, rfl, rfl⟩ h4⟩
    · show (addAll (s.addService x.1 x.2) l).structs = _
      rw [h3, h5, List.append_assoc]; rfl

theorem _root_.Verif.Prot.Pairwise2.left {α β : Type} {R : α → β → Prop} {l : List α} {m : List β} (h : Pairwise2 R l m) {a : α}
    (ha : a ∈ l) : ∃ b ∈ m, R a b := by
  induction h with
  | nil => exact nomatch ha
  | cons h1 _ ih =>
    rcases List.mem_cons.1 ha with rfl | ha
    · exact ⟨_, List.mem_cons_self, h1⟩
    · obtain ⟨b, hb, hr⟩ := ih ha
      exact ⟨b, List.mem_cons_of_mem _ hb, hr⟩

theorem _root_.Verif.Prot.Pairwise2.back {α β : Type} {R : α → β → Prop} {l : List α} {m : List β} (h : Pairwise2 R l m) {b : β}
    (hb : b ∈ m) : ∃ a ∈ l, R a b := by
  induction h with
  | nil => exact nomatch hb
  | cons h1 _ ih =>
    rcases List.mem_cons.1 hb with rfl | hb
    · exact ⟨_, List.mem_cons_self, h1⟩
    · obtain ⟨a, ha, hr⟩ := ih hb
      exact ⟨a, List.mem_cons_of_mem _ ha, hr⟩

/-- The structs of the service group are the added ones. -/
theorem service_added {pr : Prot.Store} (hi : IdsOk pr) (hn : NoServices pr) (self assigned : Bool) (n : Name) :
    (∀ t, Service (addAll pr (services self assigned)) n t → ∃ fs, (n, fs) ∈ services self assigned ∧
      t.fields = numberFields t.id t.id fs) ∧
    (∀ fs, (n, fs) ∈ services self assigned → ∃ t, Service (addAll pr (services self assigned)) n t ∧
      t.fields = numberFields t.id t.id fs) := by
  obtain ⟨_, _, ts, h1, h2⟩ := addAll_structs (services self assigned) hi
  constructor
  · rintro t ⟨ht, hp, rfl⟩
    rw [h1, List.mem_append] at ht
    rcases ht with ht | ht
    · exact absurd hp (hn.1 t ht)
    · obtain ⟨x, hx, e1, _, e3⟩ := h2.back ht
      exact ⟨x.2, e1 ▸ hx, e3⟩
  · intro fs hfs
    obtain ⟨t, ht, e1, e2, e3⟩ := h2.left hfs
    exact ⟨t, ⟨by rw [h1]; exact List.mem_append_right _ ht, e2, e1⟩, e3⟩

theorem mapAll_mem {α β : Type} {f : α → Option β} : ∀ {l : List α} {m : List β}, mapAll f l = some m →
    ∀ a ∈ l, ∃ b, f a = some b ∧ b ∈ m
  | [], _, _, a, ha => nomatch ha
  | x :: l, m, h, a, ha => by
    simp only [mapAll] at h
    cases hx : f x with
    | none => rw [hx] at h; exact nomatch h
    | some y =>
      rw [hx] at h
      cases hl : mapAll f l with
      | none => rw [hl] at h; exact nomatch h
      | some ys =>
        rw [hl] at h
        cases h
        rcases List.mem_cons.1 ha with rfl | ha
        · exact ⟨y, hx, List.mem_cons_self⟩
        · obtain ⟨b, h1, h2⟩ := mapAll_mem hl a ha
          exact ⟨b, h1, List.mem_cons_of_mem _ h2⟩

theorem struct_generated {pr : Prot.Store} {sg : UInt16} {p : Rust.Protocol} (h : pr.rustProtocol sg = some p)
    {t : Struct} (ht : t ∈ pr.structs) : ∃ q, pr.rustStruct t = some q ∧ q ∈ p.structs := by
  unfold Prot.Store.rustProtocol at h
  cases h1 : mapAll pr.rustEnum pr.enums with
  | none => rw [h1] at h; exact nomatch h
  | some es =>
    rw [h1] at h
    cases h2 : mapAll pr.rustStruct pr.structs with
    | none => rw [h2] at h; exact nomatch h
    | some ts =>
      rw [h2] at h
      cases h
      exact mapAll_mem h2 t ht

end Verif.System
