import Verif.Proofs.ProtocolNames
import Verif.Proofs.WorkflowInv
import Verif.Proofs.FilesNames
set_option autoImplicit false
/-!
References of accepted workflows are names with points between them.
-/
namespace Verif.Flow

open Verif Verif.Prot.Syntax
open Verif.Files.Spec (IdStart IdPart)
open Verif.Prot (Name)

theorem idPart_of {c : Char} (h : IdChar c) : IdPart c := by
  rw [Files.idPart_iff]
  unfold IdChar Prot.isAlnum Prot.isDigit at h
  rcases h with h | h
  · simp only [Bool.or_eq_true, decide_eq_true_eq] at h
    rcases h with (h | h) | h
    · exact .inr h
    · exact .inl (.inl h)
    · exact .inl (.inr (.inl h))
  · rw [h]
    decide

theorem idStart_of {c : Char} (h : IdChar c) (hd : Prot.isDigit c = false) : IdStart c := by
  rcases idPart_of h with h | h
  · exact h
  · unfold Prot.isDigit at hd
    simp only [decide_eq_false_iff_not] at hd
    exact absurd h hd

/-- A joined path of names. -/
theorem dotted_names : ∀ (l : List Name), l ≠ [] → (∀ w ∈ l, Ident w) → Files.Spec.Dotted (Syntax.dotted l) := by
  intro l hl hw
  cases l with
  | nil => exact absurd rfl hl
  | cons w rest =>
    obtain ⟨c, cs, rfl, h1, h2⟩ := hw w List.mem_cons_self
    have tail : ∀ (rest : List Name) (cs : Name), (∀ d ∈ cs, IdPart d ∨ d = '.') → (∀ w ∈ rest, Ident w) →
        ∀ x ∈ Syntax.dotted (cs :: rest), IdPart x ∨ x = '.' := by
      intro rest
      induction rest with
      | nil =>
        intro cs h _ x hx
        exact h x hx
      | cons v rest ih =>
        intro cs h hr x hx
        rw [show Syntax.dotted (cs :: v :: rest) = cs ++ '.' :: Syntax.dotted (v :: rest) from rfl] at hx
        rcases List.mem_append.mp hx with hx | hx
        · exact h x hx
        · rcases List.mem_cons.mp hx with rfl | hx
          · exact .inr rfl
          · refine ih v ?_ (fun w h => hr w (List.mem_cons_of_mem _ h)) x hx
            obtain ⟨e, es, rfl, h3, h4⟩ := hr v List.mem_cons_self
            exact fun d hd => .inl (idPart_of (h4 d hd))
    refine ⟨c, Syntax.dotted (cs :: rest), ?_, idStart_of (h2 c List.mem_cons_self) h1, ?_⟩
    · cases rest <;> rfl
    · exact tail rest cs (fun d hd => .inl (idPart_of (h2 d (List.mem_cons_of_mem _ hd))))
        (fun w h => hw w (List.mem_cons_of_mem _ h))

theorem dotted_defined {pr : Prot.Store} (h : Prot.Legal pr) {r : Ref} (hd : defined pr r = true) :
    Files.Spec.Dotted r := by
  have := Prot.legal_found h (splitDot r) 0 hd
  rw [← dotted_splitDot r]
  exact dotted_names _ this.1 this.2

theorem names : Ident "SelfKeyResponse".toList ∧ Ident "uuid".toList ∧ Ident "SelfKeyRequest".toList ∧
    Ident "AssignedKey".toList ∧ Ident "HashRequest".toList ∧ Ident "HashResponse".toList ∧
    Ident "BeaconConfirmation".toList ∧ Ident "ConnectConfirmationBeacon".toList ∧ Ident "error".toList ∧
    Ident "protocol".toList ∧ Ident "workflow".toList := by
  refine ⟨?_, ?_, ?_, ?_, ?_, ?_, ?_, ?_, ?_, ?_, ?_⟩ <;> exact Prot.ident_of_decide (by decide)

theorem legal_config {c0 c : Config} {pr pr2 : Prot.Store} (h : Prot.Legal pr)
    (hc : c0.close pr = some (c, pr2)) : Prot.Legal pr2 := by
  have one : ∀ {n : Name} {p : Prot.Store} {fields : List Prot.Field}, Prot.Legal p → Ident n →
      (∀ f ∈ fields, Ident f.name) → Prot.Legal (p.addService n fields) :=
    fun h1 h2 h3 => Prot.legal_addService h1 h2 h3
  have field : ∀ {n : Name} {b : Bool}, Ident n → ∀ f ∈ [strField n b], Ident f.name := by
    intro n b hn f hf
    rw [List.mem_singleton.mp hf]
    exact hn
  have none : ∀ f ∈ ([] : List Prot.Field), Ident f.name := fun f hf => by simp at hf
  have self : ∀ {c c2 : Config} {p p2 : Prot.Store}, Prot.Legal p → c.closeSelf p = some (c2, p2) →
      Prot.Legal p2 := by
    intro c c2 p p2 hp h
    unfold Config.closeSelf at h
    split at h
    · split at h
      · simp only [Option.some.injEq, Prod.mk.injEq] at h
        rw [← h.2]
        exact one hp names.1 (field names.2.1)
      · simp at h
    · simp only [Option.some.injEq, Prod.mk.injEq] at h
      rw [← h.2]
      exact one (one hp names.2.2.1 (field names.2.1)) names.1 (field names.2.1)
  have assigned : ∀ {c c2 : Config} {p p2 : Prot.Store}, Prot.Legal p → c.closeAssigned p = some (c2, p2) →
      Prot.Legal p2 := by
    intro c c2 p p2 hp h
    unfold Config.closeAssigned at h
    split at h
    · split at h
      · simp only [Option.some.injEq, Prod.mk.injEq] at h
        rw [← h.2]
        exact hp
      · simp at h
    · simp only [Option.some.injEq, Prod.mk.injEq] at h
      rw [← h.2]
      exact one hp names.2.2.2.1 none
  unfold Config.close at hc
  split at hc
  · simp at hc
  rename_i c1 p1 h1
  split at hc
  · simp at hc
  rename_i c2 p2 h2
  split at hc
  · simp at hc
  split at hc
  · simp at hc
  simp only [Option.some.injEq, Prod.mk.injEq] at hc
  rw [← hc.2]
  obtain ⟨-, -, -, -, n1, n2, n3, n4, n5, n6, n7⟩ := names
  refine one (one (one (one (assigned (self h h1) h2) n1 ?_) n2 (field n5)) n3 (field n5)) n4 none
  intro f hf
  simp only [List.mem_cons, List.not_mem_nil, or_false] at hf
  rcases hf with rfl | rfl
  · exact n6
  · exact n7

/-- References of all kinds. -/
structure RefsDotted (s : Store) (pr : Prot.Store) : Prop where
  legal : Prot.Legal pr
  requests : ∀ r ∈ s.requests, ∀ x ∈ Syntax.requestNames r, Files.Spec.Dotted x
  events : ∀ e ∈ s.events, ∀ x, e.reference = some x → Files.Spec.Dotted x
  casts : ∀ e ∈ s.events, ∀ b ∈ e.broadcasts, Files.Spec.Dotted b.reference
  beacons : ∀ b ∈ s.beacons, Files.Spec.Dotted b.reference

theorem refsDotted_change {s s2 : Store} {pr pr2 : Prot.Store} (hc : Change s pr s2 pr2)
    (h : RefsDotted s pr) : RefsDotted s2 pr2 := by
  cases hc with
  | same => exact h
  | request h1 h2 =>
    rename_i r r0
    have hr := close_refs h1
    have hall : ∀ x ∈ Syntax.requestNames r, Files.Spec.Dotted x := by
      intro x hx
      refine dotted_defined h.legal ?_
      obtain ⟨g1, g2, g3, g4, g5⟩ := hr
      simp only [Syntax.requestNames, List.mem_append, Option.mem_toList, List.mem_flatMap, List.mem_map] at hx
      rcases hx with ((hx | hx) | hx) | ⟨a, ha, hx | ⟨b, hb, rfl⟩⟩
      · exact g1 x hx
      · exact g2 x hx
      · exact g3 x hx
      · obtain ⟨⟨y, hy, hd⟩, -, -⟩ := g4 a ha
        rw [hy] at hx
        cases hx
        exact hd
      · exact (g4 a ha).2.1 b hb
    unfold Store.addRequest at h2
    split at h2
    · simp at h2
    · split at h2
      · simp at h2
      · injection h2 with h2
        subst h2
        refine ⟨h.legal, ?_, h.events, h.casts, h.beacons⟩
        intro x hx
        rcases List.mem_append.mp hx with hx | hx
        · exact h.requests x hx
        · rw [List.mem_singleton.mp hx]
          exact hall
  | event h1 h2 =>
    rename_i e e0
    obtain ⟨-, g1, g2⟩ := close_event_refs h1
    unfold Store.addEvent at h2
    split at h2
    · simp at h2
    · split at h2
      · simp at h2
      · injection h2 with h2
        subst h2
        refine ⟨h.legal, h.requests, ?_, ?_, h.beacons⟩
        · intro x hx
          rcases List.mem_append.mp hx with hx | hx
          · exact h.events x hx
          · rw [List.mem_singleton.mp hx]
            intro r hr
            rcases g1 r hr with hd | hd
            · rcases Files.default_cases hd with rfl | rfl
              · exact ⟨_, _, rfl, by rw [Files.idStart_iff]; decide, by simp only [Files.idPart_iff]; decide⟩
              · exact ⟨_, _, rfl, by rw [Files.idStart_iff]; decide, by simp only [Files.idPart_iff]; decide⟩
            · exact dotted_defined h.legal hd
        · intro x hx
          rcases List.mem_append.mp hx with hx | hx
          · exact h.casts x hx
          · rw [List.mem_singleton.mp hx]
            exact fun b hb => dotted_defined h.legal (g2 b hb)
  | beacons h1 h2 =>
    have := close_beacon_refs h1
    rw [addBeacons_mem _ _ _ h2]
    refine ⟨h.legal, h.requests, h.events, h.casts, ?_⟩
    intro x hx
    rcases List.mem_append.1 hx with hx | hx
    · exact h.beacons x hx
    · exact dotted_defined h.legal (this x hx)
  | config h1 h2 =>
    have hl := legal_config h.legal h1
    unfold Store.setConfig at h2
    split at h2
    · simp at h2
    · injection h2 with h2
      subst h2
      exact ⟨hl, h.requests, h.events, h.casts, h.beacons⟩

theorem accepted_dotted {pr : Prot.Store} (hl : Prot.Legal pr) {text : List Char} {s : Store}
    {pr2 : Prot.Store} (h : Parses pr text (.accepted s pr2)) : RefsDotted s pr2 :=
  (accepted_change (I := RefsDotted)
    ⟨hl, by simp [Store.new], by simp [Store.new], by simp [Store.new], by simp [Store.new]⟩
    (fun _ _ _ _ hc hi => refsDotted_change hc hi) h).1

end Verif.Flow

namespace Verif.Files

open Verif Verif.Files.Spec

/-- Everything declared in an accepted workflow. -/
theorem declared_dotted {ptext text : List Char} {pr pr2 : Prot.Store} {s : Flow.Store}
    (hp : Prot.Parses ptext (.accepted pr)) (h : Flow.Parses pr text (.accepted s pr2)) (k : Kind) :
    ∀ r ∈ declared (Decls.ofStore s) k, Dotted r := by
  have hd := Flow.accepted_dotted (Prot.accepted_legal hp) h
  intro r hr
  cases k with
  | request =>
    obtain ⟨q, hq, he⟩ := List.mem_filterMap.mp hr
    exact hd.requests q hq r (by simp [Flow.Syntax.requestNames, he])
  | event =>
    obtain ⟨e, he, hx⟩ := List.mem_filterMap.mp hr
    exact hd.events e he r hx
  | beacon =>
    obtain ⟨b, hb, rfl⟩ := List.mem_map.mp hr
    exact hd.beacons b hb
  | broadcast =>
    rcases List.mem_append.mp hr with hr | hr
    · obtain ⟨q, hq, hr⟩ := List.mem_flatMap.mp hr
      refine hd.requests q hq r ?_
      unfold Flow.Syntax.requestNames
      obtain ⟨a, ha, hr⟩ := List.mem_flatMap.mp hr
      exact List.mem_append.mpr (.inr (List.mem_flatMap.mpr ⟨a, ha, List.mem_append.mpr (.inr hr)⟩))
    · obtain ⟨e, he, hr⟩ := List.mem_flatMap.mp hr
      obtain ⟨b, hb, rfl⟩ := List.mem_map.mp hr
      exact hd.casts e he b hb

end Verif.Files
