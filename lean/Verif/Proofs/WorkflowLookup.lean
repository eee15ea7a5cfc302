import Verif.Proofs.ProtocolService
import Verif.Proofs.WorkflowRequest
set_option autoImplicit false
/-!
Lookup of references in the protocol, and how service structs change it.
-/
namespace Verif.Prot

/-- What lookup needs: groups are found by name and by id, and nothing is declared in a group that is
yet to come. -/
structure Sound (s : Store) : Prop where
  names : GroupNamesUnique s
  ids : ∀ g ∈ s.groups, ∀ h ∈ s.groups, g.id = h.id → g = h
  groups : ∀ g ∈ s.groups, 0 < g.id ∧ g.id ≤ s.sequence ∧ g.parent ≤ s.sequence
  structs : ∀ t ∈ s.structs, t.parent ≤ s.sequence
  enums : ∀ e ∈ s.enums, e.parent ≤ s.sequence

/-- The reference leads somewhere from the root. -/
def Known (s : Store) (p : List Name) : Prop := ∃ id, Leads s.groups s 0 p id

theorem Leads.parent_le {s : Store} (hs : Sound s) {parent : Nat} {p : List Name} {id : Nat}
    (h : Leads s.groups s parent p id) : parent ≤ s.sequence := by
  cases h with
  | here ht =>
    rcases ht with ⟨e, h1, _, _, h2⟩ | ⟨t, h1, _, _, h2⟩
    · exact h2 ▸ hs.enums e h1
    · exact h2 ▸ hs.structs t h1
  | into hg _ hp _ => exact hp ▸ (hs.groups _ hg).2.2

/-- Adding a struct to a group. -/
def addTo (s : Store) (g : Group) (name : Name) (fields : List Field) : Store :=
  { s with
    sequence := s.sequence + 1 + fields.length
    groups := s.groups.map (fun x =>
      if x.id == g.id then { x with structs := x.structs ++ [s.sequence + 1] } else x)
    structs := s.structs ++ [⟨s.sequence + 1, g.id, name,
      numberFields (s.sequence + 1) (s.sequence + 1) fields, s.pathByParent g.id⟩] }

/-- The group of service structs is there. -/
def withService (s : Store) : Store :=
  if s.groups.any (fun g => g.name == serviceGroup && g.parent == 0) then s
  else { s with
    sequence := s.sequence + 1
    groups := s.groups ++ [⟨s.sequence + 1, 0, serviceGroup, [], [], []⟩] }

theorem addService_eq (s : Store) (name : Name) (fields : List Field) :
    ∃ g ∈ (withService s).groups, g.name = serviceGroup ∧ g.parent = 0 ∧
      s.addService name fields = addTo (withService s) g name fields := by
  have hany : (withService s).groups.any (fun g => g.name == serviceGroup && g.parent == 0) = true := by
    unfold withService
    split
    · assumption
    · simp
  cases hf : (withService s).groups.find? (fun g => g.name == serviceGroup && g.parent == 0) with
  | none =>
    rw [List.find?_eq_none] at hf
    rw [List.any_eq_true] at hany
    obtain ⟨g, h1, h2⟩ := hany
    exact absurd h2 (hf g h1)
  | some g =>
    have h1 := List.mem_of_find?_eq_some hf
    have h2 := List.find?_some hf
    simp only [Bool.and_eq_true, beq_iff_eq] at h2
    refine ⟨g, h1, h2.1, h2.2, ?_⟩
    have : s.addService name fields = match (withService s).groups.find?
        (fun g => g.name == serviceGroup && g.parent == 0) with
      | none => withService s
      | some g => addTo (withService s) g name fields := rfl
    rw [this, hf]

theorem sound_withService {s : Store} (hs : Sound s) : Sound (withService s) := by
  unfold withService
  split
  · exact hs
  · rename_i hno
    simp only [List.any_eq_true, Bool.and_eq_true, beq_iff_eq, not_exists, not_and] at hno
    refine ⟨?_, ?_, ?_, ?_, ?_⟩
    · intro g hg h hh hn hp
      simp only [List.mem_append, List.mem_singleton] at hg hh
      rcases hg with hg | hg <;> rcases hh with hh | hh
      · exact hs.names g hg h hh hn hp
      · exact absurd (by rw [hp, hh]) (hno g hg (by rw [hn, hh]))
      · exact absurd (by rw [← hp, hg]) (hno h hh (by rw [← hn, hg]))
      · rw [hg, hh]
    · intro g hg h hh hi
      simp only [List.mem_append, List.mem_singleton] at hg hh
      rcases hg with hg | hg <;> rcases hh with hh | hh
      · exact hs.ids g hg h hh hi
      · have := (hs.groups g hg).2.1
        rw [hi, hh] at this
        simp only at this
        omega
      · have := (hs.groups h hh).2.1
        rw [← hi, hg] at this
        simp only at this
        omega
      · rw [hg, hh]
    · intro g hg
      simp only [List.mem_append, List.mem_singleton] at hg
      rcases hg with hg | hg
      · have := hs.groups g hg
        simp only
        omega
      · rw [hg]
        simp only
        omega
    · intro t ht
      exact Nat.le_succ_of_le (hs.structs t ht)
    · intro t ht
      exact Nat.le_succ_of_le (hs.enums t ht)

theorem withService_leads {s : Store} (hs : Sound s) {parent : Nat} {p : List Name} {id : Nat} :
    Leads (withService s).groups (withService s) parent p id ↔ Leads s.groups s parent p id := by
  unfold withService
  split
  · exact Iff.rfl
  · constructor
    · intro h
      induction h with
      | here ht => exact .here ht
      | into hg hn hp _ ih =>
        simp only [List.mem_append, List.mem_singleton] at hg
        rcases hg with hg | hg
        · exact .into hg hn hp ih
        · have := ih.parent_le hs
          rw [hg] at this
          simp only at this
          omega
    · intro h
      induction h with
      | here ht => exact .here ht
      | into hg hn hp _ ih => exact .into (List.mem_append_left _ hg) hn hp ih

theorem addTo_group {s : Store} {g : Group} {name : Name} {fields : List Field} {h : Group} :
    h ∈ (addTo s g name fields).groups →
      ∃ h0 ∈ s.groups, h0.id = h.id ∧ h0.name = h.name ∧ h0.parent = h.parent := by
  intro hh
  simp only [addTo, List.mem_map] at hh
  obtain ⟨h0, h1, h2⟩ := hh
  refine ⟨h0, h1, ?_⟩
  split at h2 <;> rw [← h2] <;> exact ⟨rfl, rfl, rfl⟩

theorem addTo_group_of {s : Store} {g : Group} (name : Name) (fields : List Field) {h : Group}
    (hh : h ∈ s.groups) : ∃ h1 ∈ (addTo s g name fields).groups,
      h1.id = h.id ∧ h1.name = h.name ∧ h1.parent = h.parent := by
  refine ⟨_, List.mem_map_of_mem hh, ?_⟩
  split <;> exact ⟨rfl, rfl, rfl⟩

theorem sound_addTo {s : Store} (hs : Sound s) {g : Group} (hg : g ∈ s.groups) (name : Name)
    (fields : List Field) : Sound (addTo s g name fields) := by
  have same : ∀ {a b : Group}, a ∈ (addTo s g name fields).groups →
      b ∈ (addTo s g name fields).groups → a.id = b.id → a = b := by
    intro a b ha hb hab
    simp only [addTo, List.mem_map] at ha hb
    obtain ⟨a0, a1, a2⟩ := ha
    obtain ⟨b0, b1, b2⟩ := hb
    have e1 : a0.id = a.id := by split at a2 <;> rw [← a2]
    have e2 : b0.id = b.id := by split at b2 <;> rw [← b2]
    have : a0 = b0 := hs.ids a0 a1 b0 b1 (by rw [e1, e2, hab])
    subst this
    rw [← a2, ← b2]
  refine ⟨?_, ?_, ?_, ?_, ?_⟩
  · intro a ha b hb hn hp
    obtain ⟨a0, a1, a2, a3, a4⟩ := addTo_group ha
    obtain ⟨b0, b1, b2, b3, b4⟩ := addTo_group hb
    have : a0 = b0 := hs.names a0 a1 b0 b1 (by rw [a3, b3, hn]) (by rw [a4, b4, hp])
    exact same ha hb (by rw [← a2, ← b2, this])
  · intro a ha b hb hi
    exact same ha hb hi
  · intro a ha
    obtain ⟨a0, a1, a2, a3, a4⟩ := addTo_group ha
    have := hs.groups a0 a1
    rw [a2, a4] at this
    refine ⟨this.1, ?_, ?_⟩ <;> simp only [addTo] <;> omega
  · intro t ht
    simp only [addTo, List.mem_append, List.mem_singleton] at ht ⊢
    rcases ht with ht | ht
    · have := hs.structs t ht
      omega
    · have := (hs.groups g hg).2.1
      rw [ht]
      simp only
      omega
  · intro t ht
    have := hs.enums t ht
    simp only [addTo]
    omega

theorem addTo_leads {s : Store} (hs : Sound s) {g : Group} (hg : g ∈ s.groups) (name : Name)
    (fields : List Field) {parent : Nat} {p : List Name} {id : Nat}
    (h : Leads (addTo s g name fields).groups (addTo s g name fields) parent p id) :
    (∃ id, Leads s.groups s parent p id) ∨ (parent = g.id ∧ p = [name]) ∨
      (parent = g.parent ∧ p = [g.name, name]) ∨
      ∃ h ∈ s.groups, h.id = g.parent ∧ p ≠ [] := by
  induction h with
  | @here parent w id ht =>
    rcases ht with ⟨e, h1, h2⟩ | ⟨t, h1, h2, h3, h4⟩
    · exact .inl ⟨id, .here (.inl ⟨e, h1, h2⟩)⟩
    · simp only [addTo, List.mem_append, List.mem_singleton] at h1
      rcases h1 with h1 | h1
      · exact .inl ⟨id, .here (.inr ⟨t, h1, h2, h3, h4⟩)⟩
      · subst h1
        exact .inr (.inl ⟨h4.symm, by rw [← h3]⟩)
  | @into parent w rest id h hh hn hp _ ih =>
    obtain ⟨h0, a1, a2, a3, a4⟩ := addTo_group hh
    rcases ih with ⟨i, hi⟩ | ⟨h1, h2⟩ | ⟨h1, h2⟩ | h
    · exact .inl ⟨i, .into a1 (a3.trans hn) (a4.trans hp) (a2 ▸ hi)⟩
    · have : h0 = g := hs.ids h0 a1 g hg (a2.trans h1)
      subst this
      refine .inr (.inr (.inl ⟨by rw [a4, hp], by rw [a3, hn, h2]⟩))
    · exact .inr (.inr (.inr ⟨h0, a1, by rw [a2, h1], by simp⟩))
    · obtain ⟨x, x1, x2, _⟩ := h
      exact .inr (.inr (.inr ⟨x, x1, x2, by simp⟩))

theorem sound_addService {s : Store} (hs : Sound s) (name : Name) (fields : List Field) :
    Sound (s.addService name fields) := by
  obtain ⟨g, h1, _, _, h4⟩ := addService_eq s name fields
  rw [h4]
  exact sound_addTo (sound_withService hs) h1 name fields

/-- A service struct makes exactly its own reference known. -/
theorem known_addService {s : Store} (hs : Sound s) (name : Name) (fields : List Field)
    (p : List Name) :
    Known (s.addService name fields) p ↔ Known s p ∨ p = [serviceGroup, name] := by
  obtain ⟨g, h1, h2, h3, h4⟩ := addService_eq s name fields
  have hw := sound_withService hs
  unfold Known
  rw [h4]
  constructor
  · rintro ⟨id, h⟩
    rcases addTo_leads hw h1 name fields h with ⟨i, hi⟩ | ⟨a, _⟩ | ⟨_, b⟩ | ⟨x, x1, x2, _⟩
    · exact .inl ⟨i, (withService_leads hs).1 hi⟩
    · have := (hw.groups g h1).1
      omega
    · exact .inr (by rw [b, h2])
    · have := (hw.groups x x1).1
      omega
  · rintro (⟨id, h⟩ | h)
    · have h := (withService_leads hs).2 h
      refine ⟨id, h.mono ?_ ?_ ?_⟩
      · intro x hx
        obtain ⟨y, y1, y2, y3, y4⟩ := addTo_group_of (g := g) name fields hx
        exact ⟨y, y1, y2, y4, y3⟩
      · intro e he
        exact he
      · intro t ht
        exact List.mem_append_left _ ht
    · obtain ⟨x, x1, x2, x3, x4⟩ := addTo_group_of (g := g) name fields h1
      refine ⟨(withService s).sequence + 1, ?_⟩
      rw [h]
      refine .into x1 (x3.trans h2) (x4.trans h3) (.here (.inr ⟨_, List.mem_append_right _
        List.mem_cons_self, rfl, rfl, x2.symm⟩))

theorem findByPath_iff {s : Store} (hs : Sound s) (p : List Name) :
    (s.findByPath 0 p).isSome = true ↔ Known s p := by
  constructor
  · intro h
    obtain ⟨r, hr⟩ := Option.isSome_iff_exists.mp h
    obtain ⟨w, id, _, _, h3, _⟩ := findByPath_sound s 0 p r hr
    exact ⟨id, h3⟩
  · rintro ⟨id, h⟩
    obtain ⟨r, hr⟩ := findByPath_complete s hs.names h
    simp [hr]

end Verif.Prot

namespace Verif.Flow.Syntax

open Verif Verif.Flow
open Verif.Prot (Name Sound Known)
open Verif.Prot.Syntax (IdChar Ident)

theorem ident_no_dot {w : Name} (h : Ident w) : ∀ c ∈ w, c ≠ '.' := by
  obtain ⟨d, ds, rfl, _, hall⟩ := h
  intro c hc he
  subst he
  rcases hall '.' hc with h | h
  · exact absurd h (by decide)
  · exact absurd h (by decide)

theorem splitDot_nodot : ∀ (w : Name), (∀ c ∈ w, c ≠ '.') → splitDot w = [w]
  | [], _ => rfl
  | c :: cs, h => by
    rw [splitDot, if_neg (h c List.mem_cons_self),
      splitDot_nodot cs (fun x hx => h x (List.mem_cons_of_mem _ hx))]

theorem splitDot_append : ∀ (w : Name) (r : Ref), (∀ c ∈ w, c ≠ '.') →
    splitDot (w ++ '.' :: r) = w :: splitDot r
  | [], r, _ => by simp [splitDot]
  | c :: cs, r, h => by
    rw [List.cons_append, splitDot, if_neg (h c List.mem_cons_self),
      splitDot_append cs r (fun x hx => h x (List.mem_cons_of_mem _ hx))]

theorem splitDot_dotted : ∀ (p : Path), PathShape p → splitDot (dotted p) = p
  | [], h => absurd rfl h.1
  | [w], h => splitDot_nodot w (ident_no_dot (h.2 w List.mem_cons_self))
  | w :: w2 :: ws, h => by
    rw [dotted, splitDot_append w _ (ident_no_dot (h.2 w List.mem_cons_self)),
      splitDot_dotted (w2 :: ws) ⟨by simp, fun x hx => h.2 x (List.mem_cons_of_mem _ hx)⟩]

theorem dotted_inj {p q : Path} (hp : PathShape p) (hq : PathShape q) (h : dotted p = dotted q) :
    p = q := by rw [← splitDot_dotted p hp, h, splitDot_dotted q hq]

theorem defined_iff {pr : Prot.Store} (hs : Sound pr) {p : Path} (hp : PathShape p) :
    defined pr (dotted p) = true ↔ Known pr p := by
  rw [defined, splitDot_dotted p hp]
  exact Prot.findByPath_iff hs p

end Verif.Flow.Syntax
