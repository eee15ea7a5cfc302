import Verif.Proofs.WorkflowLookup
set_option autoImplicit false
/-!
What the parser does with a list of declarations, in terms of the specification.
-/
namespace Verif.Flow.Syntax

open Verif Verif.Flow
open Verif.Prot (Name Sound Known)
open Verif.Prot.Syntax (IdChar Ident)

/-! ### Declarations one by one -/

theorem all_defined {pr : Prot.Store} (hs : Sound pr) {α : Type} (f : α → Path) (l : List α)
    (hl : ∀ x ∈ l, PathShape (f x)) :
    l.all (fun x => defined pr (dotted (f x))) = true ↔ ∀ x ∈ l, Known pr (f x) := by
  rw [List.all_eq_true]
  constructor
  · intro h x hx
    exact (defined_iff hs (hl x hx)).1 (h x hx)
  · intro h x hx
    exact (defined_iff hs (hl x hx)).2 (h x hx)

theorem ident_literal {w : Name} (c : Char) (cs : Name) (hw : w = c :: cs)
    (hd : Prot.isDigit c = false) (ha : w.all Prot.isAlnum = true) : Ident w := by
  refine ⟨c, cs, hw, hd, fun d hm => .inl ?_⟩
  rw [List.all_eq_true] at ha
  exact ha d (hw ▸ hm)

theorem isDefault_iff {r : Path} (hr : PathShape r) :
    isDefaultEvent (dotted r) = true ↔ r = ["connected".toList] ∨ r = ["disconnected".toList] := by
  have h1 : PathShape ["connected".toList] :=
    ⟨by simp, fun w hw => by
      rw [List.mem_singleton.1 hw]
      exact ident_literal 'c' "onnected".toList (by decide) (by decide) (by decide)⟩
  have h2 : PathShape ["disconnected".toList] :=
    ⟨by simp, fun w hw => by
      rw [List.mem_singleton.1 hw]
      exact ident_literal 'd' "isconnected".toList (by decide) (by decide) (by decide)⟩
  unfold isDefaultEvent
  rw [Bool.or_eq_true, decide_eq_true_iff, decide_eq_true_iff]
  constructor
  · rintro (h | h)
    · exact .inl (dotted_inj hr h1 h)
    · exact .inr (dotted_inj hr h2 h)
  · rintro (h | h)
    · exact .inl (by rw [h]; rfl)
    · exact .inr (by rw [h]; rfl)

theorem fresh_iff : ∀ (bs : List BroadcastD) (seen : List Path), (∀ b ∈ bs, PathShape b.ref) →
    (∀ p ∈ seen, PathShape p) →
    (fresh (seen.map dotted) bs = true ↔
      (bs.map BroadcastD.ref).Nodup ∧ ∀ b ∈ bs, b.ref ∉ seen)
  | [], _, _, _ => by simp [fresh]
  | b :: bs, seen, hb, hs => by
    have hb0 := hb b List.mem_cons_self
    have ih := fresh_iff bs (seen ++ [b.ref]) (fun x hx => hb x (List.mem_cons_of_mem _ hx)) (by
      intro p hp
      rcases List.mem_append.1 hp with h | h
      · exact hs p h
      · exact (List.mem_singleton.1 h) ▸ hb0)
    have hc : (seen.map dotted).contains (dotted b.ref) = true ↔ b.ref ∈ seen := by
      rw [List.contains_iff_mem, List.mem_map]
      constructor
      · rintro ⟨p, h1, h2⟩
        exact dotted_inj (hs p h1) hb0 h2 ▸ h1
      · intro h
        exact ⟨_, h, rfl⟩
    simp only [fresh, Bool.and_eq_true, Bool.not_eq_true']
    rw [show seen.map dotted ++ [dotted b.ref] = (seen ++ [b.ref]).map dotted by simp, ih,
      ← Bool.not_eq_true, hc, List.map_cons, List.nodup_cons]
    constructor
    · rintro ⟨h1, h2, h3⟩
      refine ⟨⟨?_, h2⟩, ?_⟩
      · intro h
        obtain ⟨x, hx, he⟩ := List.mem_map.1 h
        exact h3 x hx (by rw [he]; simp)
      · intro x hx
        rcases List.mem_cons.1 hx with h | h
        · exact h ▸ h1
        · exact fun hm => h3 x h (List.mem_append_left _ hm)
    · rintro ⟨⟨h1, h2⟩, h3⟩
      refine ⟨h3 b List.mem_cons_self, h2, ?_⟩
      intro x hx hm
      rcases List.mem_append.1 hm with h | h
      · exact h3 x (List.mem_cons_of_mem _ hx) h
      · exact h1 (List.mem_map.2 ⟨x, hx, List.mem_singleton.1 h⟩)

/-! ### Requests -/

/-- A closed request. -/
def closedRequest (r : Path) (e : Option Path) (as : List Action) (bs : List Path) : Request :=
  ⟨some (dotted r), e.map dotted, as, bs.map dotted, [], .nothing, true⟩

theorem close_plain {pr : Prot.Store} (hs : Sound pr) {r : Path} {bs : List Path} (hr : PathShape r)
    (hb : ∀ b ∈ bs, PathShape b) :
    ((openRequest r none [] bs).close pr = some (closedRequest r none [] bs) ∧
      (Known pr r ∧ ∀ b ∈ bs, Known pr b)) ∨
    ((openRequest r none [] bs).close pr = none ∧ ¬ (Known pr r ∧ ∀ b ∈ bs, Known pr b)) := by
  have h1 := defined_iff hs hr
  have h2 := all_defined hs id bs hb
  have e : (bs.map dotted).all (fun b => defined pr b) = bs.all (fun x => defined pr (dotted (id x))) := by
    rw [List.all_map]; rfl
  simp only [Request.close, openRequest, Option.map_none, e]
  simp only [id] at h2 ⊢
  cases hd : defined pr (dotted r) with
  | false =>
    right
    refine ⟨rfl, fun h => ?_⟩
    rw [h1.2 h.1] at hd
    cases hd
  | true =>
    by_cases ha : bs.all (fun x => defined pr (dotted x)) = true
    · simp only [ha]
      exact .inl ⟨rfl, h1.1 hd, h2.1 ha⟩
    · refine .inr ⟨?_, fun h => ha (h2.2 h.2)⟩
      rw [Bool.not_eq_true] at ha
      simp only [ha]
      rfl

theorem checked_iff {pr : Prot.Store} (hs : Sound pr) {a : ActionD} (ha : a.Shape) (alone : Bool) :
    (actionEntity a).checked alone pr = true ↔
      (a.conclusion ≠ none ∨ alone = true) ∧ Known pr a.response ∧ ∀ b ∈ a.broadcasts, Known pr b.ref := by
  obtain ⟨_, hr, hb, _⟩ := ha
  have h2 := all_defined hs BroadcastD.ref a.broadcasts hb
  have e : (a.broadcasts.map broadcastOf).all (fun b => defined pr b.reference) =
      a.broadcasts.all (fun x => defined pr (dotted x.ref)) := by
    rw [List.all_map]; rfl
  simp only [Action.checked, actionEntity, e, Bool.and_eq_true, Bool.or_eq_true, h2, defined_iff hs hr]
  rw [and_assoc]
  have : (a.conclusion.isSome = true) ↔ a.conclusion ≠ none := by
    cases a.conclusion <;> simp
  rw [this]

theorem close_request {pr : Prot.Store} (hs : Sound pr) {r e : Path} {as : List ActionD}
    (hr : PathShape r) (he : PathShape e) (ha : ∀ a ∈ as, a.Shape) :
    let good := Known pr r ∧ Known pr e ∧ (∀ a ∈ as, Known pr a.response ∧
      ∀ b ∈ a.broadcasts, Known pr b.ref) ∧ (as.length ≠ 1 → ∀ a ∈ as, a.conclusion ≠ none)
    ((openRequest r (some e) (as.map actionEntity) []).close pr =
      some (closedRequest r (some e) (as.map actionEntity) []) ∧ good) ∨
    ((openRequest r (some e) (as.map actionEntity) []).close pr = none ∧ ¬ good) := by
  intro good
  have h1 := defined_iff hs hr
  have h2 := defined_iff hs he
  have h3 : (as.map actionEntity).all (fun a => a.checked ((as.map actionEntity).length == 1) pr) = true ↔
      ((∀ a ∈ as, Known pr a.response ∧ ∀ b ∈ a.broadcasts, Known pr b.ref) ∧
        (as.length ≠ 1 → ∀ a ∈ as, a.conclusion ≠ none)) := by
    rw [List.all_map, List.all_eq_true, List.length_map]
    simp only [Function.comp]
    constructor
    · intro h
      refine ⟨fun a hm => ((checked_iff hs (ha a hm) _).1 (h a hm)).2, fun hl a hm => ?_⟩
      rcases ((checked_iff hs (ha a hm) _).1 (h a hm)).1 with h | h
      · exact h
      · exact absurd (by simpa using h) hl
    · rintro ⟨h, hc⟩ a hm
      refine (checked_iff hs (ha a hm) _).2 ⟨?_, h a hm⟩
      by_cases hl : as.length = 1
      · exact .inr (by simp [hl])
      · exact .inl (hc hl a hm)
  simp only [Request.close, openRequest, Option.map_some, List.map_nil, List.all_nil]
  cases hd : defined pr (dotted r) with
  | false =>
    right
    refine ⟨rfl, fun h => ?_⟩
    rw [h1.2 h.1] at hd
    cases hd
  | true =>
    cases hde : defined pr (dotted e) with
    | false =>
      right
      refine ⟨rfl, fun h => ?_⟩
      rw [h2.2 h.2.1] at hde
      cases hde
    | true =>
      by_cases hc : (as.map actionEntity).all
          (fun a => a.checked ((as.map actionEntity).length == 1) pr) = true
      · have := h3.1 hc
        refine .inl ⟨?_, h1.1 hd, h2.1 hde, this.1, this.2⟩
        rw [hc]
        rfl
      · refine .inr ⟨?_, fun h => hc (h3.2 ⟨h.2.2.1, h.2.2.2⟩)⟩
        rw [Bool.not_eq_true] at hc
        rw [hc]
        rfl

/-! ### Config -/

def producersOf (es : List EntryD) : List Target := es.flatMap (fun | .producer ts => ts | _ => [])
def consumersOf (es : List EntryD) : List Target := es.flatMap (fun | .consumer ts => ts | _ => [])
def selfOf (es : List EntryD) : Option Ref :=
  es.findSome? (fun | .selfKey p => some (dotted p) | _ => none)
def assignedOf (es : List EntryD) : Option Ref :=
  es.findSome? (fun | .assignedKey p => some (dotted p) | _ => none)

/-- Nothing is configured twice. -/
def Once (c : Config) (es : List EntryD) : Prop :=
  (∀ e ∈ es, match e with
    | .producer ts => ts.Nodup
    | .consumer ts => ts.Nodup
    | _ => True) ∧
  es.countP EntryD.isProducer + (if c.producer.isEmpty then 0 else 1) ≤ 1 ∧
  es.countP EntryD.isConsumer + (if c.consumer.isEmpty then 0 else 1) ≤ 1 ∧
  es.countP EntryD.isSelf + (if c.selfKey.isNone then 0 else 1) ≤ 1 ∧
  es.countP EntryD.isAssigned + (if c.assignedKey.isNone then 0 else 1) ≤ 1

/-- The config with the entries. -/
def configured (c : Config) (es : List EntryD) : Config :=
  { c with
    producer := c.producer ++ producersOf es
    consumer := c.consumer ++ consumersOf es
    selfKey := c.selfKey.or (selfOf es)
    assignedKey := c.assignedKey.or (assignedOf es) }

theorem no_producer : ∀ (es : List EntryD), es.countP EntryD.isProducer = 0 → producersOf es = []
  | [], _ => rfl
  | .producer ts :: es, h => by simp [List.countP_cons, EntryD.isProducer] at h
  | .consumer _ :: es, h => no_producer es (by simpa [List.countP_cons, EntryD.isProducer] using h)
  | .selfKey _ :: es, h => no_producer es (by simpa [List.countP_cons, EntryD.isProducer] using h)
  | .assignedKey _ :: es, h => no_producer es (by simpa [List.countP_cons, EntryD.isProducer] using h)

theorem applyEntries_spec : ∀ (es : List EntryD) (c : Config), (∀ e ∈ es, e.Shape) →
    (Once c es ∧ applyEntries c es = some (configured c es)) ∨
    (¬ Once c es ∧ applyEntries c es = none)
  | [], c, _ => by
    left
    refine ⟨⟨by simp, ?_, ?_, ?_, ?_⟩, ?_⟩
    · split <;> simp
    · split <;> simp
    · split <;> simp
    · split <;> simp
    · simp [applyEntries, configured, producersOf, consumersOf, selfOf, assignedOf]
  | e :: es, c, hs => by
    have hs2 : ∀ e ∈ es, e.Shape := fun x hx => hs x (List.mem_cons_of_mem _ hx)
    have he := hs e List.mem_cons_self
    rw [applyEntries]
    cases e with
    | producer ts =>
      simp only [applyEntry]
      by_cases hc : c.producer.isEmpty ∧ ts.Nodup
      · rw [if_pos hc, Option.bind_some]
        have hts : ts.isEmpty = false := by
          have : ts ≠ [] := he
          simpa using this
        have hcp : c.producer = [] := by simpa using hc.1
        have e1 : Once c (.producer ts :: es) ↔ Once { c with producer := ts } es := by
          simp only [Once, List.mem_cons, forall_eq_or_imp, hc.2, true_and, List.countP_cons,
            EntryD.isProducer, EntryD.isConsumer, EntryD.isSelf, EntryD.isAssigned, hc.1, hts,
            if_true, Bool.false_eq_true, if_false, Nat.add_zero]
        have e2 : configured c (.producer ts :: es) = configured { c with producer := ts } es := by
          simp [configured, producersOf, consumersOf, selfOf, assignedOf, hcp]
        rw [e1, e2]
        exact applyEntries_spec es _ hs2
      · rw [if_neg hc]
        refine .inr ⟨fun h => hc ?_, rfl⟩
        obtain ⟨h1, h2, _⟩ := h
        refine ⟨?_, h1 _ List.mem_cons_self⟩
        simp only [List.countP_cons, EntryD.isProducer, if_true] at h2
        by_cases hp : c.producer.isEmpty = true
        · exact hp
        · rw [if_neg hp] at h2
          omega
    | consumer ts =>
      simp only [applyEntry]
      by_cases hc : c.consumer.isEmpty ∧ ts.Nodup
      · rw [if_pos hc, Option.bind_some]
        have hts : ts.isEmpty = false := by
          have : ts ≠ [] := he
          simpa using this
        have hcp : c.consumer = [] := by simpa using hc.1
        have e1 : Once c (.consumer ts :: es) ↔ Once { c with consumer := ts } es := by
          simp only [Once, List.mem_cons, forall_eq_or_imp, hc.2, true_and, List.countP_cons,
            EntryD.isProducer, EntryD.isConsumer, EntryD.isSelf, EntryD.isAssigned, hc.1, hts,
            if_true, Bool.false_eq_true, if_false, Nat.add_zero]
        have e2 : configured c (.consumer ts :: es) = configured { c with consumer := ts } es := by
          simp [configured, producersOf, consumersOf, selfOf, assignedOf, hcp]
        rw [e1, e2]
        exact applyEntries_spec es _ hs2
      · rw [if_neg hc]
        refine .inr ⟨fun h => hc ?_, rfl⟩
        obtain ⟨h1, _, h2, _⟩ := h
        refine ⟨?_, h1 _ List.mem_cons_self⟩
        simp only [List.countP_cons, EntryD.isConsumer, if_true] at h2
        by_cases hp : c.consumer.isEmpty = true
        · exact hp
        · rw [if_neg hp] at h2
          omega
    | selfKey p =>
      simp only [applyEntry]
      by_cases hc : c.selfKey.isNone
      · rw [if_pos hc, Option.bind_some]
        have hcp : c.selfKey = none := by simpa using hc
        have e1 : Once c (.selfKey p :: es) ↔ Once { c with selfKey := some (dotted p) } es := by
          simp only [Once, List.mem_cons, forall_eq_or_imp, true_and, List.countP_cons,
            EntryD.isProducer, EntryD.isConsumer, EntryD.isSelf, EntryD.isAssigned, hc,
            if_true, Bool.false_eq_true, if_false, Nat.add_zero, Option.isNone_some]
        have e2 : configured c (.selfKey p :: es) =
            configured { c with selfKey := some (dotted p) } es := by
          simp [configured, producersOf, consumersOf, selfOf, assignedOf, hcp]
        rw [e1, e2]
        exact applyEntries_spec es _ hs2
      · rw [if_neg hc]
        refine .inr ⟨fun h => hc ?_, rfl⟩
        obtain ⟨_, _, _, h2, _⟩ := h
        simp only [List.countP_cons, EntryD.isSelf, if_true] at h2
        by_cases hp : c.selfKey.isNone = true
        · exact hp
        · rw [if_neg hp] at h2
          omega
    | assignedKey p =>
      simp only [applyEntry]
      by_cases hc : c.assignedKey.isNone
      · rw [if_pos hc, Option.bind_some]
        have hcp : c.assignedKey = none := by simpa using hc
        have e1 : Once c (.assignedKey p :: es) ↔ Once { c with assignedKey := some (dotted p) } es := by
          simp only [Once, List.mem_cons, forall_eq_or_imp, true_and, List.countP_cons,
            EntryD.isProducer, EntryD.isConsumer, EntryD.isSelf, EntryD.isAssigned, hc,
            if_true, Bool.false_eq_true, if_false, Nat.add_zero, Option.isNone_some]
        have e2 : configured c (.assignedKey p :: es) =
            configured { c with assignedKey := some (dotted p) } es := by
          simp [configured, producersOf, consumersOf, selfOf, assignedOf, hcp]
        rw [e1, e2]
        exact applyEntries_spec es _ hs2
      · rw [if_neg hc]
        refine .inr ⟨fun h => hc ?_, rfl⟩
        obtain ⟨_, _, _, _, h2⟩ := h
        simp only [List.countP_cons, EntryD.isAssigned, if_true] at h2
        by_cases hp : c.assignedKey.isNone = true
        · exact hp
        · rw [if_neg hp] at h2
          omega


theorem self_cases : ∀ (es : List EntryD), es.countP EntryD.isSelf ≤ 1 →
    (es.any EntryD.isSelf = false ∧ selfOf es = none ∧ ∀ p, EntryD.selfKey p ∉ es) ∨
    (∃ p, EntryD.selfKey p ∈ es ∧ selfOf es = some (dotted p) ∧ es.any EntryD.isSelf = true ∧
      ∀ q, EntryD.selfKey q ∈ es → q = p)
  | [], _ => .inl ⟨rfl, rfl, by simp⟩
  | .selfKey p :: es, h => by
    right
    refine ⟨p, List.mem_cons_self, rfl, rfl, ?_⟩
    intro q hq
    rcases List.mem_cons.1 hq with h2 | h2
    · exact EntryD.selfKey.inj h2
    · have : 0 < es.countP EntryD.isSelf := List.countP_pos_iff.2 ⟨_, h2, rfl⟩
      simp only [List.countP_cons, EntryD.isSelf, if_true] at h
      omega
  | .producer ts :: es, h => by
    rcases self_cases es (by simpa [List.countP_cons, EntryD.isSelf] using h) with
      ⟨h1, h2, h3⟩ | ⟨p, h1, h2, h3, h4⟩
    · exact .inl ⟨by simpa [EntryD.isSelf] using h1, h2, by simpa using h3⟩
    · exact .inr ⟨p, List.mem_cons_of_mem _ h1, h2, by simp [h3],
        fun q hq => h4 q (by simpa using hq)⟩
  | .consumer ts :: es, h => by
    rcases self_cases es (by simpa [List.countP_cons, EntryD.isSelf] using h) with
      ⟨h1, h2, h3⟩ | ⟨p, h1, h2, h3, h4⟩
    · exact .inl ⟨by simpa [EntryD.isSelf] using h1, h2, by simpa using h3⟩
    · exact .inr ⟨p, List.mem_cons_of_mem _ h1, h2, by simp [h3],
        fun q hq => h4 q (by simpa using hq)⟩
  | .assignedKey ts :: es, h => by
    rcases self_cases es (by simpa [List.countP_cons, EntryD.isSelf] using h) with
      ⟨h1, h2, h3⟩ | ⟨p, h1, h2, h3, h4⟩
    · exact .inl ⟨by simpa [EntryD.isSelf] using h1, h2, by simpa using h3⟩
    · exact .inr ⟨p, List.mem_cons_of_mem _ h1, h2, by simp [h3],
        fun q hq => h4 q (by simpa using hq)⟩

theorem assigned_cases : ∀ (es : List EntryD), es.countP EntryD.isAssigned ≤ 1 →
    (es.any EntryD.isAssigned = false ∧ assignedOf es = none ∧ ∀ p, EntryD.assignedKey p ∉ es) ∨
    (∃ p, EntryD.assignedKey p ∈ es ∧ assignedOf es = some (dotted p) ∧
      es.any EntryD.isAssigned = true ∧ ∀ q, EntryD.assignedKey q ∈ es → q = p)
  | [], _ => .inl ⟨rfl, rfl, by simp⟩
  | .assignedKey p :: es, h => by
    right
    refine ⟨p, List.mem_cons_self, rfl, rfl, ?_⟩
    intro q hq
    rcases List.mem_cons.1 hq with h2 | h2
    · exact EntryD.assignedKey.inj h2
    · have : 0 < es.countP EntryD.isAssigned := List.countP_pos_iff.2 ⟨_, h2, rfl⟩
      simp only [List.countP_cons, EntryD.isAssigned, if_true] at h
      omega
  | .producer ts :: es, h => by
    rcases assigned_cases es (by simpa [List.countP_cons, EntryD.isAssigned] using h) with
      ⟨h1, h2, h3⟩ | ⟨p, h1, h2, h3, h4⟩
    · exact .inl ⟨by simpa [EntryD.isAssigned] using h1, h2, by simpa using h3⟩
    · exact .inr ⟨p, List.mem_cons_of_mem _ h1, h2, by simp [h3],
        fun q hq => h4 q (by simpa using hq)⟩
  | .consumer ts :: es, h => by
    rcases assigned_cases es (by simpa [List.countP_cons, EntryD.isAssigned] using h) with
      ⟨h1, h2, h3⟩ | ⟨p, h1, h2, h3, h4⟩
    · exact .inl ⟨by simpa [EntryD.isAssigned] using h1, h2, by simpa using h3⟩
    · exact .inr ⟨p, List.mem_cons_of_mem _ h1, h2, by simp [h3],
        fun q hq => h4 q (by simpa using hq)⟩
  | .selfKey ts :: es, h => by
    rcases assigned_cases es (by simpa [List.countP_cons, EntryD.isAssigned] using h) with
      ⟨h1, h2, h3⟩ | ⟨p, h1, h2, h3, h4⟩
    · exact .inl ⟨by simpa [EntryD.isAssigned] using h1, h2, by simpa using h3⟩
    · exact .inr ⟨p, List.mem_cons_of_mem _ h1, h2, by simp [h3],
        fun q hq => h4 q (by simpa using hq)⟩

theorem producers_ne : ∀ (es : List EntryD), (∀ e ∈ es, e.Shape) →
    ((producersOf es).isEmpty = true ↔ es.countP EntryD.isProducer = 0)
  | [], _ => by simp [producersOf]
  | e :: es, h => by
    have ih := producers_ne es (fun x hx => h x (List.mem_cons_of_mem _ hx))
    have he := h e List.mem_cons_self
    cases e with
    | producer ts =>
      have : ts ≠ [] := he
      simp [producersOf, List.countP_cons, EntryD.isProducer, this]
    | consumer ts => simpa [producersOf, List.countP_cons, EntryD.isProducer] using ih
    | selfKey ts => simpa [producersOf, List.countP_cons, EntryD.isProducer] using ih
    | assignedKey ts => simpa [producersOf, List.countP_cons, EntryD.isProducer] using ih

theorem consumers_ne : ∀ (es : List EntryD), (∀ e ∈ es, e.Shape) →
    ((consumersOf es).isEmpty = true ↔ es.countP EntryD.isConsumer = 0)
  | [], _ => by simp [consumersOf]
  | e :: es, h => by
    have ih := consumers_ne es (fun x hx => h x (List.mem_cons_of_mem _ hx))
    have he := h e List.mem_cons_self
    cases e with
    | consumer ts =>
      have : ts ≠ [] := he
      simp [consumersOf, List.countP_cons, EntryD.isConsumer, this]
    | producer ts => simpa [consumersOf, List.countP_cons, EntryD.isConsumer] using ih
    | selfKey ts => simpa [consumersOf, List.countP_cons, EntryD.isConsumer] using ih
    | assignedKey ts => simpa [consumersOf, List.countP_cons, EntryD.isConsumer] using ih

/-- Several service structs. -/
def addAll (pr : Prot.Store) (l : List (Name × List Prot.Field)) : Prot.Store :=
  l.foldl (fun p x => p.addService x.1 x.2) pr

theorem sound_addAll : ∀ (l : List (Name × List Prot.Field)) {pr : Prot.Store}, Sound pr →
    Sound (addAll pr l)
  | [], _, h => h
  | x :: l, _, h => sound_addAll l (Prot.sound_addService h x.1 x.2)

theorem known_addAll : ∀ (l : List (Name × List Prot.Field)) {pr : Prot.Store}, Sound pr →
    ∀ p, Known (addAll pr l) p ↔ Known pr p ∨ ∃ n ∈ l.map Prod.fst, p = servicePath n
  | [], pr, _, p => by simp [addAll]
  | x :: l, pr, h, p => by
    have ih := known_addAll l (Prot.sound_addService h x.1 x.2) p
    have e : addAll pr (x :: l) = addAll (pr.addService x.1 x.2) l := rfl
    rw [e, ih, Prot.known_addService h]
    have e2 : (p = [Prot.serviceGroup, x.1]) ↔ p = servicePath x.1 := Iff.rfl
    rw [e2, List.map_cons]
    constructor
    · rintro ((h | h) | ⟨n, h1, h2⟩)
      · exact .inl h
      · exact .inr ⟨_, List.mem_cons_self, h⟩
      · exact .inr ⟨n, List.mem_cons_of_mem _ h1, h2⟩
    · rintro (h | ⟨n, h1, h2⟩)
      · exact .inl (.inl h)
      · rcases List.mem_cons.1 h1 with h | h
        · exact .inl (.inr (h ▸ h2))
        · exact .inr ⟨n, h, h2⟩

/-- Service structs for the self key. -/
def selfStructs (own : Bool) : List (Name × List Prot.Field) :=
  (if own then [] else [("SelfKeyRequest".toList, [strField "uuid".toList true])]) ++
    [("SelfKeyResponse".toList, [strField "uuid".toList false])]

def assignedStructs (own : Bool) : List (Name × List Prot.Field) :=
  if own then [] else [("AssignedKey".toList, [])]

def restStructs : List (Name × List Prot.Field) :=
  [("HashRequest".toList, [strField "protocol".toList false, strField "workflow".toList false]),
   ("HashResponse".toList, [strField "error".toList true]),
   ("BeaconConfirmation".toList, [strField "error".toList true]),
   ("ConnectConfirmationBeacon".toList, [])]

theorem addAll_append (pr : Prot.Store) (l m : List (Name × List Prot.Field)) :
    addAll pr (l ++ m) = addAll (addAll pr l) m := by simp [addAll, List.foldl_append]

theorem selfStructs_names (es : List EntryD) :
    (selfStructs (es.any EntryD.isSelf)).map Prod.fst = selfServices es := by
  unfold selfStructs selfServices
  cases es.any EntryD.isSelf <;> rfl

theorem allStructs_names (es : List EntryD) :
    (selfStructs (es.any EntryD.isSelf) ++ assignedStructs (es.any EntryD.isAssigned) ++
      restStructs).map Prod.fst = servicesOf es := by
  rw [List.map_append, List.map_append, selfStructs_names, servicesOf]
  congr 1
  unfold assignedStructs
  cases es.any EntryD.isAssigned <;> rfl

/-- Closing a config: its references are looked up one after the other. -/
theorem close_config {pr : Prot.Store} (hs : Sound pr) {es : List EntryD} (hsh : ∀ e ∈ es, e.Shape)
    (h1 : es.countP EntryD.isSelf ≤ 1) (h2 : es.countP EntryD.isAssigned ≤ 1) :
    let good := (∀ p, EntryD.selfKey p ∈ es → Known pr p) ∧
      (∀ p, EntryD.assignedKey p ∈ es → Known pr p ∨ ∃ n ∈ selfServices es, p = servicePath n) ∧
      es.countP EntryD.isProducer ≠ 0 ∧ es.countP EntryD.isConsumer ≠ 0
    let c := configured (conf [] [] none none [.word] .nothing) es
    (good ∧ ∃ c2, c.close pr = some (c2, addAll pr (selfStructs (es.any EntryD.isSelf) ++
        assignedStructs (es.any EntryD.isAssigned) ++ restStructs)) ∧ configView c2 = configOf es) ∨
    (¬ good ∧ c.close pr = none) := by
  intro good c
  have hcS : c.selfKey = selfOf es := by simp [c, configured, conf]
  have hcA : c.assignedKey = assignedOf es := by simp [c, configured, conf]
  have hcP : c.producer = producersOf es := by simp [c, configured, conf]
  have hcC : c.consumer = consumersOf es := by simp [c, configured, conf]
  have n1 : serviceRef "SelfKeyRequest".toList = serviceStruct "SelfKeyRequest".toList := by decide
  have n2 : serviceRef "AssignedKey".toList = serviceStruct "AssignedKey".toList := by decide
  -- the self key
  have hself : ((∀ p, EntryD.selfKey p ∈ es → Known pr p) ∧ ∃ c1, c.closeSelf pr =
      some (c1, addAll pr (selfStructs (es.any EntryD.isSelf))) ∧
        c1.selfKey = some ((selfOf es).getD (serviceStruct "SelfKeyRequest".toList)) ∧
        c1.assignedKey = c.assignedKey ∧ c1.producer = c.producer ∧ c1.consumer = c.consumer) ∨
      (¬ (∀ p, EntryD.selfKey p ∈ es → Known pr p) ∧ c.closeSelf pr = none) := by
    rcases self_cases es h1 with ⟨a1, a2, a3⟩ | ⟨p, a1, a2, a3, a4⟩
    · left
      refine ⟨fun p hp => absurd hp (a3 p), ?_⟩
      rw [a2] at hcS
      unfold Config.closeSelf
      rw [hcS, a1, a2]
      exact ⟨_, rfl, by rw [n1]; rfl, rfl, rfl, rfl⟩
    · rw [a2] at hcS
      have hd := defined_iff hs (hsh _ a1 : PathShape p)
      unfold Config.closeSelf
      rw [hcS, a3, a2]
      by_cases hk : defined pr (dotted p) = true
      · left
        refine ⟨fun q hq => a4 q hq ▸ hd.1 hk, ?_⟩
        simp only [hk, if_true]
        exact ⟨c, rfl, hcS, rfl, rfl, rfl⟩
      · right
        refine ⟨fun h => hk (hd.2 (h p a1)), ?_⟩
        simp only [hk, Bool.false_eq_true, if_false]
  unfold Config.close
  rcases hself with ⟨g1, c1, e1, f1, f2, f3, f4⟩ | ⟨g1, e1⟩
  · have hs1 := sound_addAll (selfStructs (es.any EntryD.isSelf)) hs
    have hk1 := known_addAll (selfStructs (es.any EntryD.isSelf)) hs
    rw [selfStructs_names] at hk1
    rw [addAll_append, addAll_append]
    generalize addAll pr (selfStructs (es.any EntryD.isSelf)) = p1 at e1 hs1 hk1 ⊢
    -- the assigned key
    have hass : ((∀ p, EntryD.assignedKey p ∈ es → Known pr p ∨
          ∃ n ∈ selfServices es, p = servicePath n) ∧ ∃ c2, c1.closeAssigned p1 =
        some (c2, addAll p1 (assignedStructs (es.any EntryD.isAssigned))) ∧
        c2.selfKey = c1.selfKey ∧ c2.assignedKey = some ((assignedOf es).getD
          (serviceStruct "AssignedKey".toList)) ∧
        c2.producer = c.producer ∧ c2.consumer = c.consumer) ∨
        (¬ (∀ p, EntryD.assignedKey p ∈ es → Known pr p ∨
          ∃ n ∈ selfServices es, p = servicePath n) ∧ c1.closeAssigned p1 = none) := by
      rcases assigned_cases es h2 with ⟨a1, a2, a3⟩ | ⟨p, a1, a2, a3, a4⟩
      · left
        refine ⟨fun p hp => absurd hp (a3 p), ?_⟩
        rw [hcA, a2] at f2
        unfold Config.closeAssigned
        rw [f2, a1, a2]
        exact ⟨_, rfl, rfl, by rw [n2]; rfl, f3, f4⟩
      · rw [hcA, a2] at f2
        have hd := defined_iff hs1 (hsh _ a1 : PathShape p)
        unfold Config.closeAssigned
        rw [f2, a3, a2]
        by_cases hk : defined p1 (dotted p) = true
        · left
          refine ⟨fun q hq => a4 q hq ▸ (hk1 p).1 (hd.1 hk), ?_⟩
          simp only [hk, if_true]
          exact ⟨c1, rfl, rfl, f2, f3, f4⟩
        · right
          refine ⟨fun h => hk (hd.2 ((hk1 p).2 (h p a1))), ?_⟩
          simp only [hk, Bool.false_eq_true, if_false]
    rw [e1]
    rcases hass with ⟨g2, c2, e2, k1, k2, k3, k4⟩ | ⟨g2, e2⟩
    · simp only [e2]
      have hp := producers_ne es hsh
      have hc := consumers_ne es hsh
      rw [k3, k4, hcP, hcC]
      by_cases hpe : (producersOf es).isEmpty = true
      · right
        refine ⟨fun h => h.2.2.1 (hp.1 hpe), ?_⟩
        rw [if_pos hpe]
      · by_cases hce : (consumersOf es).isEmpty = true
        · right
          refine ⟨fun h => h.2.2.2 (hc.1 hce), ?_⟩
          rw [if_neg hpe, if_pos hce]
        · left
          refine ⟨⟨g1, g2, fun h => hpe (hp.2 h), fun h => hce (hc.2 h)⟩, { c2 with closed := true }, ?_,
            ?_⟩
          · rw [if_neg hpe, if_neg hce, ← hcP, ← hcC, ← k3, ← k4]
            simp only [addAll, restStructs, List.foldl_cons, List.foldl_nil]
          · have : configOf es = (producersOf es, consumersOf es,
                some ((selfOf es).getD (serviceStruct "SelfKeyRequest".toList)),
                some ((assignedOf es).getD (serviceStruct "AssignedKey".toList))) := rfl
            rw [this]
            simp only [configView, k1, k2, k3, k4, f1, hcP, hcC]
    · right
      refine ⟨fun h => g2 h.2.1, ?_⟩
      simp only [e2]
  · right
    refine ⟨fun h => g1 h.1, ?_⟩
    simp only [e1]

/-- A config as a whole. -/
theorem config_result {pr : Prot.Store} (hs : Sound pr) {es : List EntryD}
    (hsh : ∀ e ∈ es, e.Shape) :
    ((Decl.config es).Fine (Known pr) ∧ ∃ c pr2,
      (applyEntries (conf [] [] none none [.word] .nothing) es).bind (fun c => c.close pr) =
        some (c, pr2) ∧ configView c = configOf es ∧ Sound pr2 ∧
        ∀ p, Known pr2 p ↔ knownAfter (Known pr) (.config es) p) ∨
    (¬ (Decl.config es).Fine (Known pr) ∧
      (applyEntries (conf [] [] none none [.word] .nothing) es).bind (fun c => c.close pr) = none) := by
  have honce : ∀ (P : Prop), (Decl.config es).Fine (Known pr) →
      (Once (conf [] [] none none [.word] .nothing) es → P) → P := by
    intro P h hP
    obtain ⟨f1, f2, f3, f4, f5⟩ := h
    refine hP ⟨?_, ?_, ?_, ?_, ?_⟩
    · intro e he
      have := f1 e he
      cases e with
      | producer ts => exact this
      | consumer ts => exact this
      | _ => trivial
    all_goals simp only [conf, List.isEmpty_nil, Option.isNone_none, if_true]; omega
  rcases applyEntries_spec es (conf [] [] none none [.word] .nothing) hsh with ⟨h1, h2⟩ | ⟨h1, h2⟩
  · obtain ⟨o1, o2, o3, o4, o5⟩ := h1
    simp only [conf, List.isEmpty_nil, Option.isNone_none, if_true] at o2 o3 o4 o5
    rw [h2, Option.bind_some]
    rcases close_config hs hsh (by omega) (by omega) with ⟨⟨g1, g2, g3, g4⟩, c2, e1, e2⟩ | ⟨g, e1⟩
    · left
      refine ⟨⟨?_, by omega, by omega, by omega, by omega⟩, c2, _, e1, e2, sound_addAll _ hs, ?_⟩
      · intro e he
        have := o1 e he
        cases e with
        | producer ts => exact this
        | consumer ts => exact this
        | selfKey p => exact g1 p he
        | assignedKey p => exact g2 p he
      · intro p
        rw [known_addAll _ hs, allStructs_names]
        rfl
    · right
      refine ⟨fun h => g ?_, e1⟩
      obtain ⟨f1, f2, f3, f4, f5⟩ := h
      exact ⟨fun p hp => f1 _ hp, fun p hp => f1 _ hp, by omega, by omega⟩
  · right
    refine ⟨fun h => honce _ h h1, ?_⟩
    rw [h2]
    rfl

end Verif.Flow.Syntax
