import Verif.Proofs.ProtocolParser
set_option autoImplicit false
/-!
Invariants of the protocol store over everything the parser can do with it.
-/
namespace Verif.Prot

open Verif

/-- One change of the store by the parser. -/
inductive StoreOp : Store → Store → Prop where
  | openStruct {s s2 : Store} {w : Name} : s.openStruct w = .ok s2 → StoreOp s s2
  | openEnum {s s2 : Store} {w : Name} : s.openEnum w = .ok s2 → StoreOp s s2
  | openGroup {s s2 : Store} {w : Name} : s.openGroup w = .ok s2 → StoreOp s s2
  | setFieldType {s s2 : Store} {w : Name} : s.setFieldType w = .ok s2 → StoreOp s s2
  | setRepeated {s s2 : Store} : s.setRepeated = .ok s2 → StoreOp s s2
  | setOptional {s s2 : Store} : s.setOptional = .ok s2 → StoreOp s s2
  | setFieldName {s s2 : Store} {w : Name} : s.setFieldName w = .ok s2 → StoreOp s s2
  | closeField {s s2 : Store} : s.closeField = .ok s2 → StoreOp s s2
  | setEnumType {s s2 : Store} {w : Name} : s.setEnumType w = .ok s2 → StoreOp s s2
  | setSimple {s s2 : Store} {w : Name} : s.setSimple w = .ok s2 → StoreOp s s2
  | setEnumName {s s2 : Store} {w : Name} : s.setEnumName w = .ok s2 → StoreOp s s2
  | close {s s2 : Store} : s.close = .ok s2 → StoreOp s s2

/-- Stores the parser can reach. -/
inductive Reach : Store → Prop where
  | new : Reach Store.new
  | step {s s2 : Store} : Reach s → StoreOp s s2 → Reach s2

theorem onTok_store {p p2 : PState} {t : Tok} (h : onTok p t = .go p2) :
    p2.store = p.store ∨ StoreOp p.store p2.store := by
  cases t with
  | word w n =>
    simp only [onTok, onWord] at h
    repeat' split at h
    all_goals first
      | (simp at h; done)
      | (simp only [Next.go.injEq] at h; subst h; exact .inl rfl)
      | (obtain ⟨s, hs, rfl⟩ := after_go h; first
          | exact .inr (.openStruct hs) | exact .inr (.openEnum hs) | exact .inr (.openGroup hs)
          | exact .inr (.setEnumName hs) | exact .inr (.setFieldName hs)
          | exact .inr (.setSimple hs) | exact .inr (.setEnumType hs)
          | exact .inr (.setFieldType hs))
  | openStruct =>
    simp only [onTok] at h
    split at h
    · obtain ⟨s, hs, rfl⟩ := after_go h
      simp only [Store.openBody] at hs
      split at hs <;> simp at hs
      exact .inl hs.symm
    · simp at h
  | closeStruct =>
    simp only [onTok] at h
    split at h
    · obtain ⟨s, hs, rfl⟩ := after_go h
      exact .inr (.close hs)
    · simp at h
  | semicolon =>
    simp only [onTok] at h
    split at h
    · obtain ⟨s, hs, rfl⟩ := after_go h
      split at hs
      · simp at hs; exact .inl hs.symm
      · exact .inr (.closeField hs)
    · simp at h
  | repeated =>
    simp only [onTok] at h
    split at h
    · obtain ⟨s, hs, rfl⟩ := after_go h
      exact .inr (.setRepeated hs)
    · simp at h
  | optional =>
    simp only [onTok] at h
    split at h
    · obtain ⟨s, hs, rfl⟩ := after_go h
      exact .inr (.setOptional hs)
    · simp at h
  | pathSpliter =>
    simp only [onTok] at h
    split at h
    · simp only [Next.go.injEq] at h; subst h; exact .inl rfl
    · simp at h
  | eof => simp [onTok] at h

theorem step_reach {p p2 : PState} {c c2 : List Char} (h : step p c = .go (p2, c2))
    (hr : Reach p.store) : Reach p2.store := by
  unfold step at h
  split at h
  · simp at h
  · split at h
    · rename_i p3 ht
      simp only [Next.go.injEq, Prod.mk.injEq] at h
      obtain ⟨rfl, rfl⟩ := h
      rcases onTok_store ht with e | e
      · rw [e]; exact hr
      · exact .step hr e
    · simp at h

/-- Induction over a run: the last round happens in a reachable state. -/
theorem loop_last : ∀ (n : Nat) (p : PState) (c : List Char) (o : Outcome),
    loop n p c = some o → Reach p.store →
    ∃ (q : PState) (d : List Char), Reach q.store ∧ step q d = .halt o
  | 0, _, _, _, h, _ => by simp [loop] at h
  | n + 1, p, c, o, h, hr => by
    simp only [loop] at h
    split at h
    · rename_i p2 c2 hs
      exact loop_last n p2 c2 o h (step_reach hs hr)
    · rename_i o2 hs
      simp only [Option.some.injEq] at h
      subst h
      exact ⟨p, c, hr, hs⟩

theorem after_halt {r : Res Store} {e : List Expect} {b : Bool} {o : Outcome}
    (h : after r e b = .halt o) : (r = .err ∧ o = .stopped) ∨ (r = .panic ∧ o = .panicked) := by
  cases r <;> simp_all [after]

theorem step_accepted {q : PState} {d : List Char} {s : Store}
    (h : step q d = .halt (.accepted s)) : q.store = s ∧ q.errs = false := by
  unfold step at h
  split at h
  · simp at h
  · rename_i t off _
    split at h
    · simp at h
    · rename_i o ho
      simp only [Next.halt.injEq] at h
      subst h
      cases t with
      | eof =>
        simp only [onTok, Next.halt.injEq] at ho
        split at ho
        · simp at ho
        · simp at ho; exact ⟨ho, by simp_all⟩
      | word w n =>
        simp only [onTok, onWord] at ho
        repeat' split at ho
        all_goals first
          | (simp at ho; done)
          | (have := after_halt ho; simp at this)
      | _ =>
        simp only [onTok] at ho
        split at ho
        all_goals first
          | (simp at ho; done)
          | (have := after_halt ho; simp at this)

theorem accepted_reach {text : List Char} {s : Store} (h : Parses text (.accepted s)) : Reach s := by
  obtain ⟨n, hn⟩ := h
  obtain ⟨q, d, hr, hs⟩ := loop_last n _ _ _ hn (Reach.new)
  rw [← (step_accepted hs).1]
  exact hr

/-! ### Ids -/

/-- All ids handed out that are in the store, with those of open declarations. -/
def allIds (s : Store) : List Nat :=
  s.structs.map Struct.id ++ (s.structs.flatMap (fun t => t.fields.map Field.id) ++
    (s.enums.map Enum.id ++ (s.groups.map Group.id ++
      ((s.cStruct.toList.map Struct.id ++
        (s.cStruct.toList.flatMap (fun t => t.fields.map Field.id) ++
        (s.cEnum.toList.map Enum.id ++ (s.cGroup.toList.map Group.id ++
          s.cField.toList.map Field.id))))))))

/-- Every id is used once and lies in 1..sequence. -/
def IdsOk (s : Store) : Prop :=
  ∀ i, (allIds s).count i ≤ (if 1 ≤ i ∧ i ≤ s.sequence then 1 else 0)

theorem idsOk_new : IdsOk Store.new := by
  intro i; simp [allIds, Store.new]

theorem acceptType_id {f f2 : Field} {s : Store} {own : Nat} (h : f.acceptType s own = .ok f2) :
    f2.id = f.id ∧ f2.name = f.name ∧ f2.typePath = f.typePath ∧ f2.repeated = f.repeated ∧
      f2.optional = f.optional ∧ f2.parent = f.parent := by
  unfold Field.acceptType at h
  repeat' split at h
  all_goals first
    | (simp at h; done)
    | (simp only [Res.ok.injEq] at h; subst h; simp_all)

theorem count_eraseP_id (gs : List Group) (top : Nat) (p : Group) (i : Nat)
    (hf : gs.find? (fun x => x.id == top) = some p) :
    ((gs.eraseP (fun x => x.id == top)).map Group.id).count i + [p.id].count i
      = (gs.map Group.id).count i := by
  induction gs with
  | nil => simp at hf
  | cons g gs ih =>
    simp only [List.find?_cons] at hf
    split at hf
    · rename_i hg
      simp only [Option.some.injEq] at hf
      subst hf
      rw [List.eraseP_cons_of_pos (by simpa using hg)]
      simp [List.count_cons]
    · rename_i hg
      rw [List.eraseP_cons_of_neg (by simpa using hg)]
      have := ih hf
      simp only [List.map_cons, List.count_cons] at this ⊢
      omega

theorem idsOk_op {s s2 : Store} (h : StoreOp s s2) (hi : IdsOk s) : IdsOk s2 := by
  intro i
  have hi := hi i
  cases h with
  | openStruct h =>
    simp only [Store.openStruct] at h
    split at h
    · simp at h
    · split at h
      · simp at h
      · simp only [Res.ok.injEq] at h
        subst h
        cases hg : s.cGroup <;>
          simp_all [allIds, List.count_cons, List.count_append] <;>
          (repeat' split at hi) <;> (repeat' split) <;> omega
  | openEnum h =>
    simp only [Store.openEnum] at h
    split at h
    · simp at h
    · split at h
      · simp at h
      · simp only [Res.ok.injEq] at h
        subst h
        cases hg : s.cGroup <;>
          simp_all [allIds, List.count_cons, List.count_append] <;>
          (repeat' split at hi) <;> (repeat' split) <;> omega
  | openGroup h =>
    simp only [Store.openGroup] at h
    split at h
    · simp at h
    · split at h
      · simp at h
      · simp only [Res.ok.injEq] at h
        subst h
        cases hg : s.cGroup <;>
          simp_all [allIds, List.count_cons, List.count_append] <;>
          (repeat' split at hi) <;> (repeat' split) <;> omega
  | setFieldType h =>
    simp only [Store.setFieldType] at h
    split at h
    · simp at h
    · split at h <;>
        (simp only [Res.ok.injEq] at h; subst h
         simp_all [allIds, List.count_cons, List.count_append]
         try ((repeat' split at hi) <;> (repeat' split) <;> omega))
  | setRepeated h =>
    simp only [Store.setRepeated] at h
    repeat' split at h
    all_goals first
      | (simp at h; done)
      | (simp only [Res.ok.injEq] at h; subst h
         simp_all [allIds, List.count_cons, List.count_append])
  | setOptional h =>
    simp only [Store.setOptional] at h
    split at h
    · simp only [Res.ok.injEq] at h; subst h
      simp_all [allIds, List.count_cons, List.count_append]
    · simp at h
  | setFieldName h =>
    simp only [Store.setFieldName] at h
    split at h
    · simp at h
    · split at h
      · simp at h
      · simp only [Res.bind_eq_ok, Res.pure_eq, Res.ok.injEq] at h
        obtain ⟨f2, h1, rfl⟩ := h
        have := (acceptType_id h1).1
        simp_all [allIds, List.count_cons, List.count_append]
  | closeField h =>
    simp only [Store.closeField] at h
    split at h
    · simp at h
    · split at h
      · simp at h
      · split at h
        · simp at h
        · simp only [Res.ok.injEq] at h; subst h
          simp_all [allIds, List.count_cons, List.count_append]
          omega
  | setEnumType h =>
    simp only [Store.setEnumType] at h
    repeat' split at h
    all_goals first
      | (simp at h; done)
      | (simp only [Res.ok.injEq] at h; subst h
         simp_all [allIds, List.count_cons, List.count_append])
  | setSimple h =>
    simp only [Store.setSimple] at h
    repeat' split at h
    all_goals first
      | (simp at h; done)
      | (simp only [Res.ok.injEq] at h; subst h
         simp_all [allIds, List.count_cons, List.count_append])
  | setEnumName h =>
    simp only [Store.setEnumName] at h
    split at h
    · simp at h
    · split at h
      · simp at h
      · simp only [Res.bind_eq_ok, Res.pure_eq, Res.ok.injEq] at h
        obtain ⟨f2, h1, rfl⟩ := h
        simp_all [allIds, List.count_cons, List.count_append]
  | close h =>
    simp only [Store.close] at h
    split at h
    · simp only [Res.ok.injEq] at h; subst h
      simp_all [allIds, List.count_cons, List.count_append]
      omega
    · split at h
      · simp only [Res.ok.injEq] at h; subst h
        simp_all [allIds, List.count_cons, List.count_append]
        omega
      · split at h
        · simp at h
        · split at h
          · simp at h
          · split at h
            · simp only [Res.ok.injEq] at h; subst h
              simp_all [allIds, List.count_cons, List.count_append]
            · split at h
              · simp at h
              · rename_i p hp
                simp only [Res.ok.injEq] at h; subst h
                have := count_eraseP_id _ _ _ i hp
                simp_all [allIds, List.count_cons, List.count_append]
                omega

theorem reach_idsOk {s : Store} (h : Reach s) : IdsOk s := by
  induction h with
  | new => exact idsOk_new
  | step _ h ih => exact idsOk_op h ih

end Verif.Prot
