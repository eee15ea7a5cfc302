import Verif.Proofs.ProtocolStore
import Verif.Spec.ProtocolSyntax
set_option autoImplicit false
/-!
All names of an accepted protocol are identifiers.
-/
namespace Verif.Prot

open Verif Verif.Prot.Syntax

/-! ### Words -/

/-- Nothing yet or a name. -/
def Started (str : Name) : Prop := str = [] ∨ Ident str

theorem started_snoc {str : Name} {c : Char} (h : Started str) (h1 : str = [] → isDigit c = false)
    (h2 : IdChar c) : Ident (str ++ [c]) := by
  rcases h with rfl | ⟨d, ds, rfl, h3, h4⟩
  · exact ⟨c, [], rfl, h1 rfl, by intro x hx; rw [List.mem_singleton.mp hx]; exact h2⟩
  · refine ⟨d, ds ++ [c], rfl, h3, ?_⟩
    intro x hx
    rcases List.mem_append.mp hx with hx | hx
    · exact h4 x hx
    · rw [List.mem_singleton.mp hx]; exact h2

theorem started_word {str : Name} (h : Started str) (hn : ¬ str.isEmpty = true) : Ident str := by
  rcases h with rfl | h
  · exact absurd rfl hn
  · exact h

theorem lexLoop_word : ∀ (cs : List Char) (str : Name) (pass : Nat) (w : Name) (n : Option Char) (off : Nat),
    Started str → lexLoop str pass cs = some (.word w n, off) → Ident w
  | [], str, pass, w, n, off, hs, h => by
    simp only [lexLoop] at h
    split at h
    · simp at h
    · rename_i hn
      simp only [Option.some.injEq, Prod.mk.injEq, Tok.word.injEq] at h
      rw [← h.1.1]
      exact started_word hs hn
  | c :: cs, str, pass, w, n, off, hs, h => by
    have ih := fun s => lexLoop_word cs s (pass + 1) w n off
    simp only [lexLoop] at h
    split at h
    · simp at h
    split at h
    · simp at h
    rename_i hd
    split at h
    · exact ih _ hs h
    rename_i hsp
    split at h
    · repeat' split at h
      all_goals simp at h
    rename_i hb
    split at h
    · exact ih _ hs h
    rename_i hbr
    split at h
    · split at h <;> simp at h
    split at h
    · rename_i h5
      simp only [Option.some.injEq, Prod.mk.injEq, Tok.word.injEq] at h
      rw [← h.1.1]
      exact started_word hs (fun he => hsp (by rw [h5, he]; rfl))
    split at h
    · rename_i h5
      simp only [Option.some.injEq, Prod.mk.injEq, Tok.word.injEq] at h
      rw [← h.1.1]
      refine started_word hs (fun he => ?_)
      rcases Bool.or_eq_true_iff.mp h5 with h6 | h6
      · exact hb (by rw [h6, he]; rfl)
      · exact hbr (by rw [h6, he]; rfl)
    split at h
    · simp at h
    · rename_i h7
      refine ih _ (.inr (started_snoc hs (fun he => ?_) ?_)) h
      · cases hdc : isDigit c with
        | false => rfl
        | true => exact absurd (by rw [hdc, he]; rfl) hd
      · unfold IdChar
        cases ha : isAlnum c with
        | true => exact .inl rfl
        | false =>
          right
          rw [ha] at h7
          simpa using h7

theorem lex_word {cs : List Char} {w : Name} {n : Option Char} {off : Nat}
    (h : lex cs = some (.word w n, off)) : Ident w :=
  lexLoop_word cs [] 0 w n off (.inl rfl) h

/-! ### The store -/

/-- All names in a store are identifiers. -/
structure Legal (s : Store) : Prop where
  structs : ∀ t ∈ s.structs, Ident t.name ∧ ∀ f ∈ t.fields, Ident f.name
  enums : ∀ e ∈ s.enums, Ident e.name ∧ ∀ v ∈ e.variants, Ident v.name
  groups : ∀ g ∈ s.groups, Ident g.name
  cStruct : ∀ t, s.cStruct = some t → Ident t.name ∧ ∀ f ∈ t.fields, Ident f.name
  cEnum : ∀ e, s.cEnum = some e → Ident e.name ∧ ∀ v ∈ e.variants, Ident v.name
  cGroup : ∀ g, s.cGroup = some g → Ident g.name

/-- And so is that of the field that can be closed next. -/
structure LegalP (p : PState) : Prop where
  store : Legal p.store
  field : p.expect.contains .semicolon = true ∨ p.expect.contains .fieldOptionalMark = true →
    p.store.cEnum = none → ∃ f, p.store.cField = some f ∧ Ident f.name

theorem legal_cGroup {s : Store} (h : Legal s) (f : Group → Group) (hf : ∀ g, (f g).name = g.name) :
    ∀ g, s.cGroup.map f = some g → Ident g.name := by
  intro g hg
  cases hc : s.cGroup with
  | none => rw [hc] at hg; exact nomatch hg
  | some g0 =>
    rw [hc] at hg
    cases hg
    rw [hf]
    exact h.cGroup g0 hc

theorem acceptType_name {f f2 : Field} {s : Store} {own : Nat} (h : f.acceptType s own = .ok f2) :
    f2.name = f.name := by
  unfold Field.acceptType at h
  repeat' split at h
  all_goals first
    | (simp at h; done)
    | (injection h with h; subst h; rfl)

theorem legal_openStruct {s s2 : Store} {w : Name} (hw : Ident w) (h : Legal s)
    (ho : s.openStruct w = .ok s2) : Legal s2 := by
  unfold Store.openStruct at ho
  split at ho
  · simp at ho
  split at ho
  · simp at ho
  injection ho with ho
  subst ho
  refine ⟨h.structs, h.enums, h.groups, ?_, h.cEnum, legal_cGroup h _ (fun _ => rfl)⟩
  intro t ht
  cases ht
  exact ⟨hw, fun f hf => nomatch hf⟩

theorem legal_openEnum {s s2 : Store} {w : Name} (hw : Ident w) (h : Legal s)
    (ho : s.openEnum w = .ok s2) : Legal s2 := by
  unfold Store.openEnum at ho
  split at ho
  · simp at ho
  split at ho
  · simp at ho
  injection ho with ho
  subst ho
  refine ⟨h.structs, h.enums, h.groups, h.cStruct, ?_, legal_cGroup h _ (fun _ => rfl)⟩
  intro t ht
  cases ht
  exact ⟨hw, fun f hf => nomatch hf⟩

theorem legal_openGroup {s s2 : Store} {w : Name} (hw : Ident w) (h : Legal s)
    (ho : s.openGroup w = .ok s2) : Legal s2 := by
  unfold Store.openGroup at ho
  split at ho
  · simp at ho
  split at ho
  · simp at ho
  injection ho with ho
  subst ho
  refine ⟨h.structs, h.enums, ?_, h.cStruct, h.cEnum, ?_⟩
  · intro g hg
    dsimp only at hg
    split at hg
    · rename_i g0 hc
      rcases List.mem_append.mp hg with hg | hg
      · exact h.groups g hg
      · rw [List.mem_singleton.mp hg]
        exact h.cGroup g0 hc
    · exact h.groups g hg
  · intro g hg
    cases hg
    exact hw

theorem legal_setFieldType {s s2 : Store} {w : Name} (h : Legal s) (ho : s.setFieldType w = .ok s2) :
    Legal s2 := by
  unfold Store.setFieldType at ho
  split at ho
  · simp at ho
  split at ho <;>
  · injection ho with ho
    subst ho
    exact ⟨h.structs, h.enums, h.groups, h.cStruct, h.cEnum, h.cGroup⟩

theorem legal_setRepeated {s s2 : Store} (h : Legal s) (ho : s.setRepeated = .ok s2) : Legal s2 := by
  unfold Store.setRepeated at ho
  split at ho
  · rename_i e hc
    split at ho
    · injection ho with ho
      subst ho
      refine ⟨h.structs, h.enums, h.groups, h.cStruct, ?_, h.cGroup⟩
      intro e2 he
      cases he
      exact h.cEnum e hc
    · simp at ho
  · split at ho
    · injection ho with ho
      subst ho
      exact ⟨h.structs, h.enums, h.groups, h.cStruct, h.cEnum, h.cGroup⟩
    · simp at ho

theorem legal_setOptional {s s2 : Store} (h : Legal s) (ho : s.setOptional = .ok s2) :
    Legal s2 ∧ s2.cEnum = s.cEnum ∧
      ∃ f, s.cField = some f ∧ ∃ f2, s2.cField = some f2 ∧ f2.name = f.name := by
  unfold Store.setOptional at ho
  split at ho
  · rename_i f hf
    injection ho with ho
    subst ho
    exact ⟨⟨h.structs, h.enums, h.groups, h.cStruct, h.cEnum, h.cGroup⟩, rfl, f, hf, _, rfl, rfl⟩
  · simp at ho

theorem legal_setFieldName {s s2 : Store} {w : Name} (h : Legal s) (ho : s.setFieldName w = .ok s2) :
    Legal s2 ∧ ∃ f2, s2.cField = some f2 ∧ f2.name = w := by
  unfold Store.setFieldName at ho
  split at ho
  · simp at ho
  split at ho
  · simp at ho
  · rename_i f hf
    cases ha : ({ f with name := w } : Field).acceptType s s.groupId with
    | ok f2 =>
      rw [ha] at ho
      have ho : Res.ok { s with cField := some f2 } = Res.ok s2 := ho
      injection ho with ho
      subst ho
      exact ⟨⟨h.structs, h.enums, h.groups, h.cStruct, h.cEnum, h.cGroup⟩, f2, rfl, acceptType_name ha⟩
    | err => rw [ha] at ho; exact nomatch (show Res.err = Res.ok s2 from ho)
    | panic => rw [ha] at ho; exact nomatch (show Res.panic = Res.ok s2 from ho)

theorem legal_closeField {s s2 : Store} (h : Legal s) (hf : ∃ f, s.cField = some f ∧ Ident f.name)
    (ho : s.closeField = .ok s2) : Legal s2 := by
  obtain ⟨f, hf, hn⟩ := hf
  unfold Store.closeField at ho
  split at ho
  · simp at ho
  rename_i t ht
  rw [hf] at ho
  dsimp only at ho
  split at ho
  · simp at ho
  injection ho with ho
  subst ho
  refine ⟨h.structs, h.enums, h.groups, ?_, h.cEnum, h.cGroup⟩
  intro t2 h2
  cases h2
  refine ⟨(h.cStruct t ht).1, ?_⟩
  intro x hx
  rcases List.mem_append.mp hx with hx | hx
  · exact (h.cStruct t ht).2 x hx
  · rw [List.mem_singleton.mp hx]
    exact hn

theorem legal_setEnumType {s s2 : Store} {w : Name} (h : Legal s) (ho : s.setEnumType w = .ok s2) :
    Legal s2 := by
  unfold Store.setEnumType at ho
  split at ho
  · simp at ho
  rename_i e he
  split at ho <;>
  · injection ho with ho
    subst ho
    refine ⟨h.structs, h.enums, h.groups, h.cStruct, ?_, h.cGroup⟩
    intro e2 h2
    cases h2
    exact h.cEnum e he

theorem legal_setSimple {s s2 : Store} {w : Name} (hw : Ident w) (h : Legal s)
    (ho : s.setSimple w = .ok s2) : Legal s2 ∧ s2.cEnum ≠ none := by
  unfold Store.setSimple at ho
  split at ho
  · simp at ho
  rename_i e he
  split at ho
  · simp at ho
  injection ho with ho
  subst ho
  refine ⟨⟨h.structs, h.enums, h.groups, h.cStruct, ?_, h.cGroup⟩, by simp⟩
  intro e2 h2
  cases h2
  refine ⟨(h.cEnum e he).1, ?_⟩
  intro x hx
  rcases List.mem_append.mp hx with hx | hx
  · exact (h.cEnum e he).2 x hx
  · rw [List.mem_singleton.mp hx]
    exact hw

theorem legal_setEnumName {s s2 : Store} {w : Name} (hw : Ident w) (h : Legal s)
    (ho : s.setEnumName w = .ok s2) : Legal s2 ∧ s2.cEnum ≠ none := by
  unfold Store.setEnumName at ho
  split at ho
  · simp at ho
  rename_i e he
  split at ho
  · simp at ho
  rename_i c hc
  cases ha : c.acceptType { s with cEnum := none } s.groupId with
  | ok c2 =>
    rw [ha] at ho
    have ho : Res.ok { s with
      cEnum := some { e with variants := e.variants ++ [{ c2 with name := w }], current := none } } =
        Res.ok s2 := ho
    injection ho with ho
    subst ho
    refine ⟨⟨h.structs, h.enums, h.groups, h.cStruct, ?_, h.cGroup⟩, by simp⟩
    intro e2 h2
    cases h2
    refine ⟨(h.cEnum e he).1, ?_⟩
    intro x hx
    rcases List.mem_append.mp hx with hx | hx
    · exact (h.cEnum e he).2 x hx
    · rw [List.mem_singleton.mp hx]
      exact hw
  | err => rw [ha] at ho; exact nomatch (show Res.err = Res.ok s2 from ho)
  | panic => rw [ha] at ho; exact nomatch (show Res.panic = Res.ok s2 from ho)

theorem legal_close {s s2 : Store} (h : Legal s) (ho : s.close = .ok s2) : Legal s2 := by
  unfold Store.close at ho
  split at ho
  · rename_i e he
    injection ho with ho
    subst ho
    refine ⟨h.structs, ?_, h.groups, h.cStruct, fun e h => (nomatch h), h.cGroup⟩
    intro x hx
    rcases List.mem_append.mp hx with hx | hx
    · exact h.enums x hx
    · rw [List.mem_singleton.mp hx]
      exact h.cEnum e he
  split at ho
  · rename_i t ht
    injection ho with ho
    subst ho
    refine ⟨?_, h.enums, h.groups, fun e h => (nomatch h), h.cEnum, h.cGroup⟩
    intro x hx
    rcases List.mem_append.mp hx with hx | hx
    · exact h.structs x hx
    · rw [List.mem_singleton.mp hx]
      exact h.cStruct t ht
  split at ho
  · simp at ho
  rename_i g hg
  have hgs : ∀ x ∈ s.groups ++ [g], Ident x.name := by
    intro x hx
    rcases List.mem_append.mp hx with hx | hx
    · exact h.groups x hx
    · rw [List.mem_singleton.mp hx]
      exact h.cGroup g hg
  dsimp only at ho
  split at ho
  · simp at ho
  split at ho
  · injection ho with ho
    subst ho
    exact ⟨h.structs, h.enums, hgs, h.cStruct, h.cEnum, fun e h => nomatch h⟩
  · split at ho
    · simp at ho
    · rename_i p hp
      injection ho with ho
      subst ho
      refine ⟨h.structs, h.enums, fun x hx => hgs x (List.mem_of_mem_eraseP hx), h.cStruct, h.cEnum, ?_⟩
      intro x hx
      cases hx
      exact hgs p (List.mem_of_find?_eq_some hp)

theorem legal_tok {p p2 : PState} {t : Tok} (hw : ∀ w n, t = .word w n → Ident w) (hp : LegalP p)
    (h : onTok p t = .go p2) : LegalP p2 := by
  have no : ∀ {e : List Expect}, e.contains .semicolon = false → e.contains .fieldOptionalMark = false →
      ∀ {s : Store} {b : Bool}, Legal s → LegalP ⟨e, s, b⟩ := by
    intro e h1 h2 s b hs
    refine ⟨hs, ?_⟩
    rintro (h | h)
    · exact absurd (h1.symm.trans h) (by decide)
    · exact absurd (h2.symm.trans h) (by decide)
  cases t with
  | word w n =>
    have hw := hw w n rfl
    simp only [onTok, onWord] at h
    split at h
    · repeat' split at h
      all_goals first
        | (simp at h; done)
        | (simp only [Next.go.injEq] at h; subst h; exact no rfl rfl hp.store)
    split at h
    · obtain ⟨s, hs, rfl⟩ := after_go h
      exact no rfl rfl (legal_openStruct hw hp.store hs)
    split at h
    · obtain ⟨s, hs, rfl⟩ := after_go h
      exact no rfl rfl (legal_openEnum hw hp.store hs)
    split at h
    · obtain ⟨s, hs, rfl⟩ := after_go h
      exact no rfl rfl (legal_openGroup hw hp.store hs)
    split at h
    · split at h
      · obtain ⟨s, hs, rfl⟩ := after_go h
        obtain ⟨h1, h2⟩ := legal_setEnumName hw hp.store hs
        exact ⟨h1, fun _ h => absurd h h2⟩
      · obtain ⟨s, hs, rfl⟩ := after_go h
        obtain ⟨h1, f, h2, h3⟩ := legal_setFieldName hp.store hs
        exact ⟨h1, fun _ _ => ⟨f, h2, by rw [h3]; exact hw⟩⟩
    split at h
    · split at h
      · split at h
        · obtain ⟨s, hs, rfl⟩ := after_go h
          obtain ⟨h1, h2⟩ := legal_setSimple hw hp.store hs
          exact ⟨h1, fun _ h => absurd h h2⟩
        · obtain ⟨s, hs, rfl⟩ := after_go h
          exact no rfl rfl (legal_setEnumType hp.store hs)
      · obtain ⟨s, hs, rfl⟩ := after_go h
        exact no rfl rfl (legal_setFieldType hp.store hs)
    · simp at h
  | openStruct =>
    simp only [onTok] at h
    split at h
    · obtain ⟨s, hs, rfl⟩ := after_go h
      simp only [Store.openBody] at hs
      split at hs
      · simp at hs
      · injection hs with hs
        subst hs
        exact no rfl rfl hp.store
    · simp at h
  | closeStruct =>
    simp only [onTok] at h
    split at h
    · obtain ⟨s, hs, rfl⟩ := after_go h
      exact no rfl rfl (legal_close hp.store hs)
    · simp at h
  | semicolon =>
    simp only [onTok] at h
    split at h
    · rename_i hx
      obtain ⟨s, hs, rfl⟩ := after_go h
      split at hs
      · injection hs with hs
        subst hs
        exact no rfl rfl hp.store
      · rename_i he
        refine no rfl rfl (legal_closeField hp.store (hp.field (.inl hx) ?_) hs)
        simpa using he
    · simp at h
  | repeated =>
    simp only [onTok] at h
    split at h
    · obtain ⟨s, hs, rfl⟩ := after_go h
      exact no rfl rfl (legal_setRepeated hp.store hs)
    · simp at h
  | optional =>
    simp only [onTok] at h
    split at h
    · rename_i hx
      obtain ⟨s, hs, rfl⟩ := after_go h
      obtain ⟨h1, h2, f, h3, f2, h4, h5⟩ := legal_setOptional hp.store hs
      refine ⟨h1, fun _ he => ⟨f2, h4, ?_⟩⟩
      obtain ⟨f0, h6, h7⟩ := hp.field (.inr hx) (h2.symm.trans he)
      rw [h3] at h6
      cases h6
      rw [h5]
      exact h7
    · simp at h
  | pathSpliter =>
    simp only [onTok] at h
    split at h
    · simp only [Next.go.injEq] at h
      subst h
      exact no rfl rfl hp.store
    · simp at h
  | eof => simp [onTok] at h

theorem legal_loop : ∀ (n : Nat) (p : PState) (c : List Char) (s : Store),
    loop n p c = some (.accepted s) → LegalP p → Legal s
  | 0, _, _, _, h, _ => by simp [loop] at h
  | n + 1, p, c, s, h, hp => by
    simp only [loop] at h
    split at h
    · rename_i p2 c2 hs
      refine legal_loop n p2 c2 s h ?_
      unfold step at hs
      split at hs
      · simp at hs
      · rename_i t off hl
        split at hs
        · rename_i p3 ht
          simp only [Next.go.injEq, Prod.mk.injEq] at hs
          obtain ⟨rfl, rfl⟩ := hs
          exact legal_tok (fun w n e => lex_word (by rw [← e]; exact hl)) hp ht
        · simp at hs
    · rename_i o hs
      simp only [Option.some.injEq] at h
      subst h
      rw [← (step_accepted hs).1]
      exact hp.store

theorem accepted_legal {text : List Char} {s : Store} (h : Parses text (.accepted s)) : Legal s := by
  obtain ⟨n, hn⟩ := h
  refine legal_loop n _ _ s hn ⟨⟨?_, ?_, ?_, ?_, ?_, ?_⟩, ?_⟩
  · exact fun t h => nomatch h
  · exact fun t h => nomatch h
  · exact fun t h => nomatch h
  · exact fun t h => nomatch h
  · exact fun t h => nomatch h
  · exact fun t h => nomatch h
  · rintro (h | h) <;> exact nomatch h

/-! ### Service structs and paths -/

theorem ident_of_decide {w : Name} (h : (match w with
    | [] => false
    | c :: _ => ! isDigit c && w.all (fun d => isAlnum d || d == '_')) = true) : Ident w := by
  cases w with
  | nil => exact nomatch h
  | cons c cs =>
    simp only [Bool.and_eq_true, Bool.not_eq_true', List.all_eq_true, Bool.or_eq_true, beq_iff_eq] at h
    exact ⟨c, cs, rfl, h.1, h.2⟩

theorem ident_service : Ident serviceGroup := ident_of_decide (by decide)

theorem legal_addService {s : Store} (h : Legal s) {name : Name} (hn : Ident name) {fields : List Field}
    (hf : ∀ f ∈ fields, Ident f.name) : Legal (s.addService name fields) := by
  have hnum : ∀ (par : Nat) (l : List Field) (seq : Nat), (∀ f ∈ l, Ident f.name) →
      ∀ f ∈ numberFields par seq l, Ident f.name := by
    intro par l
    induction l with
    | nil => intro _ _ f h; exact nomatch h
    | cons x l ih =>
      intro seq hl f hf
      rw [numberFields] at hf
      rcases List.mem_cons.mp hf with rfl | hf
      · exact hl x List.mem_cons_self
      · exact ih _ (fun y hy => hl y (List.mem_cons_of_mem _ hy)) f hf
  have key : ∀ s1 : Store, Legal s1 → ∀ g : Group, Legal { s1 with
      sequence := s1.sequence + 1 + fields.length
      groups := s1.groups.map (fun x =>
        if x.id == g.id then { x with structs := x.structs ++ [s1.sequence + 1] } else x)
      structs := s1.structs ++ [⟨s1.sequence + 1, g.id, name,
        numberFields (s1.sequence + 1) (s1.sequence + 1) fields, s1.pathByParent g.id⟩] } := by
    intro s1 h1 g
    refine ⟨?_, h1.enums, ?_, h1.cStruct, h1.cEnum, h1.cGroup⟩
    · intro t ht
      rcases List.mem_append.mp ht with ht | ht
      · exact h1.structs t ht
      · rw [List.mem_singleton.mp ht]
        exact ⟨hn, hnum _ _ _ hf⟩
    · intro x hx
      obtain ⟨y, hy, rfl⟩ := List.mem_map.mp hx
      have := h1.groups y hy
      split <;> exact this
  have hs1 : Legal (if s.groups.any (fun g => g.name == serviceGroup && g.parent == 0) then s
    else { s with
      sequence := s.sequence + 1
      groups := s.groups ++ [⟨s.sequence + 1, 0, serviceGroup, [], [], []⟩] }) := by
    split
    · exact h
    · refine ⟨h.structs, h.enums, ?_, h.cStruct, h.cEnum, h.cGroup⟩
      intro x hx
      rcases List.mem_append.mp hx with hx | hx
      · exact h.groups x hx
      · rw [List.mem_singleton.mp hx]
        exact ident_service
  simp only [Store.addService]
  split
  · exact hs1
  · exact key _ hs1 _

theorem legal_found {s : Store} (h : Legal s) : ∀ (path : List Name) (parent : Nat),
    (s.findByPath parent path).isSome = true → path ≠ [] ∧ ∀ w ∈ path, Ident w
  | [], _, hf => by simp [Store.findByPath] at hf
  | [w], parent, hf => by
    refine ⟨by simp, ?_⟩
    intro x hx
    rw [List.mem_singleton.mp hx]
    simp only [Store.findByPath] at hf
    split at hf
    · rename_i e he
      have h1 := (h.enums e (List.mem_of_find?_eq_some he)).1
      have h2 := List.find?_some he
      simp only [Bool.and_eq_true, beq_iff_eq] at h2
      rw [← h2.1]
      exact h1
    · split at hf
      · rename_i e he
        have h1 := (h.structs e (List.mem_of_find?_eq_some he)).1
        have h2 := List.find?_some he
        simp only [Bool.and_eq_true, beq_iff_eq] at h2
        rw [← h2.1]
        exact h1
      · simp at hf
  | w :: w2 :: rest, parent, hf => by
    refine ⟨by simp, ?_⟩
    simp only [Store.findByPath] at hf
    split at hf
    · rename_i g hg
      rw [Option.isSome_map] at hf
      have ih := (legal_found h (w2 :: rest) g.id hf).2
      intro x hx
      rcases List.mem_cons.mp hx with rfl | hx
      · have h1 := h.groups g (List.mem_of_find?_eq_some hg)
        have h2 := List.find?_some hg
        simp only [Bool.and_eq_true, beq_iff_eq] at h2
        rw [← h2.1]
        exact h1
      · exact ih x hx
    · simp at hf

end Verif.Prot
