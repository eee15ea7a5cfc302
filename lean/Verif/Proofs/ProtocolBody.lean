import Verif.Proofs.ProtocolLexer
set_option autoImplicit false
/-!
The parser on the fields of a struct and the variants of an enum.
-/
namespace Verif.Prot.Syntax

open Verif Verif.Prot

/-- The loop ends with this outcome. -/
def Halts (p : PState) (text : List Char) (o : Outcome) : Prop := ∃ n, loop n p text = some o

/-- The loop gets from one point to the other. -/
def Fwd (p : PState) (text : List Char) (p2 : PState) (rest : List Char) : Prop :=
  (Reach p.store → Reach p2.store) ∧ ∀ o, Halts p2 rest o → Halts p text o

theorem Fwd.refl (p : PState) (text : List Char) : Fwd p text p text := ⟨id, fun _ h => h⟩

theorem Fwd.trans {p q r : PState} {a b c : List Char} (h1 : Fwd p a q b) (h2 : Fwd q b r c) :
    Fwd p a r c := ⟨fun h => h2.1 (h1.1 h), fun o h => h1.2 o (h2.2 o h)⟩

theorem fwd_of {p p2 : PState} {text rest : List Char} {t : Tok}
    (hs : ∀ p, step p text = roundTo p t rest) (h : onTok p t = .go p2) : Fwd p text p2 rest := by
  have hst : step p text = .go (p2, rest) := by rw [hs, roundTo, h]
  refine ⟨step_reach hst, ?_⟩
  rintro o ⟨n, hn⟩
  exact ⟨n + 1, by simp only [loop, hst]; exact hn⟩

theorem halts_of {p : PState} {text rest : List Char} {t : Tok} {o : Outcome}
    (hs : ∀ p, step p text = roundTo p t rest) (h : onTok p t = .halt o) : Halts p text o :=
  ⟨1, by simp only [loop, hs, roundTo, h]⟩

/-! ### Types -/

theorem findByPath_congr {s s2 : Store} (h1 : s2.structs = s.structs) (h2 : s2.enums = s.enums)
    (h3 : s2.groups = s.groups) : ∀ (path : List Name) (parent : Nat),
    s2.findByPath parent path = s.findByPath parent path
  | [], _ => rfl
  | [w], parent => by simp only [Store.findByPath, h1, h2]
  | w :: w2 :: rest, parent => by
    simp only [Store.findByPath, h3]
    split
    · rw [findByPath_congr h1 h2 h3]
    · rfl

theorem resolve_congr {s s2 : Store} (h1 : s2.structs = s.structs) (h2 : s2.enums = s.enums)
    (h3 : s2.groups = s.groups) (own : Nat) (path : List Name) :
    s2.resolve own path = s.resolve own path := by
  simp only [Store.resolve, findByPath_congr h1 h2 h3]

/-- The type is primitive or found by the lookup. -/
def TypeOkS (s : Store) (own : Nat) (t : List Name) : Prop :=
  (∃ w, t = [w] ∧ isPrimitive w = true) ∨ (s.resolve own t).isSome = true

theorem typeOkS_congr {s s2 : Store} (h1 : s2.structs = s.structs) (h2 : s2.enums = s.enums)
    (h3 : s2.groups = s.groups) (own : Nat) (t : List Name) :
    TypeOkS s2 own t ↔ TypeOkS s own t := by
  unfold TypeOkS
  rw [resolve_congr h1 h2 h3]

theorem resolve_last {s : Store} {own : Nat} {path : List Name} {r : List (Name × Nat)}
    (h : s.resolve own path = some r) : ∃ x, r.getLast? = some x := by
  have key : ∀ (path : List Name) (parent : Nat) (r : List (Name × Nat)),
      s.findByPath parent path = some r → r ≠ [] := by
    intro path
    induction path with
    | nil => intro p r h; simp [Store.findByPath] at h
    | cons w rest ih =>
      intro p r h
      cases rest with
      | nil =>
        simp only [Store.findByPath] at h
        split at h
        · simp only [Option.some.injEq] at h; subst h; simp
        · split at h
          · simp only [Option.some.injEq] at h; subst h; simp
          · simp at h
      | cons w2 rest =>
        simp only [Store.findByPath] at h
        split at h
        · simp only [Option.map_eq_some_iff] at h
          obtain ⟨a, _, rfl⟩ := h
          simp
        · simp at h
  have hne : r ≠ [] := by
    unfold Store.resolve at h
    split at h
    · rename_i x hx
      simp only [Option.some.injEq] at h; subst h
      exact key _ _ _ hx
    · exact key _ _ _ h
  exact ⟨r.getLast hne, List.getLast?_eq_some_getLast hne⟩

theorem field_accept (f : Field) (s : Store) (own : Nat) (hne : f.typePath ≠ []) :
    (TypeOkS s own f.typePath → ∃ f2, f.acceptType s own = .ok f2 ∧ f2.name = f.name ∧
      f2.typePath = f.typePath ∧ f2.repeated = f.repeated ∧ f2.optional = f.optional) ∧
    (¬ TypeOkS s own f.typePath → f.acceptType s own = .err) := by
  cases hp : f.typePath with
  | nil => exact absurd hp hne
  | cons w ws =>
    simp only [Field.acceptType, hp]
    by_cases hprim : (ws.isEmpty && isPrimitive w) = true
    · rw [if_pos hprim]
      refine ⟨fun _ => ⟨_, rfl, rfl, rfl, rfl, rfl⟩, fun hno => absurd ?_ hno⟩
      simp only [Bool.and_eq_true, List.isEmpty_iff] at hprim
      exact .inl ⟨w, by rw [hprim.1], hprim.2⟩
    · rw [if_neg hprim]
      have hnp : ¬ ∃ v, w :: ws = [v] ∧ isPrimitive v = true := by
        rintro ⟨v, hv, hv2⟩
        simp only [List.cons.injEq] at hv
        apply hprim
        rw [hv.1, hv.2, hv2]; rfl
      cases hr : s.resolve own (w :: ws) with
      | none =>
        refine ⟨fun ho => ?_, fun _ => rfl⟩
        rcases ho with ho | ho
        · exact absurd ho hnp
        · simp [hr] at ho
      | some r =>
        obtain ⟨⟨n, id⟩, hx⟩ := resolve_last hr
        simp only [hx]
        exact ⟨fun _ => ⟨_, rfl, rfl, rfl, rfl, rfl⟩, fun hno => absurd (.inr (by simp [hr])) hno⟩

theorem item_accept (f : EnumItem) (s : Store) (own : Nat) (hne : f.typePath ≠ []) :
    (TypeOkS s own f.typePath → ∃ f2, f.acceptType s own = .ok f2 ∧
      f2.typePath = f.typePath ∧ f2.repeated = f.repeated) ∧
    (¬ TypeOkS s own f.typePath → f.acceptType s own = .err) := by
  cases hp : f.typePath with
  | nil => exact absurd hp hne
  | cons w ws =>
    simp only [EnumItem.acceptType, hp]
    by_cases hprim : (ws.isEmpty && isPrimitive w) = true
    · rw [if_pos hprim]
      refine ⟨fun _ => ⟨_, rfl, rfl, rfl⟩, fun hno => absurd ?_ hno⟩
      simp only [Bool.and_eq_true, List.isEmpty_iff] at hprim
      exact .inl ⟨w, by rw [hprim.1], hprim.2⟩
    · rw [if_neg hprim]
      have hnp : ¬ ∃ v, w :: ws = [v] ∧ isPrimitive v = true := by
        rintro ⟨v, hv, hv2⟩
        simp only [List.cons.injEq] at hv
        apply hprim
        rw [hv.1, hv.2, hv2]; rfl
      cases hr : s.resolve own (w :: ws) with
      | none =>
        refine ⟨fun ho => ?_, fun _ => rfl⟩
        rcases ho with ho | ho
        · exact absurd ho hnp
        · simp [hr] at ho
      | some r =>
        obtain ⟨⟨n, id⟩, hx⟩ := resolve_last hr
        simp only [hx]
        exact ⟨fun _ => ⟨_, rfl, rfl, rfl⟩, fun hno => absurd (.inr (by simp [hr])) hno⟩

/-- The later parts of a type. -/
def dots (ws : List Name) : List Sym := ws.flatMap (fun x => [.mark .dot, .word x])

theorem typeSyms_cons : ∀ (w : Name) (ws : List Name), typeSyms (w :: ws) = .word w :: dots ws
  | _, [] => rfl
  | w, w2 :: ws => by
    simp only [typeSyms, typeSyms_cons w2 ws, dots, List.flatMap_cons, List.cons_append,
      List.nil_append]

/-! ### Expectations -/

/-- After `{`. -/
abbrev eOpen : List Expect :=
  [.fieldType, .groupDef, .structDef, .enumDef, .enumValue, .entityClose]

/-- After `;`. -/
abbrev eSemi : List Expect := [.fieldType, .structDef, .enumDef, .enumValue, .entityClose]

/-- After a type. -/
abbrev eType : List Expect := [.fieldName, .fieldRepeatedMark, .pathSpliter]

/-- Expectations inside the body of a struct or enum. -/
def InBody (e : List Expect) : Prop := e = eOpen ∨ e = eSemi

theorem entity_none {w : Name} (h1 : w ≠ "struct".toList) (h2 : w ≠ "enum".toList)
    (h3 : w ≠ "group".toList) : entity w = none := by
  have e1 : "struct".toList = ['s', 't', 'r', 'u', 'c', 't'] := rfl
  have e2 : "enum".toList = ['e', 'n', 'u', 'm'] := rfl
  have e3 : "group".toList = ['g', 'r', 'o', 'u', 'p'] := rfl
  rw [e1] at h1; rw [e2] at h2; rw [e3] at h3
  simp only [entity, h1, h2, h3, if_false]

/-! ### Fields -/

/-- The store inside a struct, between fields. -/
def inStruct (s : Store) (q : Nat) (t : Struct) : Store :=
  { s with sequence := q, cStruct := some t, cField := none }

/-- The store inside a field. -/
def inField (s : Store) (q : Nat) (t : Struct) (f : Field) : Store :=
  { s with sequence := q, cStruct := some t, cField := some f }

theorem dots_field (s : Store) (hce : s.cEnum = none) (q : Nat) (t : Struct) :
    ∀ (ws : List Name) (f : Field) (k : List Sym) (text : List Char), Spelled (dots ws ++ k) text →
    ∃ rest, Spelled k rest ∧ Fwd ⟨eType, inField s q t f, false⟩ text
      ⟨eType, inField s q t { f with typePath := f.typePath ++ ws }, false⟩ rest
  | [], f, k, text, h => ⟨text, h, by rw [List.append_nil]; exact .refl _ _⟩
  | w :: ws, f, k, text, h => by
    obtain ⟨r1, h1, s1⟩ := step_mark h
    obtain ⟨nx, r2, h2, _, s2⟩ := step_word h1
    obtain ⟨r3, h3, f3⟩ := dots_field s hce q t ws { f with typePath := f.typePath ++ [w] } k r2 h2
    refine ⟨r3, h3, (fwd_of s1 (p2 := ⟨[.fieldType], inField s q t f, false⟩) rfl).trans
      ((fwd_of s2 (p2 := ⟨eType, inField s q t { f with typePath := f.typePath ++ [w] }, false⟩)
        ?_).trans ?_)⟩
    · simp [onTok, onWord, inField, hce, Store.setFieldType, after]
    · simpa [List.append_assoc] using f3

theorem rep_field (s : Store) (hce : s.cEnum = none) (q : Nat) (t : Struct) (b : Bool) (f : Field)
    (hf : f.repeated = false) (k : List Sym) (text : List Char)
    (h : Spelled (repSyms b ++ k) text) :
    ∃ rest e, (e = eType ∨ e = [.fieldName]) ∧ Spelled k rest ∧
      Fwd ⟨eType, inField s q t f, false⟩ text
        ⟨e, inField s q t { f with repeated := b }, false⟩ rest := by
  cases b with
  | false =>
    refine ⟨text, eType, .inl rfl, h, ?_⟩
    have : ({ f with repeated := false } : Field) = f := by cases f; simp_all
    rw [this]; exact .refl _ _
  | true =>
    obtain ⟨r1, h1, s1⟩ := step_rep h
    refine ⟨r1, [.fieldName], .inr rfl, h1, fwd_of s1 ?_⟩
    simp [onTok, inField, hce, Store.setRepeated, after]

theorem opt_field (s : Store) (q : Nat) (t : Struct) (b : Bool) (f : Field)
    (hf : f.optional = false) (k : List Sym) (text : List Char)
    (h : Spelled (optSyms b ++ k) text) :
    ∃ rest e, (e = [.semicolon, .fieldOptionalMark] ∨ e = [.semicolon]) ∧ Spelled k rest ∧
      Fwd ⟨[.semicolon, .fieldOptionalMark], inField s q t f, false⟩ text
        ⟨e, inField s q t { f with optional := b }, false⟩ rest := by
  cases b with
  | false =>
    refine ⟨text, _, .inl rfl, h, ?_⟩
    have : ({ f with optional := false } : Field) = f := by cases f; simp_all
    rw [this]; exact .refl _ _
  | true =>
    obtain ⟨r1, h1, s1⟩ := step_mark h
    refine ⟨r1, [.semicolon], .inr rfl, h1, fwd_of s1 ?_⟩
    simp [Mark.tok, onTok, inField, Store.setOptional, after]

theorem field_sim (s : Store) (hce : s.cEnum = none) (q : Nat) (t : Struct) (f : FieldD)
    (hn : TypeName f.type) (e : List Expect) (he : InBody e) (k : List Sym) (text : List Char)
    (h : Spelled (fieldSyms f ++ k) text) :
    (Halts ⟨e, inStruct s q t, false⟩ text .stopped ∧
      ¬ (TypeOkS s s.groupId f.type ∧ f.name ∉ t.fields.map Field.name)) ∨
    ((TypeOkS s s.groupId f.type ∧ f.name ∉ t.fields.map Field.name) ∧
      ∃ rest fld, fieldView fld = f ∧ Spelled k rest ∧
        Fwd ⟨e, inStruct s q t, false⟩ text
          ⟨eSemi, inStruct s (q + 1) { t with fields := t.fields ++ [fld] }, false⟩ rest) := by
  obtain ⟨ty, rp, nm, op⟩ := f
  obtain ⟨w, ws, rfl, n1, n2, n3⟩ := hn
  have hent := entity_none n1 n2 n3
  simp only [fieldSyms, typeSyms_cons, List.cons_append, List.append_assoc, List.nil_append] at h
  obtain ⟨nx, r1, h1, _, s1⟩ := step_word h
  let f0 : Field := ⟨q + 1, 0, [], w, none, [], false, false, [w]⟩
  have g1 : Fwd ⟨e, inStruct s q t, false⟩ text ⟨eType, inField s (q + 1) t f0, false⟩ r1 := by
    refine fwd_of s1 ?_
    rcases he with rfl | rfl <;>
      simp [onTok, onWord, hent, inStruct, inField, hce, Store.setFieldType, after, f0]
  obtain ⟨r2, h2, g2⟩ := dots_field s hce (q + 1) t ws f0 _ r1 h1
  obtain ⟨r3, e3, he3, h3, g3⟩ := rep_field s hce (q + 1) t rp
    { f0 with typePath := f0.typePath ++ ws } rfl _ r2 h2
  obtain ⟨nx4, r4, h4, _, s4⟩ := step_word h3
  have g123 := (g1.trans g2).trans g3
  let f1 : Field := { f0 with typePath := f0.typePath ++ ws, repeated := rp, name := nm }
  have hacc := field_accept f1 (inField s (q + 1) t { f1 with name := [] })
    (inField s (q + 1) t { f1 with name := [] }).groupId (by simp [f1, f0])
  have hok : TypeOkS (inField s (q + 1) t { f1 with name := [] })
      (inField s (q + 1) t { f1 with name := [] }).groupId f1.typePath ↔
      TypeOkS s s.groupId (w :: ws) :=
    typeOkS_congr (s := s) (s2 := inField s (q + 1) t { f1 with name := [] }) rfl rfl rfl
      s.groupId (w :: ws)
  rw [hok] at hacc
  by_cases ht : TypeOkS s s.groupId (w :: ws)
  · obtain ⟨f2, hf2, a1, a2, a3, a4⟩ := hacc.1 ht
    have g4 : Fwd ⟨e3, inField s (q + 1) t { f1 with name := [] }, false⟩ r3
        ⟨[.semicolon, .fieldOptionalMark], inField s (q + 1) t f2, false⟩ r4 := by
      refine fwd_of s4 ?_
      have hset : (inField s (q + 1) t { f1 with name := [] }).setFieldName nm =
          .ok (inField s (q + 1) t f2) := by
        have : ({ ({ f1 with name := [] } : Field) with name := nm } : Field) = f1 := rfl
        simp only [Store.setFieldName]
        rw [if_neg (by simp [inField])]
        simp only [inField] at hf2 ⊢
        rw [this, hf2]
        rfl
      rcases he3 with rfl | rfl
      · simp only [onTok, onWord]
        rw [hset]
        simp [inField, hce, after]
      · simp only [onTok, onWord]
        rw [hset]
        simp [inField, hce, after]
    obtain ⟨r5, e5, he5, h5, g5⟩ := opt_field s (q + 1) t op f2
      (by rw [a4]) _ r4 h4
    obtain ⟨r6, h6, s6⟩ := step_mark h5
    have g1to5 := (g123.trans g4).trans g5
    by_cases hnm : nm ∈ t.fields.map Field.name
    · left
      refine ⟨?_, fun hx => hx.2 hnm⟩
      refine g1to5.2 _ (halts_of s6 ?_)
      have hany : t.fields.any (fun g => g.name == f2.name) = true := by
        rw [List.any_eq_true]
        obtain ⟨x, hx, hx2⟩ := List.mem_map.mp hnm
        exact ⟨x, hx, by simp [hx2, a1, f1]⟩
      have : ¬ (inField s (q + 1) t { f2 with optional := op }).cEnum.isSome = true := by
        simp [inField, hce]
      simp only [Mark.tok, onTok]
      rw [if_pos (by rcases he5 with rfl | rfl <;> simp), if_neg this]
      simp only [Store.closeField, inField]
      rw [if_pos hany]
      rfl
    · right
      refine ⟨⟨ht, hnm⟩, r6, { f2 with optional := op, parent := t.id }, ?_, h6, g1to5.trans ?_⟩
      · simp only [fieldView, a1, a2, a3, f1, f0]
        rfl
      · refine fwd_of s6 ?_
        have hany : ¬ t.fields.any (fun g => g.name == f2.name) = true := by
          rw [List.any_eq_true]
          rintro ⟨x, hx, hx2⟩
          apply hnm
          rw [beq_iff_eq] at hx2
          exact List.mem_map.mpr ⟨x, hx, by rw [hx2, a1]⟩
        have : ¬ (inField s (q + 1) t { f2 with optional := op }).cEnum.isSome = true := by
          simp [inField, hce]
        simp only [Mark.tok, onTok]
        rw [if_pos (by rcases he5 with rfl | rfl <;> simp), if_neg this]
        simp only [Store.closeField, inField]
        rw [if_neg hany]
        rfl
  · left
    refine ⟨?_, fun hx => ht hx.1⟩
    refine g123.2 _ (halts_of s4 ?_)
    have hset : (inField s (q + 1) t { f1 with name := [] }).setFieldName nm = .err := by
      have : ({ ({ f1 with name := [] } : Field) with name := nm } : Field) = f1 := rfl
      have hf2 := hacc.2 ht
      simp only [Store.setFieldName]
      rw [if_neg (by simp [inField])]
      simp only [inField] at hf2 ⊢
      rw [this, hf2]
      rfl
    have hset2 : (inField s (q + 1) t
      { ({ f0 with typePath := f0.typePath ++ ws } : Field) with repeated := rp }).setFieldName nm
        = .err := hset
    rcases he3 with rfl | rfl
    · simp only [onTok, onWord]
      rw [hset2]
      simp [inField, hce, after]
    · simp only [onTok, onWord]
      rw [hset2]
      simp [inField, hce, after]

theorem fields_sim (s : Store) (hce : s.cEnum = none) :
    ∀ (fs : List FieldD) (q : Nat) (t : Struct) (e : List Expect) (k : List Sym)
      (text : List Char), (∀ f ∈ fs, TypeName f.type) → InBody e →
    (t.fields.map Field.name).Nodup → Spelled (fs.flatMap fieldSyms ++ k) text →
    (Halts ⟨e, inStruct s q t, false⟩ text .stopped ∧
      ¬ ((∀ f ∈ fs, TypeOkS s s.groupId f.type) ∧
        (t.fields.map Field.name ++ fs.map FieldD.name).Nodup)) ∨
    (((∀ f ∈ fs, TypeOkS s s.groupId f.type) ∧
        (t.fields.map Field.name ++ fs.map FieldD.name).Nodup) ∧
      ∃ rest e2 flds, InBody e2 ∧ flds.map fieldView = fs ∧ Spelled k rest ∧
        Fwd ⟨e, inStruct s q t, false⟩ text
          ⟨e2, inStruct s (q + fs.length) { t with fields := t.fields ++ flds }, false⟩ rest)
  | [], q, t, e, k, text, _, he, hnd, h => by
    right
    refine ⟨⟨by simp, by simpa using hnd⟩, text, e, [], he, rfl, h, ?_⟩
    have : ({ t with fields := t.fields ++ [] } : Struct) = t := by simp
    rw [this]
    exact .refl _ _
  | f :: fs, q, t, e, k, text, hn, he, hnd, h => by
    simp only [List.flatMap_cons, List.append_assoc] at h
    rcases field_sim s hce q t f (hn f List.mem_cons_self) e he _ text h with
      ⟨h1, h2⟩ | ⟨⟨h1, h2⟩, r1, fld, hv, h3, g1⟩
    · refine .inl ⟨h1, fun hx => h2 ⟨hx.1 f List.mem_cons_self, ?_⟩⟩
      have := hx.2
      rw [List.nodup_append] at this
      intro hm
      exact this.2.2 _ hm _ (List.mem_map_of_mem List.mem_cons_self) rfl
    · have hname : fld.name = f.name := by rw [← hv]; rfl
      have hnd2 : (({ t with fields := t.fields ++ [fld] } : Struct).fields.map Field.name).Nodup := by
        simp only [List.map_append, List.map_cons, List.map_nil]
        rw [List.nodup_append]
        refine ⟨hnd, by simp, ?_⟩
        intro a ha b hb hab
        simp only [List.mem_singleton] at hb
        rw [hab, hb, hname] at ha
        exact h2 ha
      have hperm : (({ t with fields := t.fields ++ [fld] } : Struct).fields.map Field.name ++
          fs.map FieldD.name) = t.fields.map Field.name ++ (f :: fs).map FieldD.name := by
        simp [hname]
      rcases fields_sim s hce fs (q + 1) { t with fields := t.fields ++ [fld] } eSemi k r1
        (fun x hx => hn x (List.mem_cons_of_mem _ hx)) (.inr rfl) hnd2 h3 with
        ⟨i1, i2⟩ | ⟨⟨i1, i2⟩, r2, e2, flds, i3, i4, i5, g2⟩
      · refine .inl ⟨g1.2 _ i1, fun hx => i2 ⟨fun x hm => hx.1 x (List.mem_cons_of_mem _ hm), ?_⟩⟩
        rw [hperm]; exact hx.2
      · right
        rw [hperm] at i2
        refine ⟨⟨?_, i2⟩, r2, e2, fld :: flds, i3, by simp [hv, i4], i5, ?_⟩
        · intro x hx
          rcases List.mem_cons.mp hx with rfl | hx
          · exact h1
          · exact i1 x hx
        · have g := g1.trans g2
          have e1 : q + 1 + fs.length = q + (f :: fs).length := by simp only [List.length_cons]; omega
          rw [e1] at g
          simpa [List.append_assoc] using g

/-! ### Variants -/

/-- The store inside an enum. -/
def inEnum (s : Store) (e : Enum) : Store := { s with cEnum := some e }

theorem not_semi {x : Sym} {ts : List Sym} {rest : List Char} (h : Spelled (x :: ts) rest)
    (hx : ∀ m, x = .mark m → m = .dot) : rest.head? ≠ some ';' := by
  have blank : ∀ {ws u : List Char}, Blank ws → u.head? ≠ some ';' →
      (ws ++ u).head? ≠ some ';' := by
    intro ws u hb hu
    cases ws with
    | nil => exact hu
    | cons d ws =>
      intro e
      simp only [List.cons_append, List.head?_cons, Option.some.injEq] at e
      have := hb d List.mem_cons_self
      rw [e] at this
      exact absurd this (by decide)
  have word : ∀ {w : Name} {u : List Char}, Ident w → (w ++ u).head? ≠ some ';' := by
    rintro w u ⟨d, ds, rfl, _, hall⟩ e
    simp only [List.cons_append, List.head?_cons, Option.some.injEq] at e
    have := (idChar_class (hall d List.mem_cons_self)).2.2.1
    rw [e] at this
    exact absurd this (by decide)
  cases h with
  | word hb hw _ _ => exact blank hb (word hw)
  | simple hb hw _ => exact blank hb (word hw)
  | @mark _ m _ _ hb _ =>
    have := hx m rfl
    subst this
    exact blank hb (by simp [Mark.char])
  | rep hb _ _ => exact blank hb (by simp)

/-- What can follow a part of the type of a variant. -/
def Follows (k : List Sym) : Prop := ∃ x ts, k = x :: ts ∧ ∀ m, x = .mark m → m = .dot

theorem follows_dots (ws : List Name) {k : List Sym} (hk : Follows k) : Follows (dots ws ++ k) := by
  cases ws with
  | nil => exact hk
  | cons w ws => exact ⟨_, _, rfl, by rintro m ⟨⟩; rfl⟩

theorem follows_rep (b : Bool) {k : List Sym} (hk : Follows k) : Follows (repSyms b ++ k) := by
  cases b with
  | false => exact hk
  | true => exact ⟨_, _, rfl, by rintro m ⟨⟩⟩

theorem dots_item (s : Store) (e : Enum) : ∀ (ws : List Name) (v : EnumItem) (k : List Sym)
    (text : List Char), Follows k → Spelled (dots ws ++ k) text →
    ∃ rest, Spelled k rest ∧ Fwd ⟨eType, inEnum s { e with current := some v }, false⟩ text
      ⟨eType, inEnum s { e with current := some { v with typePath := v.typePath ++ ws } }, false⟩
        rest
  | [], v, k, text, _, h => ⟨text, h, by rw [List.append_nil]; exact .refl _ _⟩
  | w :: ws, v, k, text, hk, h => by
    obtain ⟨r1, h1, s1⟩ := step_mark h
    obtain ⟨nx, r2, h2, hnx, s2⟩ := step_word h1
    obtain ⟨r3, h3, f3⟩ := dots_item s e ws { v with typePath := v.typePath ++ [w] } k r2 hk h2
    have hns : ¬ nx = some ';' := by
      intro hn
      obtain ⟨x, ts, hx, hm⟩ := follows_dots ws hk
      have h2' : Spelled (x :: ts) r2 := hx ▸ h2
      exact not_semi h2' hm (hnx hn)
    refine ⟨r3, h3, (fwd_of s1
      (p2 := ⟨[.fieldType], inEnum s { e with current := some v }, false⟩) ?_).trans
      ((fwd_of s2 (p2 := ⟨eType, inEnum s { e with
        current := some { v with typePath := v.typePath ++ [w] } }, false⟩) ?_).trans ?_)⟩
    · simp [Mark.tok, onTok, inEnum]
    · simp [onTok, onWord, inEnum, Store.setEnumType, after, hns]
    · simpa [List.append_assoc] using f3

theorem variant_sim (s : Store) (e : Enum) (hcur : e.current = none) (v : VariantD) (hn : v.Named)
    (ex : List Expect) (he : InBody ex) (k : List Sym) (text : List Char)
    (h : Spelled (variantSyms v ++ k) text) :
    (Halts ⟨ex, inEnum s e, false⟩ text .stopped ∧
      ∃ t r n, v = .typed t r n ∧ ¬ TypeOkS s s.groupId t) ∨
    ((∀ t r n, v = .typed t r n → TypeOkS s s.groupId t) ∧
      ∃ rest it, variantView it = v ∧ Spelled k rest ∧
        Fwd ⟨ex, inEnum s e, false⟩ text
          ⟨eSemi, inEnum s { e with variants := e.variants ++ [it] }, false⟩ rest) := by
  cases v with
  | simple w =>
    right
    have hent := entity_none hn.1 hn.2.1 hn.2.2
    obtain ⟨r1, s1, h1⟩ := step_simple h
    obtain ⟨r2, h2, s2⟩ := step_mark h1
    refine ⟨by rintro t r n ⟨⟩, r2, ⟨w, some ['s', 't', 'r'], none, [], false, []⟩, rfl, h2, ?_⟩
    refine (fwd_of s1 (p2 := ⟨[.semicolon], inEnum s { e with
      variants := e.variants ++ [⟨w, some ['s', 't', 'r'], none, [], false, []⟩] }, false⟩)
      ?_).trans (fwd_of s2 ?_)
    · rcases he with rfl | rfl <;>
        simp [onTok, onWord, hent, inEnum, Store.setSimple, after, hcur]
    · simp [Mark.tok, onTok, inEnum, after]
  | typed ty rp nm =>
    obtain ⟨w, ws, rfl, n1, n2, n3⟩ := hn
    have hent := entity_none n1 n2 n3
    simp only [variantSyms, typeSyms_cons, List.cons_append, List.append_assoc,
      List.nil_append] at h
    obtain ⟨nx, r1, h1, hnx, s1⟩ := step_word h
    have hfo : Follows (repSyms rp ++ Sym.word nm :: Sym.mark .semi :: k) :=
      follows_rep rp ⟨_, _, rfl, by rintro m ⟨⟩⟩
    have hns : ¬ nx = some ';' := by
      intro hnn
      obtain ⟨x, ts, hx, hm⟩ := follows_dots ws hfo
      have h1' : Spelled (x :: ts) r1 := hx ▸ h1
      exact not_semi h1' hm (hnx hnn)
    let v0 : EnumItem := ⟨[], none, none, [], false, [w]⟩
    have g1 : Fwd ⟨ex, inEnum s e, false⟩ text
        ⟨eType, inEnum s { e with current := some v0 }, false⟩ r1 := by
      refine fwd_of s1 ?_
      rcases he with rfl | rfl <;>
        simp [onTok, onWord, hent, inEnum, Store.setEnumType, after, hcur, hns, v0]
    obtain ⟨r2, h2, g2⟩ := dots_item s e ws v0 _ r1 hfo h1
    let v1 : EnumItem := { v0 with typePath := v0.typePath ++ ws, repeated := rp }
    have g3 : ∃ r3 e3, (e3 = eType ∨ e3 = [.fieldName]) ∧
        Spelled (Sym.word nm :: Sym.mark .semi :: k) r3 ∧
        Fwd ⟨eType, inEnum s { e with
          current := some { v0 with typePath := v0.typePath ++ ws } }, false⟩ r2
          ⟨e3, inEnum s { e with current := some v1 }, false⟩ r3 := by
      cases rp with
      | false => exact ⟨r2, eType, .inl rfl, h2, .refl _ _⟩
      | true =>
        obtain ⟨r3, h3, s3⟩ := step_rep h2
        refine ⟨r3, [.fieldName], .inr rfl, h3, fwd_of s3 ?_⟩
        simp [onTok, inEnum, Store.setRepeated, after, v1]
    obtain ⟨r3, e3, he3, h3, g3⟩ := g3
    obtain ⟨nx4, r4, h4, _, s4⟩ := step_word h3
    obtain ⟨r5, h5, s5⟩ := step_mark h4
    have g123 := (g1.trans g2).trans g3
    have hacc := item_accept v1 { s with cEnum := none } s.groupId (by simp [v1, v0])
    have hok : TypeOkS { s with cEnum := none } s.groupId v1.typePath ↔
        TypeOkS s s.groupId (w :: ws) :=
      typeOkS_congr (s := s) (s2 := { s with cEnum := none }) rfl rfl rfl s.groupId (w :: ws)
    rw [hok] at hacc
    by_cases ht : TypeOkS s s.groupId (w :: ws)
    · right
      obtain ⟨v2, hv2, a1, a2⟩ := hacc.1 ht
      refine ⟨by rintro t r n ⟨⟩; exact ht, r5, { v2 with name := nm }, ?_, h5, ?_⟩
      · simp only [variantView, a1, a2, v1, v0]
        rw [if_neg (by simp)]
        rfl
      · refine (g123.trans (fwd_of s4 (p2 := ⟨[.semicolon], inEnum s { e with
          variants := e.variants ++ [{ v2 with name := nm }] }, false⟩) ?_)).trans (fwd_of s5 ?_)
        · have hset : (inEnum s { e with current := some v1 }).setEnumName nm = .ok (inEnum s
              { e with variants := e.variants ++ [{ v2 with name := nm }] }) := by
            simp only [Store.setEnumName, inEnum]
            have hgid : ({ s with cEnum := some { e with current := some v1 } } : Store).groupId
              = s.groupId := rfl
            rw [hgid, hv2]
            have : ({ e with variants := e.variants ++ [{ v2 with name := nm }],
                             current := none } : Enum) =
              { e with variants := e.variants ++ [{ v2 with name := nm }] } := by
              cases e; simp_all
            exact congrArg (fun x => Res.ok (inEnum s x)) this
          rcases he3 with rfl | rfl
          · simp only [onTok, onWord]
            rw [hset]
            simp [inEnum, after]
          · simp only [onTok, onWord]
            rw [hset]
            simp [inEnum, after]
        · simp [Mark.tok, onTok, inEnum, after]
    · left
      refine ⟨?_, w :: ws, rp, nm, rfl, ht⟩
      refine g123.2 _ (halts_of s4 ?_)
      have hset : (inEnum s { e with current := some v1 }).setEnumName nm = .err := by
        simp only [Store.setEnumName, inEnum]
        have hgid : ({ s with cEnum := some { e with current := some v1 } } : Store).groupId
          = s.groupId := rfl
        rw [hgid, hacc.2 ht]
        rfl
      rcases he3 with rfl | rfl
      · simp only [onTok, onWord]
        rw [hset]
        simp [inEnum, after]
      · simp only [onTok, onWord]
        rw [hset]
        simp [inEnum, after]

theorem variants_sim (s : Store) : ∀ (vs : List VariantD) (e : Enum) (ex : List Expect)
    (k : List Sym) (text : List Char), e.current = none → (∀ v ∈ vs, v.Named) → InBody ex →
    Spelled (vs.flatMap variantSyms ++ k) text →
    (Halts ⟨ex, inEnum s e, false⟩ text .stopped ∧
      ¬ (∀ v ∈ vs, ∀ t r n, v = .typed t r n → TypeOkS s s.groupId t)) ∨
    ((∀ v ∈ vs, ∀ t r n, v = .typed t r n → TypeOkS s s.groupId t) ∧
      ∃ rest e2 its, InBody e2 ∧ its.map variantView = vs ∧ Spelled k rest ∧
        Fwd ⟨ex, inEnum s e, false⟩ text
          ⟨e2, inEnum s { e with variants := e.variants ++ its }, false⟩ rest)
  | [], e, ex, k, text, _, _, he, h => by
    right
    refine ⟨by simp, text, ex, [], he, rfl, h, ?_⟩
    have : ({ e with variants := e.variants ++ [] } : Enum) = e := by simp
    rw [this]
    exact .refl _ _
  | v :: vs, e, ex, k, text, hcur, hn, he, h => by
    simp only [List.flatMap_cons, List.append_assoc] at h
    rcases variant_sim s e hcur v (hn v List.mem_cons_self) ex he _ text h with
      ⟨h1, t, r, n, hv, ht⟩ | ⟨h1, r1, it, hv, h3, g1⟩
    · exact .inl ⟨h1, fun hx => ht (hx v List.mem_cons_self t r n hv)⟩
    · rcases variants_sim s vs { e with variants := e.variants ++ [it] } eSemi k r1 hcur
        (fun x hx => hn x (List.mem_cons_of_mem _ hx)) (.inr rfl) h3 with
        ⟨i1, i2⟩ | ⟨i1, r2, e2, its, i3, i4, i5, g2⟩
      · exact .inl ⟨g1.2 _ i1, fun hx => i2 fun x hm => hx x (List.mem_cons_of_mem _ hm)⟩
      · right
        refine ⟨?_, r2, e2, it :: its, i3, by simp [hv, i4], i5, ?_⟩
        · intro x hx
          rcases List.mem_cons.mp hx with rfl | hx
          · exact h1
          · exact i1 x hx
        · have g := g1.trans g2
          simpa [List.append_assoc] using g

end Verif.Prot.Syntax
