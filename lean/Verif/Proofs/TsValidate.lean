import Verif.Spec.TsValidate
import Verif.Spec.TsCodec
set_option autoImplicit false
/-!
Lemmas about the TypeScript validator and encoder for plain JavaScript values.
-/
namespace Verif.Ts

open Verif

theorem size_cast (n : Num) : ((256 ^ n.size : Nat) : Int) = 2 ^ (8 * n.size) := by
  cases n <;> rfl

theorem pattern_mod {n : Num} {z : Int} {v : Fin (256 ^ n.size)} (h : Pattern n z v) :
    (z % ((256 ^ n.size : Nat) : Int)).toNat = v.val := by
  obtain ⟨k, rfl⟩ := h
  rw [← size_cast, Int.add_mul_emod_self_right, Int.emod_eq_of_lt (by omega)]
  · rfl
  · exact_mod_cast v.isLt

theorem exists_pattern (n : Num) (z : Int) : ∃ v, Pattern n z v := by
  have hp : (0 : Int) < ((256 ^ n.size : Nat) : Int) := by
    rw [size_cast]; cases n <;> decide
  have h0 := Int.emod_nonneg z (Int.ne_of_gt hp)
  have h1 := Int.emod_lt_of_pos z hp
  refine ⟨⟨(z % ((256 ^ n.size : Nat) : Int)).toNat, ?_⟩, z / ((256 ^ n.size : Nat) : Int), ?_⟩
  · omega
  · rw [← size_cast]
    simp only [Int.toNat_of_nonneg h0]
    rw [Int.add_comm, Int.ediv_mul_add_emod]

theorem whole_floor {x : JsNum} {z : Int} (h : Whole x z) : x.floor = some (z, false) := by
  rcases h with h | ⟨h, rfl⟩ <;> subst h <;> rfl

/-- Smallest and largest integer of a type. -/
def bounds : Num → Int × Int
  | .u64 => (0, 18446744073709551615)
  | .i64 => (-9223372036854775808, 9223372036854775807)
  | n => limits n

theorem inRange_iff {n : Num} {z : Int} (h1 : n ≠ .f32) (h2 : n ≠ .f64) :
    InRange n z ↔ (bounds n).1 ≤ z ∧ z ≤ (bounds n).2 := by
  cases n <;> first | contradiction | (simp [InRange, Signed, bounds, limits, Num.size]; omega)

/-- What fits is written as it is. -/
theorem writeNum_fits {eng : Engine} {n : Num} {x : JsVal} {v : Fin (256 ^ n.size)}
    (h : FitsNum eng n x v) : writeNum eng n x = some (leBytes n.size v.val) := by
  have small : ∀ (n : Num) (x : JsVal) (v : Fin (256 ^ n.size)),
      (∃ y z, x = .num y ∧ Whole y z ∧ InRange n z ∧ Pattern n z v) →
      n ≠ .u64 → n ≠ .i64 → n ≠ .f32 → n ≠ .f64 →
      writeNum eng n x = some (leBytes n.size v.val) := by
    rintro n x v ⟨y, z, rfl, hw, hr, hp⟩ h1 h2 h3 h4
    have hm := pattern_mod hp
    have hl : within (limits n).1 (limits n).2 (z, false) = true := by
      rw [inRange_iff h3 h4] at hr
      cases n <;> first | contradiction | simpa [within, bounds] using hr
    rcases hw with hw | ⟨hw, rfl⟩ <;> subst hw <;>
      cases n <;> first | contradiction | simp_all [writeNum, JsNum.floor]
  cases n
  case u64 =>
    obtain ⟨z, rfl, hr, hp⟩ := h
    have hm := pattern_mod hp
    have hr : 0 ≤ z ∧ z ≤ 18446744073709551615 := (inRange_iff (by decide) (by decide)).1 hr
    have hm' : (z % 18446744073709551616).toNat = v.val := hm
    rw [writeNum, if_pos (by omega)]
    rw [Int.emod_eq_of_lt (by omega) (by omega)] at hm'
    rw [hm']; rfl
  case i64 =>
    obtain ⟨z, rfl, hr, hp⟩ := h
    have hm := pattern_mod hp
    have hr : -9223372036854775808 ≤ z ∧ z ≤ 9223372036854775807 :=
      (inRange_iff (by decide) (by decide)).1 hr
    have hm' : (z % 18446744073709551616).toNat = v.val := hm
    rw [writeNum, if_pos (by omega), hm']; rfl
  case f32 => obtain ⟨y, rfl, rfl⟩ := h; rfl
  case f64 => obtain ⟨y, rfl, rfl⟩ := h; rfl
  all_goals exact small _ x v h (by decide) (by decide) (by decide) (by decide)

theorem visited_map (xs : List JsVal) : visited (xs.map some) = xs := by
  induction xs with
  | nil => rfl
  | cons x xs ih => simp [visited]

theorem holes_map (xs : List JsVal) : holes (xs.map some) = 0 := by
  simp [holes, visited_map]

theorem writeNums_fits {eng : Engine} {n : Num} : ∀ {xs : List JsVal}
    {vs : List (Fin (256 ^ n.size))}, Pairs (FitsNum eng n) xs vs →
    writeNums eng n 0 xs = some (encNumArray n vs)
  | [], [], _ => by simp [writeNums, encNumArray]
  | x :: xs, v :: vs, h => by
    rw [writeNums, writeNum_fits h.1, writeNums_fits h.2]; rfl
  | [], _ :: _, h => h.elim
  | _ :: _, [], h => h.elim

theorem boolBytes_fits : ∀ {xs : List JsVal} {vs : List Bool},
    Pairs (fun x v => x = JsVal.bool v) xs vs → boolBytes 0 xs = encBoolArray vs
  | [], [], _ => rfl
  | x :: xs, v :: vs, h => by
    have ih := boolBytes_fits h.2
    have e : x = .bool v := h.1
    subst e
    simp only [boolBytes, encBoolArray, List.replicate_zero, List.append_nil] at ih ⊢
    rw [List.flatMap_cons, List.flatMap_cons, ih]; rfl
  | [], _ :: _, h => h.elim
  | _ :: _, [], h => h.elim

theorem textsOf_fits : ∀ {xs : List JsVal} {vs : List (List Char)},
    Pairs (fun x v => x = JsVal.str v) xs vs → textsOf xs = .ok vs
  | [], [], _ => rfl
  | x :: xs, v :: vs, h => by
    have e : x = .str v := h.1
    subst e
    rw [textsOf, textsOf_fits h.2]; rfl
  | [], _ :: _, h => h.elim
  | _ :: _, [], h => h.elim

theorem encSelf_pairs {α β : Type} {f : α → Res Bytes} {g : β → Res Bytes} {R : α → β → Prop}
    (hR : ∀ a b, R a b → f a = g b) : ∀ {as : List α} {bs : List β}, Pairs R as bs →
    encSelfArray f as = encSelfArray g bs
  | [], [], _ => rfl
  | a :: as, b :: bs, h => by rw [encSelfArray, encSelfArray, hR a b h.1, encSelf_pairs hR h.2]
  | [], _ :: _, h => h.elim
  | _ :: _, [], h => h.elim

/-- The private enum object agrees with the value. -/
def KeptEnum (eng : Engine) (vs : NVariants) (h : Option (Nat × JsVal)) (w : Option vs.erase.Val) :
    Prop :=
  match h, w with
  | none, none => True
  | some (i, x), some w => Holds eng vs i x w
  | _, _ => False

/-- The same for an element of any type. -/
def KeptOne (eng : Engine) : (e : NElem) → Option (Nat × JsVal) → e.erase.Val → Prop
  | .enum vs, h, w => KeptEnum eng vs h w
  | _, _, _ => True

mutual
theorem encFields_fits (eng : Engine) : (fs : NFields) → ∀ (get : List Char → JsVal)
    (held : List Char → Option (Nat × JsVal)) (v : fs.erase.Val), FitsFields eng fs get v →
    Kept eng fs held v → encFields eng fs get held = Fields.enc fs.erase v
  | .nil, _, _, _, _, _ => rfl
  | .cons name id e rep opt rest, get, held, v, hf, hk => by
    obtain ⟨h1, h2⟩ := hf
    have htl : encFields eng rest get held = Fields.enc rest.erase v.2 := by
      refine encFields_fits eng rest get held v.2 h2 ?_
      cases e <;> cases rep <;> first | exact hk | exact hk.2
    have one := recOne_fits eng e id
    have many := recMany_fits eng e id
    obtain ⟨x, tl⟩ := v
    have both : ∀ {a b c d : Res Bytes}, a = c → b = d →
        (do let p ← a; let q ← b; pure (p ++ q)) = (do let p ← c; let q ← d; pure (p ++ q)) :=
      fun h1 h2 => by rw [h1, h2]
    have undef : ∀ {y : JsVal} {a b : Res Bytes}, y = .undefined →
        (if true && y.isUndef then a else b) = a := fun h => by rw [h]; rfl
    have defd : ∀ {y : JsVal} {a b : Res Bytes}, y ≠ .undefined →
        (if true && y.isUndef then a else b) = b := fun {y _ _} h => by
      cases y <;> first | rfl | exact absurd rfl h
    cases opt
    · cases rep
      · refine both (one _ _ x h1 ?_) htl
        cases e <;> first | trivial | exact hk.1
      · exact both (many _ x h1) htl
    · cases x with
      | none => cases rep <;> exact both (undef h1) htl
      | some x =>
        cases rep
        · refine both ((defd h1.1).trans (one _ _ x h1.2 ?_)) htl
          cases e <;> first | trivial | exact hk.1
        · exact both ((defd h1.1).trans (many _ x h1.2)) htl
theorem recOne_fits (eng : Engine) : (e : NElem) → ∀ (id : UInt16) (x : JsVal)
    (h : Option (Nat × JsVal)) (v : e.erase.Val), FitsOne eng e x v →
    KeptOne eng e h v →
    recOne eng e id x h = Elem.rec e.erase id v
  | .num n, id, x, h, v, hf, _ => by rw [recOne, writeNum_fits hf]; rfl
  | .bool, id, x, h, v, hf, _ => by
    have hf : x = .bool v := hf
    subst hf; rfl
  | .str, id, x, h, v, hf, _ => by
    have hf : x = .str v := hf
    subst hf; rfl
  | .struct cls sig fs, id, x, h, v, hf, _ => by
    obtain ⟨ps, hidden, rfl, h1, h2⟩ := hf
    rw [recOne, encFields_fits eng fs _ _ v h1 h2]; rfl
  | .enum vs, id, x, h, v, _, hk => by
    rcases h with _ | ⟨i, y⟩ <;> rcases v with _ | w
    · rfl
    · exact hk.elim
    · exact hk.elim
    · have := encChoice_fits eng vs i y w hk 0
      rw [recOne]
      simp only [Nat.zero_add] at this
      rw [this]; rfl
theorem recMany_fits (eng : Engine) : (e : NElem) → ∀ (id : UInt16) (x : JsVal)
    (vs : List e.erase.Val), FitsRep (FitsOne eng e) true x vs →
    recMany eng e id x = Elem.recArray e.erase id vs
  | .num n, id, x, vs, hf => by
    obtain ⟨xs, rfl, hp⟩ := hf
    rw [recMany, visited_map, holes_map, writeNums_fits hp]; rfl
  | .bool, id, x, vs, hf => by
    obtain ⟨xs, rfl, hp⟩ := hf
    rw [recMany, visited_map, holes_map, boolBytes_fits hp]; rfl
  | .str, id, x, vs, hf => by
    obtain ⟨xs, rfl, hp⟩ := hf
    rw [recMany, visited_map, textsOf_fits hp]; rfl
  | .struct cls sig fs, id, x, vs, hf => by
    obtain ⟨xs, rfl, hp⟩ := hf
    rw [recMany, visited_map, encSelf_pairs (g := Fields.enc fs.erase) ?_ hp]
    · rfl
    · rintro a b ⟨ps, hidden, rfl, h1, h2⟩
      exact encFields_fits eng fs _ _ b h1 h2
  | .enum vs, id, x, ws, hf => by
    obtain ⟨xs, rfl, hp⟩ := hf
    rfl
theorem encChoice_fits (eng : Engine) : (vs : NVariants) → ∀ (i : Nat) (x : JsVal)
    (w : vs.erase.Val), Holds eng vs i x w → ∀ k,
    encChoice eng vs i (k + i) x = Variants.enc vs.erase k w
  | .nil, _, _, w, _ => nomatch w
  | .cons name e rep rest, i, x, .inr w, hf => by
    obtain ⟨j, rfl, hh⟩ := hf
    intro k
    have ih := encChoice_fits eng rest j x w hh (k + 1)
    rw [show k + 1 + j = k + (j + 1) by omega] at ih
    cases e <;> cases rep <;> exact ih
  | .cons name e rep rest, i, x, .inl v, hf => by
    obtain ⟨rfl, hh⟩ := hf
    intro k
    have hf := encFields_of eng e
    cases rep
    · cases e with
      | num n => rw [encChoice, writeNum_fits hh]; rfl
      | bool =>
        have hh : x = .bool v := hh
        subst hh; rfl
      | str =>
        have hh : x = .str v := hh
        subst hh; rfl
      | struct cls sig fs =>
        obtain ⟨ps, hidden, rfl, h1, h2⟩ := hh
        show (do let b ← encFields eng fs (prop ps) (heldIn hidden); pure (leBytes 2 (k + 0) ++ b))
          = _
        rw [hf cls sig fs rfl _ _ v h1 h2]; rfl
      | enum us => rfl
    · obtain ⟨xs, rfl, hp⟩ := hh
      cases e with
      | num n =>
        show (do let b ← orThrow (writeNums eng n (holes (xs.map some)) (visited (xs.map some)))
                 pure (leBytes 2 (k + 0) ++ b)) = _
        rw [visited_map, holes_map, writeNums_fits hp]; rfl
      | bool =>
        show Res.ok (leBytes 2 (k + 0) ++ boolBytes (holes (xs.map some)) (visited (xs.map some)))
          = _
        rw [visited_map, holes_map, boolBytes_fits hp]; rfl
      | str =>
        show (do let ss ← textsOf (visited (xs.map some))
                 let b ← encStrArray ss
                 pure (leBytes 2 (k + 0) ++ b)) = _
        rw [visited_map, textsOf_fits hp]; rfl
      | struct cls sig fs => rfl
      | enum us => rfl
theorem encFields_of (eng : Engine) : (e : NElem) → ∀ (cls : Nat) (sig : List Char) (fs : NFields),
    e = .struct cls sig fs → ∀ (get : List Char → JsVal)
    (held : List Char → Option (Nat × JsVal)) (v : fs.erase.Val), FitsFields eng fs get v →
    Kept eng fs held v → encFields eng fs get held = Fields.enc fs.erase v
  | .num _, _, _, _, h => nomatch h
  | .bool, _, _, _, h => nomatch h
  | .str, _, _, _, h => nomatch h
  | .enum _, _, _, _, h => nomatch h
  | .struct _ _ fs, _, _, _, rfl => encFields_fits eng fs
end

/-! ### The validator accepts what fits -/

theorem undef_false {x : JsVal} (h : x ≠ .undefined) : x.isUndef = false := by
  cases x <;> first | rfl | exact absurd rfl h

theorem fitsNum_defined {eng : Engine} {n : Num} {x : JsVal} {v : Fin (256 ^ n.size)}
    (h : FitsNum eng n x v) : x ≠ .undefined := by
  rintro rfl
  cases n <;> simp [FitsNum] at h

theorem validNum_fits {eng : Engine} {n : Num} {x : JsVal} {v : Fin (256 ^ n.size)}
    (h : FitsNum eng n x v) (hu : Usual (.num n) x) : validNum n x = true := by
  cases n
  case u64 =>
    obtain ⟨z, rfl, hr, _⟩ := h
    have hr : 0 ≤ z ∧ z ≤ 18446744073709551615 := (inRange_iff (by decide) (by decide)).1 hr
    have h2 : z < 9007199254740992 := hu z rfl
    rw [show validNum .u64 (.big z) = (decide (0 ≤ z) && decide (z ≤ 9007199254740991)) from rfl]
    simp only [Bool.and_eq_true, decide_eq_true_eq]; omega
  case i64 =>
    obtain ⟨z, rfl, hr, _⟩ := h
    have h2 : -9007199254740992 < z ∧ z < 9007199254740992 := hu z rfl
    rw [show validNum .i64 (.big z) =
      (decide (-9007199254740991 ≤ z) && decide (z ≤ 9007199254740991)) from rfl]
    simp only [Bool.and_eq_true, decide_eq_true_eq]; omega
  case f32 =>
    obtain ⟨y, rfl, _⟩ := h
    cases y <;> first | rfl | exact absurd rfl hu.1 | exact absurd rfl (hu.2 _)
  case f64 =>
    obtain ⟨y, rfl, _⟩ := h
    cases y <;> first | rfl | exact absurd rfl hu.1 | exact absurd rfl (hu.2 _)
  all_goals
    obtain ⟨y, z, rfl, hw, hr, _⟩ := h
    rw [inRange_iff (by decide) (by decide)] at hr
    simp only [validNum, whole_floor hw]
    simpa [within, bounds] using hr

theorem validOne_fits {eng : Engine} : {e : NElem} → {x : JsVal} → {v : e.erase.Val} →
    FitsOne eng e x v → Usual e x → (∀ vs, e ≠ .enum vs) → validOne e x = true
  | .num n, x, v, h, hu, _ => validNum_fits h hu
  | .bool, x, v, h, _, _ => by have h : x = .bool v := h; subst h; rfl
  | .str, x, v, h, _, _ => by have h : x = .str v := h; subst h; rfl
  | .struct cls sig fs, x, v, h, _, _ => by
    obtain ⟨ps, hidden, rfl, _⟩ := h
    simp [validOne]
  | .enum vs, _, _, _, _, he => absurd rfl (he vs)

theorem pairs_all {α β : Type} {R : α → β → Prop} {P : α → Prop} (hR : ∀ a b, R a b → P a) :
    ∀ {as : List α} {bs : List β}, Pairs R as bs → ∀ a ∈ as, P a
  | [], _, _ => by intro a ha; cases ha
  | a :: as, b :: bs, h => by
    intro c hc
    rcases List.mem_cons.1 hc with rfl | hc
    · exact hR _ b h.1
    · exact pairs_all hR h.2 c hc
  | _ :: _, [], h => h.elim

theorem pairs_all' {α β : Type} {R : α → β → Prop} {P Q : α → Prop}
    (hR : ∀ a b, R a b → Q a → P a) : ∀ {as : List α} {bs : List β}, Pairs R as bs →
    (∀ a ∈ as, Q a) → ∀ a ∈ as, P a
  | [], _, _, _ => by intro a ha; cases ha
  | a :: as, b :: bs, h, hq => by
    intro c hc
    rcases List.mem_cons.1 hc with rfl | hc
    · exact hR _ b h.1 (hq _ hc)
    · exact pairs_all' hR h.2 (fun a ha => hq a (List.mem_cons_of_mem _ ha)) c hc
  | _ :: _, [], h, _ => h.elim

theorem validItem_fits {eng : Engine} {e : NElem} {rep : Bool} {x : JsVal}
    {v : Rep e.erase.Val rep} (h : FitsRep (FitsOne eng e) rep x v) (hu : UsualItem e rep x)
    (he : ∀ vs, e ≠ .enum vs) : validItem e rep x = true := by
  cases rep with
  | false => exact validOne_fits h hu he
  | true =>
    obtain ⟨xs, rfl, hp⟩ := h
    rw [validItem, visited_map, List.all_eq_true]
    exact pairs_all' (Q := Usual e) (fun a b hab hq => validOne_fits hab hq he) hp
      (fun a ha => hu _ rfl a (List.mem_map_of_mem ha))

theorem validOptions_bare : ∀ {vs : NVariants} {x : JsVal}, Bare vs x → validOptions vs x = some 0
  | .nil, _, _ => rfl
  | .cons name e rep rest, x, h => by
    rw [validOptions, h.1]
    exact validOptions_bare h.2

theorem noEnum_of_ok {e : NElem} (h : ¬ ∃ vs, e.erase = .enum vs) : ∀ vs, e ≠ .enum vs := by
  rintro vs rfl
  exact h ⟨_, rfl⟩

theorem validOptions_fits {eng : Engine} : ∀ {vs : NVariants} {x : JsVal} {w : vs.erase.Val},
    FitsChoice eng vs x w → EachOption UsualItem vs x → Spec.TsVariantsOk vs.erase →
    validOptions vs x = some 1
  | .nil, _, w, _, _, _ => nomatch w
  | .cons name e rep rest, x, .inl v, h, hu, ho => by
    obtain ⟨h0, h1, h2⟩ := h
    rw [validOptions, undef_false h0, validItem_fits h1 hu.1 (noEnum_of_ok ho.2.1),
      validOptions_bare h2]
    rfl
  | .cons name e rep rest, x, .inr w, h, hu, ho => by
    rw [validOptions, h.1]
    exact validOptions_fits (vs := rest) h.2 hu.2 ho.2.2.2

theorem validKind_fits {eng : Engine} {rep : Bool} {x : JsVal} : {e : NElem} →
    {v : Rep e.erase.Val rep} → FitsRep (FitsOne eng e) rep x v → InField UsualItem e rep x →
    Spec.TsElemOk e.erase → ¬ (rep = true ∧ ∃ vs, e.erase = .enum vs) → validKind e rep x = true
  | .enum vs, y, hy, hu, ho, hr => by
    cases rep with
    | true => exact absurd ⟨rfl, _, rfl⟩ hr
    | false =>
      obtain ⟨h0, h1⟩ := hy
      cases y with
      | none => simp [validKind, h0, validOptions_bare h1]
      | some w => simp [validKind, h0, validOptions_fits h1 hu ho.1]
  | .num n, y, hy, hu, _, _ => validItem_fits (e := .num n) hy hu (by intro vs hv; cases hv)
  | .bool, y, hy, hu, _, _ => validItem_fits (e := .bool) hy hu (by intro vs hv; cases hv)
  | .str, y, hy, hu, _, _ => validItem_fits (e := .str) hy hu (by intro vs hv; cases hv)
  | .struct c s f, y, hy, hu, _, _ =>
    validItem_fits (e := .struct c s f) hy hu (by intro vs hv; cases hv)

theorem validField_fits {eng : Engine} {e : NElem} {rep opt : Bool} {x : JsVal}
    {v : Opt (Rep e.erase.Val rep) opt} (h : FitsOpt (FitsRep (FitsOne eng e) rep) opt x v)
    (hu : InField UsualItem e rep x)
    (ho : Spec.TsElemOk e.erase) (hr : ¬ (rep = true ∧ ∃ vs, e.erase = .enum vs)) :
    validField e rep opt x = true := by
  unfold validField
  cases opt with
  | false => exact validKind_fits (v := v) h hu ho hr
  | true =>
    cases v with
    | none =>
      have h : x = .undefined := h
      subst h; rfl
    | some y =>
      rw [undef_false h.1]
      exact validKind_fits (v := y) h.2 hu ho hr

theorem validFields_fits {eng : Engine} {obj : JsVal} : ∀ {fs : NFields} {v : fs.erase.Val},
    FitsFields eng fs obj.get v → EachField UsualItem fs obj.get → Spec.TsFieldsOk fs.erase →
    validFields fs obj = true
  | .nil, _, _, _, _ => rfl
  | .cons name id e rep opt rest, v, h, hu, ho => by
    rw [validFields, Bool.and_eq_true]
    exact ⟨validField_fits h.1 hu.1 ho.1 ho.2.2.2.1, validFields_fits h.2 hu.2 ho.2.2.2.2⟩

/-! ### The constructor keeps what fits -/

theorem setLoop_bare {sigs : List (List Char)} : ∀ {vs : NVariants} {x : JsVal}, Bare vs x →
    ∀ (i : Nat) (cur : Option (Nat × JsVal)), setLoop sigs vs i x cur = .ok cur
  | .nil, _, _, _, _ => rfl
  | .cons name e rep rest, x, h, i, cur => by
    rw [setLoop, h.1]
    exact setLoop_bare h.2 _ _

theorem setOption_fits {eng : Engine} {sigs : List (List Char)} {e : NElem} {rep : Bool} {x : JsVal}
    {v : Rep e.erase.Val rep} (h : FitsRep (FitsOne eng e) rep x v)
    (he : ∀ vs, e ≠ .enum vs) (hr : ¬ (rep = true ∧ ∃ fs, e.erase = .struct fs))
    (hs : ∀ cls sig fs, e = .struct cls sig fs → sig ∈ sigs) : setOption sigs e x = .ok () := by
  cases e with
  | struct cls sig fs =>
    cases rep with
    | true => exact absurd ⟨rfl, _, rfl⟩ hr
    | false =>
      obtain ⟨ps, hidden, rfl, _⟩ := h
      have := hs cls sig fs rfl
      simp [setOption, this]
  | enum vs => exact absurd rfl (he vs)
  | num n => cases x <;> rfl
  | bool => cases x <;> rfl
  | str => cases x <;> rfl

theorem setLoop_fits {eng : Engine} {sigs : List (List Char)} : ∀ {vs : NVariants} {x : JsVal}
    {w : vs.erase.Val}, FitsChoice eng vs x w → Spec.TsVariantsOk vs.erase →
    (∀ s ∈ allowed vs, s ∈ sigs) → ∀ (i : Nat) (cur : Option (Nat × JsVal)),
    ∃ j y, setLoop sigs vs i x cur = .ok (some (i + j, y)) ∧ Holds eng vs j y w ∧
      ∃ name, vs.nameAt j = some name ∧ x.get name = y
  | .nil, _, w, _, _, _, _, _ => nomatch w
  | .cons name e rep rest, x, .inl v, h, ho, hs, i, cur => by
    obtain ⟨h0, h1, h2⟩ := h
    refine ⟨0, x.get name, ?_, ⟨rfl, h1⟩, name, rfl, rfl⟩
    rw [setLoop, undef_false h0, setOption_fits h1 (noEnum_of_ok ho.2.1) ho.2.2.1]
    · exact setLoop_bare h2 _ _
    · rintro cls sig fs rfl
      exact hs sig (List.mem_cons_self ..)
  | .cons name e rep rest, x, .inr w, h, ho, hs, i, cur => by
    have hs' : ∀ s ∈ allowed rest, s ∈ sigs := by
      intro s hm
      refine hs s ?_
      cases e <;> first | exact hm | exact List.mem_cons_of_mem _ hm
    obtain ⟨j, y, h3, h4, h5⟩ := setLoop_fits (vs := rest) h.2 ho.2.2.2 hs' (i + 1) cur
    refine ⟨j + 1, y, ?_, ⟨j, rfl, h4⟩, h5⟩
    rw [setLoop, h.1]
    rw [show i + (j + 1) = i + 1 + j by omega]
    exact h3

theorem setEnum_object {vs : NVariants} {x : JsVal} (h : x.isObject = true) (hk : x.keys ≤ 1) :
    setEnum vs x = setLoop (allowed vs) vs 0 x none := by
  cases x <;> first | contradiction | (unfold setEnum; exact if_neg (by omega))

theorem setEnum_fits {eng : Engine} {vs : NVariants} {x : JsVal} {w : Option vs.erase.Val}
    (h : FitsOne eng (.enum vs) x w) (hk : x.keys ≤ 1) (ho : Spec.TsVariantsOk vs.erase) :
    ∃ o, setEnum vs x = .ok o ∧ KeptEnum eng vs o w := by
  obtain ⟨h0, h1⟩ := h
  rw [setEnum_object h0 hk]
  cases w with
  | none => exact ⟨none, setLoop_bare h1 _ _, trivial⟩
  | some w =>
    obtain ⟨j, y, h2, h3, _⟩ := setLoop_fits h1 ho (fun _ h => h) 0 none
    rw [Nat.zero_add] at h2
    exact ⟨_, h2, h3⟩

theorem kept_congr {eng : Engine} {held held' : List Char → Option (Nat × JsVal)} :
    ∀ {fs : NFields} {v : fs.erase.Val}, (∀ n ∈ fs.names, held n = held' n) → Kept eng fs held v →
    Kept eng fs held' v
  | .nil, _, _, _ => trivial
  | .cons name id e rep opt rest, v, hn, hk => by
    have ih := kept_congr (eng := eng) (fs := rest) (v := v.2) (held := held) (held' := held')
      (fun n hm => hn n (List.mem_cons_of_mem _ hm))
    have h0 := hn name (List.mem_cons_self ..)
    cases e with
    | enum vs =>
      cases rep with
      | true => exact ih hk
      | false => exact ⟨h0 ▸ hk.1, ih hk.2⟩
    | _ => cases rep <;> exact ih hk

theorem heldIn_cons {name n : List Char} {o : Option (Nat × JsVal)}
    {tl : List (List Char × Option (Nat × JsVal))} (h : n ≠ name) :
    heldIn ((name, o) :: tl) n = heldIn tl n := by
  have : (n == name) = false := by simpa using h
  simp [heldIn, List.lookup, this]

theorem heldIn_self {name : List Char} {o : Option (Nat × JsVal)}
    {tl : List (List Char × Option (Nat × JsVal))} : heldIn ((name, o) :: tl) name = o := by
  simp [heldIn, List.lookup]

theorem setEnum_many {vs : NVariants} {x : JsVal} (h : x.isObject = true) (hk : ¬ x.keys ≤ 1) :
    setEnum vs x = .err := by
  cases x <;> first | contradiction | (unfold setEnum; exact if_pos (by omega))

theorem hiddenStep_fits {eng : Engine} {vs : NVariants} {opt : Bool} {x : JsVal}
    {v : Opt (Option vs.erase.Val) opt} (h : FitsOpt (FitsOne eng (.enum vs)) opt x v)
    (ho : Spec.TsVariantsOk vs.erase) :
    ∃ o, hiddenStep vs opt x = .ok o ∧ KeptOpt (KeptEnum eng vs) opt o
      (match opt, v with
        | false, v => if x.keys ≤ 1 then v else none
        | true, v => v.map (fun w => if x.keys ≤ 1 then w else none)) := by
  have step : ∀ {w : Option vs.erase.Val}, FitsOne eng (.enum vs) x w → ∃ o,
      (match setEnum vs x with
        | .ok o => Res.ok o
        | .err => .ok none
        | .panic => .panic) = .ok o ∧ KeptEnum eng vs o (if x.keys ≤ 1 then w else none) := by
    intro w hw
    by_cases hk : x.keys ≤ 1
    · obtain ⟨o, h1, h2⟩ := setEnum_fits hw hk ho
      exact ⟨o, by rw [h1], by rw [if_pos hk]; exact h2⟩
    · exact ⟨none, by rw [setEnum_many hw.1 hk], by rw [if_neg hk]; trivial⟩
  unfold hiddenStep
  cases opt with
  | false => exact step h
  | true =>
    cases v with
    | none =>
      have h0 : x = .undefined := h
      exact ⟨none, by rw [h0]; rfl, trivial⟩
    | some y =>
      obtain ⟨o, h1, h2⟩ := step h.2
      exact ⟨o, by rw [undef_false h.1]; exact h1, h2⟩

theorem hiddenOf_fits {eng : Engine} {obj : JsVal} : ∀ {fs : NFields} {v : fs.erase.Val},
    FitsFields eng fs obj.get v → Spec.TsFieldsOk fs.erase → fs.names.Nodup →
    ∃ hidden, hiddenOf fs obj = .ok hidden ∧ Kept eng fs (heldIn hidden) (asSent fs obj.get v)
  | .nil, _, _, _, _ => ⟨[], rfl, trivial⟩
  | .cons name id e rep opt rest, v, h, ho, hn => by
    obtain ⟨tl, ht, hk⟩ := hiddenOf_fits (fs := rest) (v := v.2) h.2 ho.2.2.2.2
      (List.nodup_cons.1 hn).2
    cases e with
    | enum vs =>
      cases rep with
      | true => exact absurd ⟨rfl, _, rfl⟩ ho.2.2.2.1
      | false =>
        obtain ⟨o, h1, h2⟩ := hiddenStep_fits h.1 ho.1.1
        refine ⟨(name, o) :: tl, ?_, ?_⟩
        · simp only [hiddenOf]; rw [h1, ht]; rfl
        · have hk' : Kept eng rest (heldIn ((name, o) :: tl)) (asSent rest obj.get v.2) := by
            refine kept_congr ?_ hk
            intro n hm
            rw [heldIn_cons]
            rintro rfl
            exact (List.nodup_cons.1 hn).1 hm
          cases opt
          · exact ⟨by rw [heldIn_self]; exact h2, hk'⟩
          · exact ⟨by rw [heldIn_self]; exact h2, hk'⟩
    | num n => exact ⟨tl, ht, by cases rep <;> exact hk⟩
    | bool => exact ⟨tl, ht, by cases rep <;> exact hk⟩
    | str => exact ⟨tl, ht, by cases rep <;> exact hk⟩
    | struct c s f =>
      exact ⟨tl, ht, by cases rep <;> exact hk⟩

theorem recEnum_kept {eng : Engine} {vs : NVariants} {id : UInt16} {x : JsVal}
    {h : Option (Nat × JsVal)} {v : Option vs.erase.Val} (hk : KeptEnum eng vs h v) :
    recOne eng (.enum vs) id x h = Elem.rec (.enum vs.erase) id v := by
  rcases h with _ | ⟨i, y⟩ <;> rcases v with _ | w
  · rfl
  · exact hk.elim
  · exact hk.elim
  · have := encChoice_fits eng vs i y w hk 0
    rw [recOne]
    simp only [Nat.zero_add] at this
    rw [this]; rfl

theorem asSent_eq : ∀ {fs : NFields} {get : List Char → JsVal} {v : fs.erase.Val},
    OneKey fs get → asSent fs get v = v
  | .nil, _, _, _ => rfl
  | .cons name id e rep opt rest, get, v, h => by
    have ih : OneKey rest get → asSent rest get v.2 = v.2 := asSent_eq (fs := rest)
    cases e with
    | enum vs =>
      have ih := ih h.2
      have h1 : (get name).keys ≤ 1 := h.1
      cases rep with
      | true => exact Prod.ext rfl ih
      | false =>
        cases opt with
        | false => exact Prod.ext (if_pos h1) ih
        | true =>
          refine Prod.ext ?_ ih
          obtain ⟨_ | x, tl⟩ := v
          · rfl
          · exact congrArg some (if_pos h1)
    | _ => exact Prod.ext rfl (ih h)

theorem encFields_sent {eng : Engine} {get : List Char → JsVal}
    {held : List Char → Option (Nat × JsVal)} : ∀ {fs : NFields} {v : fs.erase.Val},
    FitsFields eng fs get v → Kept eng fs held (asSent fs get v) →
    encFields eng fs get held = Fields.enc fs.erase (asSent fs get v)
  | .nil, _, _, _ => rfl
  | .cons name id e rep opt rest, v, hf, hk => by
    obtain ⟨h1, h2⟩ := hf
    have htl : encFields eng rest get held = Fields.enc rest.erase (asSent rest get v.2) := by
      refine encFields_sent h2 ?_
      cases e <;> cases rep <;> cases opt <;> first | exact hk | exact hk.2
    obtain ⟨x, tl⟩ := v
    have both : ∀ {a b c d : Res Bytes}, a = c → b = d →
        (do let p ← a; let q ← b; pure (p ++ q)) = (do let p ← c; let q ← d; pure (p ++ q)) :=
      fun h1 h2 => by rw [h1, h2]
    have undef : ∀ {y : JsVal} {a b : Res Bytes}, y = .undefined →
        (if true && y.isUndef then a else b) = a := fun h => by rw [h]; rfl
    have defd : ∀ {y : JsVal} {a b : Res Bytes}, y ≠ .undefined →
        (if true && y.isUndef then a else b) = b := fun {y _ _} h => by
      cases y <;> first | rfl | exact absurd rfl h
    have plain : (∀ vs, e ≠ .enum vs) → encFields eng (.cons name id e rep opt rest) get held =
        Fields.enc (.cons id e.erase rep opt rest.erase) (x, asSent rest get tl) := by
      intro he
      have kept : ∀ y, KeptOne eng e (held name) y := by
        intro y
        cases e <;> first | trivial | exact absurd rfl (he _)
      cases opt
      · cases rep
        · exact both (recOne_fits eng e id _ _ x h1 (kept _)) htl
        · exact both (recMany_fits eng e id _ x h1) htl
      · cases x with
        | none => cases rep <;> exact both (undef h1) htl
        | some x =>
          cases rep
          · exact both ((defd h1.1).trans (recOne_fits eng e id _ _ x h1.2 (kept _))) htl
          · exact both ((defd h1.1).trans (recMany_fits eng e id _ x h1.2)) htl
    cases e with
    | enum vs =>
      cases rep with
      | true =>
        cases opt
        · exact both (recMany_fits eng (.enum vs) id _ x h1) htl
        · cases x with
          | none => exact both (undef h1) htl
          | some x => exact both ((defd h1.1).trans (recMany_fits eng (.enum vs) id _ x h1.2)) htl
      | false =>
        cases opt
        · exact both (recEnum_kept hk.1) htl
        · cases x with
          | none => exact both (undef h1) htl
          | some x => exact both ((defd h1.1).trans (recEnum_kept hk.1)) htl
    | num n => exact plain (fun _ h => nomatch h)
    | bool => exact plain (fun _ h => nomatch h)
    | str => exact plain (fun _ h => nomatch h)
    | struct c s f => exact plain (fun _ h => nomatch h)

theorem prop_shownOf {obj : JsVal} : ∀ {fs : NFields} {n : List Char}, n ∈ fs.names →
    prop (shownOf fs obj) n = obj.get n
  | .nil, _, h => by cases h
  | .cons name id e rep opt rest, n, h => by
    by_cases hn : n = name
    · subst hn; simp [shownOf, prop]
    · have hb : (n == name) = false := by simpa using hn
      have ih := prop_shownOf (obj := obj) (fs := rest) (n := n)
        ((List.mem_cons.1 h).resolve_left hn)
      simpa [shownOf, prop, List.lookup, hb] using ih

theorem fitsFields_congr {eng : Engine} {get get' : List Char → JsVal} :
    ∀ {fs : NFields} {v : fs.erase.Val}, (∀ n ∈ fs.names, get n = get' n) →
    FitsFields eng fs get v → FitsFields eng fs get' v
  | .nil, _, _, _ => trivial
  | .cons name _ _ _ _ rest, _, hn, h =>
    ⟨hn name (List.mem_cons_self ..) ▸ h.1,
      fitsFields_congr (fs := rest) (fun n hm => hn n (List.mem_cons_of_mem _ hm)) h.2⟩

theorem asSent_congr {get get' : List Char → JsVal} : ∀ {fs : NFields} {v : fs.erase.Val},
    (∀ n ∈ fs.names, get n = get' n) → asSent fs get v = asSent fs get' v
  | .nil, _, _ => rfl
  | .cons name id e rep opt rest, v, hn => by
    have ih := asSent_congr (fs := rest) (v := v.2) (get := get) (get' := get')
      (fun n hm => hn n (List.mem_cons_of_mem _ hm))
    have h0 := hn name (List.mem_cons_self ..)
    cases e <;> cases rep <;> cases opt <;> simp only [asSent, h0, ih]

/-- An object that fits becomes an instance; in order if no enum object has two keys. -/
theorem fromObj_fits {eng : Engine} {cls : Nat} {sig : List Char} {fs : NFields} {obj : JsVal}
    {v : fs.erase.Val} (h : Fits eng fs obj v) (hu : EachField UsualItem fs obj.get)
    (ho : Spec.TsFieldsOk fs.erase) (hn : fs.names.Nodup) :
    ∃ inst, fromObj cls sig fs obj = .ok inst ∧
      encInst eng fs inst = encode fs.erase (asSent fs obj.get v) ∧
      (OneKey fs obj.get → FitsOne eng (.struct cls sig fs) inst v) := by
  obtain ⟨hidden, h1, h2⟩ := hiddenOf_fits h.2 ho hn
  have hf : FitsFields eng fs (prop (shownOf fs obj)) v :=
    fitsFields_congr (fun n hm => (prop_shownOf hm).symm) h.2
  refine ⟨.inst cls sig (shownOf fs obj) hidden, ?_, ?_, ?_⟩
  · have hv : validate fs obj = true := by
      rw [validate, Bool.and_eq_true]
      exact ⟨h.1, validFields_fits h.2 hu ho⟩
    rw [fromObj, if_pos hv, h1]; rfl
  · rw [← asSent_congr (fun n hm => prop_shownOf hm)] at h2 ⊢
    exact encFields_sent hf h2
  · intro hk
    rw [asSent_eq hk] at h2
    exact ⟨_, _, rfl, hf, h2⟩

/-- An instance in order is encoded as its value. -/
theorem encInst_fits {eng : Engine} {cls : Nat} {sig : List Char} {fs : NFields} {inst : JsVal}
    {v : fs.erase.Val} (h : FitsOne eng (.struct cls sig fs) inst v) :
    encInst eng fs inst = encode fs.erase v := by
  obtain ⟨ps, hidden, rfl, h1, h2⟩ := h
  exact encFields_fits eng fs _ _ v h1 h2

/-! ### What the validator accepts fits -/

theorem sound_small {n : Num} {y : JsNum} (h3 : n ≠ .f32) (h4 : n ≠ .f64)
    (hl : bounds n = limits n)
    (h : (match y.floor with
      | none => false
      | some p => within (limits n).1 (limits n).2 p) = true)
    (hx : ∀ lo tag, JsVal.num y ≠ .num (.frac lo tag)) :
    ∃ v, ∃ y' z, JsVal.num y = .num y' ∧ Whole y' z ∧ InRange n z ∧ Pattern n z v := by
  have key : ∀ z, Whole y z → within (limits n).1 (limits n).2 (z, false) = true →
      ∃ v, ∃ y' z, JsVal.num y = .num y' ∧ Whole y' z ∧ InRange n z ∧ Pattern n z v := by
    intro z hw hz
    obtain ⟨v, hv⟩ := exists_pattern n z
    refine ⟨v, y, z, rfl, hw, ?_, hv⟩
    rw [inRange_iff h3 h4, hl]
    simpa [within] using hz
  cases y with
  | nan => cases h
  | inf b => cases h
  | int z => exact key z (.inl rfl) h
  | negZero => exact key 0 (.inr ⟨rfl, rfl⟩) h
  | frac lo tag => exact absurd rfl (hx lo tag)

theorem sound_num {eng : Engine} {n : Num} {x : JsVal} (h : validNum n x = true)
    (hx : Exact eng (.num n) x) : (∃ v, FitsNum eng n x v) ∧ Usual (.num n) x := by
  cases n
  case u64 =>
    cases x <;> first | contradiction | skip
    rename_i z
    have h : 0 ≤ z ∧ z ≤ 9007199254740991 := by
      have h : (decide (0 ≤ z) && decide (z ≤ 9007199254740991)) = true := h
      simpa using h
    obtain ⟨v, hv⟩ := exists_pattern .u64 z
    refine ⟨⟨v, z, rfl, ?_, hv⟩, ?_⟩
    · rw [inRange_iff (by decide) (by decide)]
      show (0 : Int) ≤ z ∧ z ≤ 18446744073709551615
      omega
    · rintro _ ⟨⟩
      show z < 9007199254740992
      omega
  case i64 =>
    cases x <;> first | contradiction | skip
    rename_i z
    have h : -9007199254740991 ≤ z ∧ z ≤ 9007199254740991 := by
      have h : (decide (-9007199254740991 ≤ z) && decide (z ≤ 9007199254740991)) = true := h
      simpa using h
    obtain ⟨v, hv⟩ := exists_pattern .i64 z
    refine ⟨⟨v, z, rfl, ?_, hv⟩, ?_⟩
    · rw [inRange_iff (by decide) (by decide)]
      show (-9223372036854775808 : Int) ≤ z ∧ z ≤ 9223372036854775807
      omega
    · rintro _ ⟨⟩
      show -9007199254740992 < z ∧ z < 9007199254740992
      omega
  case f32 =>
    cases x <;> first | contradiction | skip
    rename_i y
    refine ⟨⟨_, y, rfl, rfl⟩, ?_, ?_⟩
    · rintro ⟨⟩; cases h
    · rintro b ⟨⟩; cases h
  case f64 =>
    cases x <;> first | contradiction | skip
    rename_i y
    refine ⟨⟨_, y, rfl, rfl⟩, ?_, ?_⟩
    · rintro ⟨⟩; cases h
    · rintro b ⟨⟩; cases h
  all_goals
    cases x <;> first | contradiction | skip
    exact ⟨sound_small (by decide) (by decide) rfl h hx, trivial⟩

theorem sound_one {eng : Engine} : {e : NElem} → {x : JsVal} → validOne e x = true →
    Exact eng e x → (∃ v, FitsOne eng e x v) ∧ Usual e x
  | .num n, x, h, hx => sound_num h hx
  | .bool, x, h, _ => by
    cases x <;> first | contradiction | exact ⟨⟨_, rfl⟩, trivial⟩
  | .str, x, h, _ => by
    cases x <;> first | contradiction | exact ⟨⟨_, rfl⟩, trivial⟩
  | .struct cls sig fs, x, h, hx => by
    cases x <;> first | contradiction | skip
    rename_i c s ps hidden
    have h : (c == cls) = true := h
    rw [beq_iff_eq] at h
    subst h
    exact ⟨hx _ _ _ rfl, trivial⟩
  | .enum vs, x, h, _ => by cases h

theorem sound_list {eng : Engine} {e : NElem} : ∀ {xs : List (Option JsVal)},
    (visited xs).all (validOne e) = true → (∀ y, some y ∈ xs → Exact eng e y) → none ∉ xs →
    (∃ ys vs, xs = ys.map some ∧ Pairs (FitsOne eng e) ys vs) ∧ ∀ y, some y ∈ xs → Usual e y
  | [], _, _, _ => ⟨⟨[], [], rfl, trivial⟩, by intro y hy; cases hy⟩
  | none :: xs, _, _, hn => absurd (List.mem_cons_self ..) hn
  | some x :: xs, h, hx, hn => by
    have h : (x :: visited xs).all (validOne e) = true := h
    rw [List.all_cons, Bool.and_eq_true] at h
    obtain ⟨⟨ys, vs, rfl, hp⟩, hu⟩ := sound_list h.2
      (fun y hy => hx y (List.mem_cons_of_mem _ hy)) (fun hm => hn (List.mem_cons_of_mem _ hm))
    obtain ⟨⟨v, hv⟩, hu'⟩ := sound_one h.1 (hx x (List.mem_cons_self ..))
    refine ⟨⟨x :: ys, v :: vs, rfl, hv, hp⟩, ?_⟩
    intro y hy
    rcases List.mem_cons.1 hy with he | hy
    · cases he; exact hu'
    · exact hu y hy

theorem sound_item {eng : Engine} {e : NElem} {rep : Bool} {x : JsVal}
    (h : validItem e rep x = true) (hx : ExactItem eng e rep x) :
    (∃ v, FitsRep (FitsOne eng e) rep x v) ∧ UsualItem e rep x := by
  cases rep with
  | false => exact sound_one h hx.1
  | true =>
    cases x <;> first | contradiction | skip
    rename_i xs
    obtain ⟨⟨ys, vs, rfl, hp⟩, hu⟩ := sound_list h (hx.1 xs rfl) (hx.2 rfl xs rfl)
    exact ⟨⟨vs, ys, rfl, hp⟩, by rintro _ ⟨⟩; exact hu⟩

theorem usual_undefined (e : NElem) (rep : Bool) : UsualItem e rep .undefined := by
  cases rep with
  | false =>
    cases e with
    | num n =>
      cases n <;> first
        | trivial
        | exact (fun _ h => nomatch h)
        | exact ⟨(fun h => nomatch h), (fun _ h => nomatch h)⟩
    | _ => trivial
  | true => exact fun _ h => nomatch h

theorem sound_options {eng : Engine} : ∀ {vs : NVariants} {x : JsVal} {k : Nat},
    validOptions vs x = some k → EachOption (ExactItem eng) vs x →
    EachOption UsualItem vs x ∧ (k = 0 → Bare vs x) ∧ (k = 1 → ∃ w, FitsChoice eng vs x w)
  | .nil, _, _, h, _ => by
    cases h
    exact ⟨trivial, fun _ => trivial, fun h => nomatch h⟩
  | .cons name e rep rest, x, k, h, hx => by
    rw [validOptions] at h
    by_cases hd : x.get name = .undefined
    · rw [hd] at h
      obtain ⟨h1, h2, h3⟩ := sound_options (vs := rest) h hx.2
      refine ⟨⟨hd ▸ usual_undefined e rep, h1⟩, fun hk => ⟨hd, h2 hk⟩, fun hk => ?_⟩
      obtain ⟨w, hw⟩ := h3 hk
      exact ⟨.inr w, hd, hw⟩
    · rw [undef_false hd] at h
      replace h : (if validItem e rep (x.get name) then (validOptions rest x).map (· + 1)
        else none) = some k := h
      split at h
      case isFalse => cases h
      case isTrue hv =>
        obtain ⟨⟨v, hv⟩, hu⟩ := sound_item hv hx.1
        cases hr : validOptions rest x with
        | none => rw [hr] at h; cases h
        | some j =>
          rw [hr] at h
          have h : j + 1 = k := Option.some.inj h
          obtain ⟨h1, h2, _⟩ := sound_options (vs := rest) hr hx.2
          refine ⟨⟨hu, h1⟩, (fun hk => by omega), fun hk => ?_⟩
          exact ⟨.inl v, hd, hv, h2 (by omega)⟩

theorem sound_kind {eng : Engine} {rep : Bool} {x : JsVal} : {e : NElem} →
    validKind e rep x = true → InField (ExactItem eng) e rep x →
    ¬ (rep = true ∧ ∃ vs, e.erase = .enum vs) →
    (∃ v, FitsRep (FitsOne eng e) rep x v) ∧ InField UsualItem e rep x
  | .enum vs, h, hx, hr => by
    cases rep with
    | true => exact absurd ⟨rfl, _, rfl⟩ hr
    | false =>
      rw [validKind, Bool.and_eq_true] at h
      obtain ⟨h0, h⟩ := h
      cases ho : validOptions vs x with
      | none => rw [ho] at h; cases h
      | some k =>
        rw [ho] at h
        have hk : k ≤ 1 := by simpa using h
        obtain ⟨h1, h2, h3⟩ := sound_options ho hx
        refine ⟨?_, h1⟩
        by_cases h4 : k = 0
        · exact ⟨none, h0, h2 h4⟩
        · obtain ⟨w, hw⟩ := h3 (by omega)
          exact ⟨some w, h0, hw⟩
  | .num n, h, hx, _ => sound_item (e := .num n) h hx
  | .bool, h, hx, _ => sound_item (e := .bool) h hx
  | .str, h, hx, _ => sound_item (e := .str) h hx
  | .struct c s f, h, hx, _ => sound_item (e := .struct c s f) h hx

theorem bare_undefined : ∀ vs : NVariants, Bare vs .undefined
  | .nil => trivial
  | .cons _ _ _ rest => ⟨rfl, bare_undefined rest⟩

theorem usualOption_undefined : ∀ vs : NVariants, EachOption UsualItem vs .undefined
  | .nil => trivial
  | .cons _ e rep rest => ⟨usual_undefined e rep, usualOption_undefined rest⟩

theorem usualField_undefined (e : NElem) (rep : Bool) : InField UsualItem e rep .undefined := by
  cases e with
  | enum vs => exact usualOption_undefined vs
  | _ => exact usual_undefined _ rep

theorem sound_field {eng : Engine} {e : NElem} {rep opt : Bool} {x : JsVal}
    (h : validField e rep opt x = true) (hx : InField (ExactItem eng) e rep x)
    (hr : ¬ (rep = true ∧ ∃ vs, e.erase = .enum vs)) :
    (∃ v, FitsOpt (FitsRep (FitsOne eng e) rep) opt x v) ∧ InField UsualItem e rep x := by
  unfold validField at h
  cases opt with
  | false => exact sound_kind h hx hr
  | true =>
    by_cases hd : x = .undefined
    · subst hd
      exact ⟨⟨none, rfl⟩, usualField_undefined e rep⟩
    · rw [undef_false hd] at h
      obtain ⟨⟨v, hv⟩, hu⟩ := sound_kind h hx hr
      exact ⟨⟨some v, hd, hv⟩, hu⟩

theorem sound_fields {eng : Engine} {obj : JsVal} : ∀ {fs : NFields},
    validFields fs obj = true → EachField (ExactItem eng) fs obj.get → Spec.TsFieldsOk fs.erase →
    (∃ v, FitsFields eng fs obj.get v) ∧ EachField UsualItem fs obj.get
  | .nil, _, _, _ => ⟨⟨(), trivial⟩, trivial⟩
  | .cons name id e rep opt rest, h, hx, ho => by
    rw [validFields, Bool.and_eq_true] at h
    obtain ⟨⟨v, hv⟩, hu⟩ := sound_field h.1 hx.1 ho.2.2.2.1
    obtain ⟨⟨vs, hvs⟩, hus⟩ := sound_fields h.2 hx.2 ho.2.2.2.2
    exact ⟨⟨(v, vs), hv, hvs⟩, hu, hus⟩

/-- An accepted object passed validation. -/
theorem fromObj_valid {cls : Nat} {sig : List Char} {fs : NFields} {obj inst : JsVal}
    (h : fromObj cls sig fs obj = .ok inst) : obj.isObject = true ∧ validFields fs obj = true := by
  unfold fromObj at h
  split at h
  case isTrue hv => rwa [validate, Bool.and_eq_true] at hv
  case isFalse => cases h

/-! ### `from` of a struct does not throw -/

theorem setLoop_no_panic {sigs : List (List Char)} : ∀ {vs : NVariants} {x : JsVal} {k : Nat},
    validOptions vs x = some k → Spec.TsVariantsOk vs.erase →
    ∀ (i : Nat) (cur : Option (Nat × JsVal)), setLoop sigs vs i x cur ≠ .panic
  | .nil, _, _, _, _, _, _ => fun h => nomatch h
  | .cons name e rep rest, x, k, h, ho, i, cur => by
    rw [validOptions] at h
    rw [setLoop]
    by_cases hd : x.get name = .undefined
    · rw [hd] at h ⊢
      exact setLoop_no_panic (vs := rest) h ho.2.2.2 _ _
    · rw [undef_false hd] at h ⊢
      replace h : (if validItem e rep (x.get name) then (validOptions rest x).map (· + 1)
        else none) = some k := h
      split at h
      case isFalse => cases h
      case isTrue hv =>
        cases hr : validOptions rest x with
        | none => rw [hr] at h; cases h
        | some j =>
          have ih := setLoop_no_panic (sigs := sigs) (vs := rest) hr ho.2.2.2 (i + 1)
            (some (i, x.get name))
          have hso : setOption sigs e (x.get name) ≠ .panic := by
            cases e with
            | enum us => exact absurd ⟨_, rfl⟩ ho.2.1
            | struct c s f =>
              cases rep with
              | true => exact absurd ⟨rfl, _, rfl⟩ ho.2.2.1
              | false =>
                have hv : validOne (.struct c s f) (x.get name) = true := hv
                cases hg : x.get name <;> rw [hg] at hv <;> first | contradiction | skip
                rename_i c' s' ps hidden
                show (if sigs.contains s' then Res.ok () else .err) ≠ .panic
                by_cases hm : sigs.contains s' = true
                · rw [if_pos hm]; intro hh; cases hh
                · rw [if_neg hm]; intro hh; cases hh
            | num n => cases x.get name <;> (intro hh; cases hh)
            | bool => cases x.get name <;> (intro hh; cases hh)
            | str => cases x.get name <;> (intro hh; cases hh)
          simp only [Bool.false_eq_true, if_false]
          cases hq : setOption sigs e (x.get name) with
          | ok _ => exact ih
          | err => intro hh; cases hh
          | panic => exact absurd hq hso

theorem hiddenStep_no_panic {vs : NVariants} {opt rep : Bool} {x : JsVal}
    (h : validField (.enum vs) rep opt x = true) (ho : Spec.TsVariantsOk vs.erase) :
    hiddenStep vs opt x ≠ .panic := by
  unfold validField at h
  unfold hiddenStep
  split
  case isTrue => intro hh; cases hh
  case isFalse hc =>
    rw [if_neg hc] at h
    rw [validKind, Bool.and_eq_true] at h
    obtain ⟨h0, h1⟩ := h
    have hs : setEnum vs x ≠ .panic := by
      cases hv : validOptions vs x with
      | none => rw [hv] at h1; cases h1
      | some k =>
        have hl := setLoop_no_panic (sigs := allowed vs) hv ho 0 none
        cases x <;> first | contradiction | skip
        all_goals
          simp only [setEnum]
          split
          · intro hh; cases hh
          · exact hl
    cases hq : setEnum vs x with
    | ok _ => intro hh; cases hh
    | err => intro hh; cases hh
    | panic => exact absurd hq hs

theorem hiddenOf_no_panic {obj : JsVal} : ∀ {fs : NFields}, validFields fs obj = true →
    Spec.TsFieldsOk fs.erase → ∃ hidden, hiddenOf fs obj = .ok hidden
  | .nil, _, _ => ⟨[], rfl⟩
  | .cons name id e rep opt rest, h, ho => by
    rw [validFields, Bool.and_eq_true] at h
    obtain ⟨tl, ht⟩ := hiddenOf_no_panic h.2 ho.2.2.2.2
    cases e with
    | enum vs =>
      have hp := hiddenStep_no_panic h.1 ho.1.1
      cases hq : hiddenStep vs opt (obj.get name) with
      | ok o => exact ⟨(name, o) :: tl, by simp only [hiddenOf]; rw [hq, ht]; rfl⟩
      | err =>
        exfalso
        unfold hiddenStep at hq
        split at hq
        · cases hq
        · split at hq <;> cases hq
      | panic => exact absurd hq hp
    | _ => exact ⟨tl, ht⟩

/-- `from` answers with an instance exactly if the value passes validation, else with an error. -/
theorem fromObj_total {cls : Nat} {sig : List Char} {fs : NFields} {obj : JsVal}
    (ho : Spec.TsFieldsOk fs.erase) :
    (∃ inst, fromObj cls sig fs obj = .ok inst) ∨ fromObj cls sig fs obj = .err := by
  unfold fromObj
  split
  case isFalse => exact .inr rfl
  case isTrue hv =>
    rw [validate, Bool.and_eq_true] at hv
    obtain ⟨hidden, hh⟩ := hiddenOf_no_panic hv.2 ho
    exact .inl ⟨_, by rw [hh]; rfl⟩

/-! ### Only declared properties count -/

theorem parts_congr {a b : JsVal} : ∀ {fs : NFields}, (∀ n ∈ fs.names, a.get n = b.get n) →
    validFields fs a = validFields fs b ∧ hiddenOf fs a = hiddenOf fs b ∧
      shownOf fs a = shownOf fs b
  | .nil, _ => ⟨rfl, rfl, rfl⟩
  | .cons name id e rep opt rest, hn => by
    have h0 := hn name (List.mem_cons_self ..)
    obtain ⟨i1, i2, i3⟩ := parts_congr (fs := rest) (fun n hm => hn n (List.mem_cons_of_mem _ hm))
    refine ⟨?_, ?_, ?_⟩
    · rw [validFields, validFields, h0, i1]
    · cases e <;> simp only [hiddenOf, h0, i2]
    · rw [shownOf, shownOf, h0, i3]

theorem fromObj_congr {cls : Nat} {sig : List Char} {fs : NFields} {a b : JsVal}
    (ha : a.isObject = b.isObject) (h : ∀ n ∈ fs.names, a.get n = b.get n) :
    fromObj cls sig fs a = fromObj cls sig fs b := by
  obtain ⟨h2, h3, h4⟩ := parts_congr h
  rw [fromObj, fromObj, validate, validate, ha, h2, h3, h4]

/-! ### Enum messages -/

theorem nameAt_mem : ∀ {vs : NVariants} {i : Nat} {name : List Char}, vs.nameAt i = some name →
    name ∈ vs.names
  | .nil, _, _, h => by cases h
  | .cons n _ _ _, 0, _, h => by cases h; exact List.mem_cons_self ..
  | .cons _ _ _ rest, i + 1, _, h => List.mem_cons_of_mem _ (nameAt_mem (vs := rest) h)

theorem get_single {name n : List Char} {y : JsVal} :
    (JsVal.obj [(name, y)]).get n = if n = name then y else .undefined := by
  by_cases h : n = name
  · subst h; simp [JsVal.get, prop]
  · have : (n == name) = false := by simpa using h
    simp [JsVal.get, prop, List.lookup, this, h]

theorem bare_single {name : List Char} {y : JsVal} : ∀ {vs : NVariants}, name ∉ vs.names →
    Bare vs (.obj [(name, y)])
  | .nil, _ => trivial
  | .cons n _ _ rest, h => by
    refine ⟨?_, bare_single (fun hm => h (List.mem_cons_of_mem _ hm))⟩
    rw [get_single, if_neg]
    rintro rfl
    exact h (List.mem_cons_self ..)

theorem holds_fits {eng : Engine} {name : List Char} {y : JsVal} (hy : y ≠ .undefined) :
    ∀ {vs : NVariants} {i : Nat} {w : vs.erase.Val}, Holds eng vs i y w →
    vs.nameAt i = some name → vs.names.Nodup → FitsChoice eng vs (.obj [(name, y)]) w
  | .nil, _, w, _, _, _ => nomatch w
  | .cons n e rep rest, i, .inl v, h, hn, hd => by
    obtain ⟨rfl, hh⟩ := h
    cases hn
    rw [FitsChoice, get_single, if_pos rfl]
    exact ⟨hy, hh, bare_single (List.nodup_cons.1 hd).1⟩
  | .cons n e rep rest, i, .inr w, h, hn, hd => by
    obtain ⟨j, rfl, hh⟩ := h
    have hn : rest.nameAt j = some name := hn
    refine ⟨?_, holds_fits (vs := rest) hy hh hn (List.nodup_cons.1 hd).2⟩
    rw [get_single, if_neg]
    rintro rfl
    exact (List.nodup_cons.1 hd).1 (nameAt_mem hn)

theorem fits_get_defined {eng : Engine} : ∀ {vs : NVariants} {x : JsVal} {w : vs.erase.Val},
    FitsChoice eng vs x w → vs.names.Nodup → ∀ {i : Nat} {y : JsVal} {name : List Char},
    Holds eng vs i y w → vs.nameAt i = some name → x.get name = y → y ≠ .undefined
  | .nil, _, w, _, _, _, _, _, _, _, _ => nomatch w
  | .cons n e rep rest, x, .inl v, h, _, i, y, name, hh, hn, hg => by
    obtain ⟨rfl, _⟩ := hh
    cases hn
    exact hg ▸ h.1
  | .cons n e rep rest, x, .inr w, h, hd, i, y, name, hh, hn, hg => by
    obtain ⟨j, rfl, hh⟩ := hh
    exact fits_get_defined (vs := rest) h.2 (List.nodup_cons.1 hd).2 hh hn hg

/-- An enum object that fits and has one key is set and encoded as it is, and read back. -/
theorem enum_fits {eng : Engine} {vs : NVariants} {obj : JsVal} {w : vs.erase.Val}
    (h0 : obj.isObject = true) (h : FitsChoice eng vs obj w) (hk : obj.keys ≤ 1)
    (ho : Spec.TsVariantsOk vs.erase) (hd : vs.names.Nodup) :
    ∃ o, setEnum vs obj = .ok o ∧ encEnum eng vs o = encodeEnum vs.erase (some w) ∧
      ∃ res, enumFromObj vs obj = .ok res ∧ res.isObject = true ∧ FitsChoice eng vs res w := by
  obtain ⟨j, y, h2, h3, name, h4, h5⟩ := setLoop_fits h ho (fun _ h => h) 0 none
  rw [Nat.zero_add] at h2
  refine ⟨some (j, y), (setEnum_object h0 hk).trans h2, ?_, .obj [(name, y)], ?_, rfl, ?_⟩
  · have := encChoice_fits eng vs j y w h3 0
    rwa [Nat.zero_add] at this
  · rw [enumFromObj, (setEnum_object h0 hk).trans h2]
    simp only [h4, bind, Res.bind]
  · exact holds_fits (fits_get_defined h hd h3 h4 h5) h3 h4 hd

/-! ### A JavaScript value stands for at most one value -/

theorem pattern_unique {n : Num} {z : Int} {v w : Fin (256 ^ n.size)} (h : Pattern n z v)
    (h' : Pattern n z w) : v = w :=
  Fin.ext ((pattern_mod h).symm.trans (pattern_mod h'))

theorem whole_unique {x : JsNum} {z z' : Int} (h : Whole x z) (h' : Whole x z') : z = z' := by
  have := (whole_floor h).symm.trans (whole_floor h')
  simpa using this

theorem fitsNum_unique {eng : Engine} {n : Num} {x : JsVal} {v w : Fin (256 ^ n.size)}
    (h : FitsNum eng n x v) (h' : FitsNum eng n x w) : v = w := by
  cases n
  case u64 =>
    obtain ⟨z, rfl, _, hp⟩ := h
    obtain ⟨z', hz, _, hp'⟩ := h'
    cases hz
    exact pattern_unique hp hp'
  case i64 =>
    obtain ⟨z, rfl, _, hp⟩ := h
    obtain ⟨z', hz, _, hp'⟩ := h'
    cases hz
    exact pattern_unique hp hp'
  case f32 =>
    obtain ⟨y, rfl, rfl⟩ := h
    obtain ⟨y', hy, rfl⟩ := h'
    cases hy; rfl
  case f64 =>
    obtain ⟨y, rfl, rfl⟩ := h
    obtain ⟨y', hy, rfl⟩ := h'
    cases hy; rfl
  all_goals
    obtain ⟨y, z, rfl, hw, _, hp⟩ := h
    obtain ⟨y', z', hy, hw', _, hp'⟩ := h'
    cases hy
    obtain rfl := whole_unique hw hw'
    exact pattern_unique hp hp'

theorem pairs_unique {α β : Type} {R : α → β → Prop} (hR : ∀ a b c, R a b → R a c → b = c) :
    ∀ {as : List α} {bs cs : List β}, Pairs R as bs → Pairs R as cs → bs = cs
  | [], [], [], _, _ => rfl
  | a :: as, b :: bs, c :: cs, h, h' => by
    rw [hR a b c h.1 h'.1, pairs_unique hR h.2 h'.2]
  | [], [], _ :: _, _, h => h.elim
  | [], _ :: _, _, h, _ => h.elim
  | _ :: _, [], _, h, _ => h.elim
  | _ :: _, _ :: _, [], _, h => h.elim

theorem map_some_inj : ∀ {xs ys : List JsVal}, xs.map some = ys.map some → xs = ys
  | [], [], _ => rfl
  | x :: xs, y :: ys, h => by
    have h : some x :: xs.map some = some y :: ys.map some := h
    injection h with h1 h2
    injection h1 with h1
    rw [h1, map_some_inj h2]
  | [], _ :: _, h => by cases h
  | _ :: _, [], h => by cases h

theorem fitsRep_unique {α : Type} {R : JsVal → α → Prop} (hR : ∀ a b c, R a b → R a c → b = c)
    {rep : Bool} {x : JsVal} {v w : Rep α rep} (h : FitsRep R rep x v) (h' : FitsRep R rep x w) :
    v = w := by
  cases rep with
  | false => exact hR _ _ _ h h'
  | true =>
    obtain ⟨xs, rfl, hp⟩ := h
    obtain ⟨ys, hy, hp'⟩ := h'
    injection hy with hy
    obtain rfl := map_some_inj hy
    exact pairs_unique hR hp hp'

theorem fitsOpt_unique {α : Type} {R : JsVal → α → Prop} (hR : ∀ a b c, R a b → R a c → b = c)
    {opt : Bool} {x : JsVal} {v w : Opt α opt} (h : FitsOpt R opt x v) (h' : FitsOpt R opt x w) :
    v = w := by
  cases opt with
  | false => exact hR _ _ _ h h'
  | true =>
    cases v with
    | none =>
      cases w with
      | none => rfl
      | some w => exact absurd h h'.1
    | some v =>
      cases w with
      | none => exact absurd h' h.1
      | some w => rw [hR _ _ _ h.2 h'.2]

theorem bare_not_fits {eng : Engine} : ∀ {vs : NVariants} {x : JsVal} {w : vs.erase.Val},
    Bare vs x → ¬ FitsChoice eng vs x w
  | .nil, _, w, _ => nomatch w
  | .cons _ _ _ _, _, .inl _, hb => fun h => h.1 hb.1
  | .cons _ _ _ rest, _, .inr _, hb => fun h => bare_not_fits (vs := rest) hb.2 h.2

mutual
theorem fitsOne_unique (eng : Engine) : (e : NElem) → ∀ (x : JsVal) (v w : e.erase.Val),
    FitsOne eng e x v → FitsOne eng e x w → v = w
  | .num _, _, _, _, h, h' => fitsNum_unique h h'
  | .bool, x, v, w, h, h' => by
    have h : x = .bool v := h
    have h' : x = .bool w := h'
    subst h; cases h'; rfl
  | .str, x, v, w, h, h' => by
    have h : x = .str v := h
    have h' : x = .str w := h'
    subst h; cases h'; rfl
  | .struct cls sig fs, x, v, w, h, h' => by
    obtain ⟨ps, hidden, rfl, h1, _⟩ := h
    obtain ⟨ps', hidden', he, h2, _⟩ := h'
    cases he
    exact fitsFields_unique eng fs _ v w h1 h2
  | .enum vs, x, v, w, h, h' => by
    obtain ⟨_, h⟩ := h
    obtain ⟨_, h'⟩ := h'
    cases v with
    | none =>
      cases w with
      | none => rfl
      | some w => exact absurd h' (bare_not_fits h)
    | some v =>
      cases w with
      | none => exact absurd h (bare_not_fits h')
      | some w => rw [fitsChoice_unique eng vs x v w h h']
theorem fitsFields_unique (eng : Engine) : (fs : NFields) → ∀ (get : List Char → JsVal)
    (v w : fs.erase.Val), FitsFields eng fs get v → FitsFields eng fs get w → v = w
  | .nil, _, _, _, _, _ => rfl
  | .cons name id e rep opt rest, get, v, w, h, h' => by
    have h1 := fitsOpt_unique (R := FitsRep (FitsOne eng e) rep)
      (fun _ _ _ => fitsRep_unique (fitsOne_unique eng e)) h.1 h'.1
    have h2 := fitsFields_unique eng rest get v.2 w.2 h.2 h'.2
    exact Prod.ext h1 h2
theorem fitsChoice_unique (eng : Engine) : (vs : NVariants) → ∀ (x : JsVal) (v w : vs.erase.Val),
    FitsChoice eng vs x v → FitsChoice eng vs x w → v = w
  | .nil, _, v, _, _, _ => nomatch v
  | .cons name e rep rest, x, .inl v, .inl w, h, h' => by
    rw [fitsRep_unique (fitsOne_unique eng e) h.2.1 h'.2.1]
  | .cons name e rep rest, x, .inr v, .inr w, h, h' => by
    rw [fitsChoice_unique eng rest x v w h.2 h'.2]
  | .cons name e rep rest, x, .inl v, .inr w, h, h' => absurd h'.1 h.1
  | .cons name e rep rest, x, .inr v, .inl w, h, h' => absurd h.1 h'.1
end

end Verif.Ts
