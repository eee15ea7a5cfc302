import Verif.Proofs.WorkflowInv
set_option autoImplicit false
/-!
Texts of workflow files: when reading ends, when it cannot panic, and comments.
-/
namespace Verif.Flow

open Verif Verif.Flow
open Verif.Prot (Name isSpace isDigit isAlnum)

/-- Offsets grow with the characters read. -/
theorem lexLoop_offset : ∀ (c : List Char) (str : Name) (pass : Nat) (l k : Bool) (t : Tok) (o : Nat),
    lexLoop str pass l k c = some (t, o) →
    t = .eof ∨ (c = [] ∧ str ≠ [] ∧ t = .word str ∧ o = pass - 1) ∨
    (pass ≤ o ∧ (str = [] → pass < o)) ∨
    (str = [] ∧ ∃ ch, c = [ch] ∧ t = .word [ch] ∧ o = pass)
  | [], str, pass, l, k, t, o, h => by
    rw [lexLoop] at h
    split at h
    · simp only [Option.some.injEq, Prod.mk.injEq] at h
      exact .inl h.1.symm
    · rename_i hs
      simp only [Option.some.injEq, Prod.mk.injEq] at h
      exact .inr (.inl ⟨rfl, by simpa using hs, h.1.symm, h.2.symm⟩)
  | c :: rest, str, pass, l, k, t, o, h => by
    -- what the rest gives
    have up : ∀ (l k : Bool), lexLoop str (pass + 1) l k rest = some (t, o) →
        t = .eof ∨ (pass ≤ o ∧ (str = [] → pass < o)) ∨
        (str = [] ∧ ∃ ch, c :: rest = [ch] ∧ t = .word [ch] ∧ o = pass) := by
      intro l k h
      rcases lexLoop_offset rest str (pass + 1) l k t o h with h | ⟨_, h1, _, h2⟩ | ⟨h1, h2⟩ | ⟨_, _, _, _, h⟩
      · exact .inl h
      · exact .inr (.inl ⟨by omega, fun hx => absurd hx h1⟩)
      · exact .inr (.inl ⟨by omega, fun hx => by omega⟩)
      · exact .inr (.inl ⟨by omega, fun _ => by omega⟩)
    rw [lexLoop] at h
    simp only at h
    split at h
    · rcases up _ _ h with h | h | h
      · exact .inl h
      · exact .inr (.inr (.inl h))
      · exact .inr (.inr (.inr h))
    · split at h
      · rcases up _ _ h with h | h | h
        · exact .inl h
        · exact .inr (.inr (.inl h))
        · exact .inr (.inr (.inr h))
      · split at h
        · exact nomatch h
        · split at h
          · exact nomatch h
          · split at h
            · rcases up _ _ h with h | h | h
              · exact .inl h
              · exact .inr (.inr (.inl h))
              · exact .inr (.inr (.inr h))
            · split at h
              · cases hb : breakTok c with
                | none => rw [hb] at h; simp at h
                | some b =>
                  rw [hb] at h
                  simp only [Option.map_some, Option.some.injEq, Prod.mk.injEq] at h
                  exact .inr (.inr (.inl ⟨by omega, fun _ => by omega⟩))
              · rename_i hsp hbr
                split at h
                · rename_i hx
                  have hne : str ≠ [] := by
                    rintro rfl
                    simp only [List.isEmpty_nil, Bool.and_true, Bool.true_and] at hsp hbr
                    rw [Bool.or_eq_true] at hx
                    exact hx.elim hsp hbr
                  split at h
                  · exact nomatch h
                  · simp only [Option.some.injEq, Prod.mk.injEq] at h
                    exact .inr (.inr (.inl ⟨by omega, fun hx => absurd hx hne⟩))
                · split at h
                  · exact nomatch h
                  · rcases lexLoop_offset rest _ (pass + 1) _ _ t o h with
                      h | ⟨h0, h1, h3, h2⟩ | ⟨h1, h2⟩ | ⟨hx, _⟩
                    · exact .inl h
                    · cases str with
                      | nil => exact .inr (.inr (.inr ⟨rfl, c, by rw [h0], by simpa using h3, by omega⟩))
                      | cons a l =>
                        exact .inr (.inr (.inl ⟨by omega, fun hx => by simp at hx⟩))
                    · exact .inr (.inr (.inl ⟨by omega, fun _ => by omega⟩))
                    · simp at hx

/-- A token is read without progress only from a text of one character. -/
theorem lex_progress {c : List Char} {t : Tok} {o : Nat} (h : lex c = some (t, o)) :
    t = .eof ∨ 0 < o ∨ ∃ ch, c = [ch] ∧ t = .word [ch] ∧ o = 0 := by
  rcases lexLoop_offset c [] 0 false false t o h with h | ⟨_, h, _⟩ | ⟨_, h⟩ | ⟨_, h⟩
  · exact .inl h
  · exact absurd rfl h
  · exact .inr (.inl (h rfl))
  · exact .inr (.inr h)

/-- A text of one character that is a word. -/
theorem lex_one {ch : Char} {o : Nat} (h : lex [ch] = some (.word [ch], o)) :
    (isAlnum ch && !isDigit ch || ch == '_' || ch == '@' || ch == '&') = true := by
  unfold lex at h
  rw [lexLoop] at h
  simp only [Bool.false_and, Bool.not_false, Bool.true_and, List.isEmpty_nil, Bool.and_true,
    Bool.false_eq_true, if_false] at h
  split at h
  · simp [lexLoop] at h
  · split at h
    · exact nomatch h
    · split at h
      · exact nomatch h
      · split at h
        · simp [lexLoop] at h
        · split at h
          · rename_i hb
            exfalso
            have : breakTok ch ≠ some (.word [ch]) := by
              unfold breakTok
              repeat' split
              all_goals simp
            cases hx : breakTok ch with
            | none => rw [hx] at hb; simp at hb
            | some b =>
              rw [hx] at h this
              simp only [Option.map_some, Option.some.injEq, Prod.mk.injEq] at h
              exact this (by rw [h.1])
          · split at h
            · rename_i h1 h2 h3
              simp [h1, h2] at h3
            · split at h
              · exact nomatch h
              · rename_i hd _ _ _ hx
                simp only [Bool.false_or, isLimited, Bool.and_eq_true, Bool.not_eq_true', not_and,
                  Bool.not_eq_false, bne_iff_ne, ne_eq, Bool.or_eq_true, beq_iff_eq] at hx hd ⊢
                grind

theorem sliceFrom_suffix : ∀ (n : Nat) (c r : List Char), sliceFrom n c = some r →
    ∃ a, c = a ++ r ∧ (0 < n → a ≠ [])
  | 0, c, r, h => by
    simp only [sliceFrom, Option.some.injEq] at h
    exact ⟨[], by simp [h], fun h => absurd h (by omega)⟩
  | n + 1, [], r, h => by simp [sliceFrom] at h
  | n + 1, x :: c, r, h => by
    rw [sliceFrom] at h
    split at h
    · obtain ⟨a, h1, _⟩ := sliceFrom_suffix _ c r h
      exact ⟨x :: a, by simp [h1], fun _ => by simp⟩
    · simp at h
  termination_by _ c => c.length

/-- The text does not end in a character of a word. -/
def EndsApart (text : List Char) : Prop :=
  ∀ ch, text.getLast? = some ch →
    (isAlnum ch && !isDigit ch || ch == '_' || ch == '@' || ch == '&') = false

/-- Reading ends. -/
theorem loop_ends (text : List Char) (hend : EndsApart text) : ∀ (k : Nat) (p : PState)
    (c : List Char), c.length ≤ k → (∃ a, text = a ++ c) → ∃ n o, loop n p c = some o := by
  intro k
  induction k with
  | zero =>
    intro p c hc _
    have : c = [] := List.length_eq_zero_iff.1 (by omega)
    subst this
    exact ⟨1, _, by rw [loop, step]; rfl⟩
  | succ k ih =>
    intro p c hc hsuf
    cases hs : step p c with
    | halt o => exact ⟨1, o, by rw [loop, hs]⟩
    | go p2 c2 =>
      have hlt : c2.length < c.length ∧ ∃ a, c = a ++ c2 := by
        unfold step at hs
        cases hl : lex c with
        | none => rw [hl] at hs; simp at hs
        | some x =>
          obtain ⟨t, o⟩ := x
          rw [hl] at hs
          simp only at hs
          split at hs
          · exact nomatch hs
          · rename_i hne
            split at hs
            · exact nomatch hs
            · split at hs
              · exact nomatch hs
              · rename_i r hr
                injection hs with _ hs
                subst hs
                obtain ⟨a, h1, h2⟩ := sliceFrom_suffix _ _ _ hr
                rcases lex_progress hl with h | h | ⟨ch, h3, h4, _⟩
                · exact absurd h hne
                · have := List.length_pos_iff.2 (h2 h)
                  refine ⟨?_, a, h1⟩
                  rw [h1, List.length_append]
                  omega
                · exfalso
                  rw [h3, h4] at hl
                  have hw := lex_one hl
                  obtain ⟨b, hb⟩ := hsuf
                  have := hend ch (by rw [hb, h3]; simp)
                  rw [hw] at this
                  exact absurd this (by simp)
      obtain ⟨h1, a, ha⟩ := hlt
      obtain ⟨b, hb⟩ := hsuf
      obtain ⟨n, o, hn⟩ := ih p2 c2 (by omega) ⟨b ++ a, by rw [hb, ha, List.append_assoc]⟩
      exact ⟨n + 1, o, by rw [loop, hs]; exact hn⟩

/-! ### ASCII texts do not panic -/

theorem ascii_size {c : Char} (h : c.toNat < 128) : c.utf8Size = 1 := by
  unfold Char.utf8Size
  rw [if_pos]
  have : c.val.toNat < 128 := h
  exact UInt32.le_iff_toNat_le.2 (by simp; omega)

theorem sliceFrom_ascii : ∀ (a r : List Char), (∀ c ∈ a, c.toNat < 128) → ∀ n, n ≤ a.length →
    sliceFrom n (a ++ r) = some (a.drop n ++ r)
  | a, r, _, 0, _ => by simp [sliceFrom]
  | [], _, _, n + 1, h => by simp at h
  | x :: a, r, hx, n + 1, h => by
    rw [List.cons_append, sliceFrom, ascii_size (hx x List.mem_cons_self), if_pos (by omega),
      Nat.add_sub_cancel, sliceFrom_ascii a r (fun c hc => hx c (List.mem_cons_of_mem _ hc)) n
        (by simpa using h), List.drop_succ_cons]

theorem sliceFrom_past : ∀ (a r : List Char), (∀ c ∈ a, c.toNat < 128) → ∀ n,
    sliceFrom (a.length + n) (a ++ r) = sliceFrom n r
  | [], r, _, n => by simp
  | x :: a, r, hx, n => by
    rw [List.length_cons, show a.length + 1 + n = a.length + n + 1 by omega, List.cons_append,
      sliceFrom, ascii_size (hx x List.mem_cons_self), if_pos (by omega), Nat.add_sub_cancel,
      sliceFrom_past a r (fun c hc => hx c (List.mem_cons_of_mem _ hc)) n]

theorem lexLoop_bound : ∀ (c : List Char) (str : Name) (pass : Nat) (l k : Bool) (t : Tok) (o : Nat),
    lexLoop str pass l k c = some (t, o) → o ≤ pass + c.length
  | [], str, pass, l, k, t, o, h => by
    rw [lexLoop] at h
    split at h <;> simp only [Option.some.injEq, Prod.mk.injEq] at h <;> omega
  | c :: rest, str, pass, l, k, t, o, h => by
    have up : ∀ str l k, lexLoop str (pass + 1) l k rest = some (t, o) →
        o ≤ pass + (c :: rest).length := by
      intro str l k h
      have := lexLoop_bound rest str (pass + 1) l k t o h
      simp only [List.length_cons]
      omega
    rw [lexLoop] at h
    simp only at h
    split at h
    · exact up _ _ _ h
    · split at h
      · exact up _ _ _ h
      · split at h
        · exact nomatch h
        · split at h
          · exact nomatch h
          · split at h
            · exact up _ _ _ h
            · split at h
              · cases hb : breakTok c with
                | none => rw [hb] at h; simp at h
                | some b =>
                  rw [hb] at h
                  simp only [Option.map_some, Option.some.injEq, Prod.mk.injEq] at h
                  simp only [List.length_cons]
                  omega
              · split at h
                · split at h
                  · exact nomatch h
                  · simp only [Option.some.injEq, Prod.mk.injEq] at h
                    simp only [List.length_cons]
                    omega
                · split at h
                  · exact nomatch h
                  · exact up _ _ _ h

theorem lexLoop_eof : ∀ (c : List Char) (str : Name) (pass : Nat) (l k : Bool) (t : Tok) (o : Nat),
    lexLoop str pass l k c = some (t, o) → t = .eof → pass ≤ o
  | [], str, pass, l, k, t, o, h, ht => by
    subst ht
    rw [lexLoop] at h
    split at h <;> simp only [Option.some.injEq, Prod.mk.injEq, reduceCtorEq, false_and] at h
    omega
  | c :: rest, str, pass, l, k, t, o, h, ht => by
    have up : ∀ str l k, lexLoop str (pass + 1) l k rest = some (t, o) → pass ≤ o := by
      intro str l k h
      have := lexLoop_eof rest str (pass + 1) l k t o h ht
      omega
    rw [lexLoop] at h
    simp only at h
    split at h
    · exact up _ _ _ h
    · split at h
      · exact up _ _ _ h
      · split at h
        · exact nomatch h
        · split at h
          · exact nomatch h
          · split at h
            · exact up _ _ _ h
            · split at h
              · cases hb : breakTok c with
                | none => rw [hb] at h; simp at h
                | some b =>
                  rw [hb] at h
                  simp only [Option.map_some, Option.some.injEq, Prod.mk.injEq] at h
                  omega
              · split at h
                · split at h
                  · exact nomatch h
                  · simp only [Option.some.injEq, Prod.mk.injEq] at h
                    omega
                · split at h
                  · exact nomatch h
                  · exact up _ _ _ h

theorem ascii_no_panic : ∀ (n : Nat) (p : PState) (c : List Char), (∀ x ∈ c, x.toNat < 128) →
    loop n p c ≠ some .panicked
  | 0, p, c, _ => by simp [loop]
  | n + 1, p, c, hc => by
    rw [loop]
    cases hs : step p c with
    | halt o =>
      simp only [ne_eq, Option.some.injEq]
      rintro rfl
      unfold step at hs
      cases hl : lex c with
      | none => rw [hl] at hs; simp at hs
      | some x =>
        obtain ⟨t, o⟩ := x
        rw [hl] at hs
        simp only at hs
        split at hs
        · injection hs with hs
          split at hs <;> exact nomatch hs
        · split at hs
          · exact nomatch hs
          · have := sliceFrom_ascii c [] hc o (by have := lexLoop_bound _ _ _ _ _ _ _ hl; simpa using this)
            rw [List.append_nil] at this
            rw [this] at hs
            exact nomatch hs
    | go p2 c2 =>
      apply ascii_no_panic n p2 c2
      unfold step at hs
      cases hl : lex c with
      | none => rw [hl] at hs; simp at hs
      | some x =>
        obtain ⟨t, o⟩ := x
        rw [hl] at hs
        simp only at hs
        split at hs
        · exact nomatch hs
        · split at hs
          · exact nomatch hs
          · split at hs
            · exact nomatch hs
            · rename_i r hr
              injection hs with _ hs
              subst hs
              obtain ⟨a, h1, _⟩ := sliceFrom_suffix _ _ _ hr
              intro x hx
              exact hc x (by rw [h1]; exact List.mem_append_right _ hx)

/-! ### Comments -/

/-- The offset only shifts. -/
theorem lexLoop_shift : ∀ (c : List Char) (str : Name) (pass k : Nat) (l m : Bool),
    (str = [] ∨ 0 < pass) → lexLoop str (pass + k) l m c =
      (lexLoop str pass l m c).map (fun x => (x.1, x.2 + k))
  | [], str, pass, k, l, m, hp => by
    rw [lexLoop, lexLoop]
    split
    · rfl
    · rename_i hs
      have : 0 < pass := hp.resolve_left (by simpa using hs)
      simp only [Option.map_some, Option.some.injEq, Prod.mk.injEq, true_and]
      omega
  | c :: rest, str, pass, k, l, m, hp => by
    have ih : ∀ str l m, lexLoop str (pass + k + 1) l m rest =
        (lexLoop str (pass + 1) l m rest).map (fun x => (x.1, x.2 + k)) := by
      intro str l m
      rw [show pass + k + 1 = pass + 1 + k by omega]
      exact lexLoop_shift rest str (pass + 1) k l m (.inr (by omega))
    rw [lexLoop, lexLoop]
    simp only [ih]
    repeat' split
    all_goals first
      | rfl
      | (cases breakTok c <;> simp <;> omega)
      | (simp; omega)

/-- A line break ends a comment. -/
theorem lexLoop_newline (str : Name) (pass : Nat) (l m : Bool) (r : List Char) :
    lexLoop str pass l m ('\n' :: r) = lexLoop str pass l false ('\n' :: r) := by
  rw [lexLoop, lexLoop]
  simp

theorem lexLoop_body : ∀ (body r : List Char) (str : Name) (pass : Nat) (l : Bool),
    (∀ c ∈ body, c ≠ '\n') → lexLoop str pass l true (body ++ '\n' :: r) =
      lexLoop str (pass + body.length) l false ('\n' :: r)
  | [], r, str, pass, l, _ => lexLoop_newline str pass l true r
  | c :: body, r, str, pass, l, h => by
    have hc := h c List.mem_cons_self
    rw [List.cons_append, lexLoop]
    simp only [Bool.true_and, bne_iff_ne, ne_eq, hc, not_false_eq_true, if_true]
    rw [lexLoop_body body r str (pass + 1) l (fun x hx => h x (List.mem_cons_of_mem _ hx)),
      List.length_cons]
    congr 1
    omega

/-- Reading with and without a comment: the same token, and the same place. -/
theorem lexLoop_comment (body r : List Char) (hb : ∀ c ∈ body, c ≠ '\n') :
    ∀ (a : List Char) (str : Name) (pass : Nat) (l m : Bool), (str = [] ∨ 0 < pass) →
    (lexLoop str pass l m (a ++ '#' :: (body ++ '\n' :: r)) = none ∧
      lexLoop str pass l m (a ++ '\n' :: r) = none) ∨
    ∃ t o, lexLoop str pass l m (a ++ '\n' :: r) = some (t, o) ∧
      ((o ≤ pass + a.length ∧
        lexLoop str pass l m (a ++ '#' :: (body ++ '\n' :: r)) = some (t, o)) ∨
       (pass + a.length ≤ o ∧ lexLoop str pass l m (a ++ '#' :: (body ++ '\n' :: r)) =
          some (t, o + (body.length + 1))))
  | [], str, pass, l, m, hp => by
    have h1 : lexLoop str pass l m ('#' :: (body ++ '\n' :: r)) =
        lexLoop str (pass + (body.length + 1)) l false ('\n' :: r) := by
      rw [lexLoop]
      cases m with
      | true =>
        simp only [Bool.true_and, show ('#' != '\n') = true by decide, if_true]
        rw [lexLoop_body body r str (pass + 1) l hb]
        congr 1
        omega
      | false =>
        simp only [Bool.false_and, Bool.false_eq_true, if_false, Bool.not_false, Bool.true_and,
          beq_self_eq_true, if_true]
        rw [lexLoop_body body r str (pass + 1) l hb]
        congr 1
        omega
    rw [List.nil_append, List.nil_append, h1, lexLoop_shift _ _ _ _ _ _ hp,
      lexLoop_newline str pass l m r]
    cases hx : lexLoop str pass l false ('\n' :: r) with
    | none => exact .inl ⟨rfl, rfl⟩
    | some x =>
      obtain ⟨t, o⟩ := x
      refine .inr ⟨t, o, rfl, .inr ⟨?_, rfl⟩⟩
      by_cases hs : str = []
      · subst hs
        rw [lexLoop] at hx
        simp [show isDigit '\n' = false by decide, show isSpace '\n' = true by decide] at hx
        rcases lexLoop_offset _ _ _ _ _ _ _ hx with h | ⟨_, h, _⟩ | ⟨h, _⟩ | ⟨_, _, _, _, h⟩
        · have := lexLoop_eof _ _ _ _ _ _ _ hx h
          simp
          omega
        · exact absurd rfl h
        · simp
          omega
        · simp
          omega
      · have he : str.isEmpty = false := by cases str <;> simp at hs ⊢
        rw [lexLoop] at hx
        simp only [he, Bool.and_false, Bool.false_and, Bool.false_eq_true, if_false, Bool.not_false,
          show ('\n' == '#') = false by decide, show isSpace '\n' = true by decide,
          Bool.true_or, if_true, show Char.toNat '\n' < 128 by decide, not_true_eq_false] at hx
        split at hx
        · exact nomatch hx
        · simp only [Option.some.injEq, Prod.mk.injEq] at hx
          simp
          omega
  | c :: a, str, pass, l, m, hp => by
    have ih : ∀ str l m, _ := fun str l m =>
      lexLoop_comment body r hb a str (pass + 1) l m (.inr (by omega))
    have up : ∀ str l m,
      (lexLoop str (pass + 1) l m (a ++ '#' :: (body ++ '\n' :: r)) = none ∧
        lexLoop str (pass + 1) l m (a ++ '\n' :: r) = none) ∨
      ∃ t o, lexLoop str (pass + 1) l m (a ++ '\n' :: r) = some (t, o) ∧
        ((o ≤ pass + (c :: a).length ∧
          lexLoop str (pass + 1) l m (a ++ '#' :: (body ++ '\n' :: r)) = some (t, o)) ∨
         (pass + (c :: a).length ≤ o ∧
          lexLoop str (pass + 1) l m (a ++ '#' :: (body ++ '\n' :: r)) =
            some (t, o + (body.length + 1)))) := by
      intro str l m
      rcases ih str l m with h | ⟨t, o, h1, h2⟩
      · exact .inl h
      · refine .inr ⟨t, o, h1, ?_⟩
        rw [List.length_cons]
        rcases h2 with h | h
        · exact .inl ⟨by omega, h.2⟩
        · exact .inr ⟨by omega, h.2⟩
    rw [List.cons_append, List.cons_append, lexLoop, lexLoop]
    simp only
    by_cases h1 : (m && c != '\n') = true
    · simp only [if_pos h1]
      exact up _ _ _
    simp only [if_neg h1]
    by_cases h2 : (!m && c == '#') = true
    · simp only [if_pos h2]
      exact up _ _ _
    simp only [if_neg h2]
    by_cases h3 : ¬ c.toNat < 128
    · simp only [if_pos h3]
      exact .inl ⟨trivial, trivial⟩
    simp only [if_neg h3]
    by_cases h4 : (isDigit c && List.isEmpty str) = true
    · simp only [if_pos h4]
      exact .inl ⟨trivial, trivial⟩
    simp only [if_neg h4]
    by_cases h5 : (isSpace c && List.isEmpty str) = true
    · simp only [if_pos h5]
      exact up _ _ _
    simp only [if_neg h5]
    by_cases h6 : (List.isEmpty str && (breakTok c).isSome) = true
    · simp only [if_pos h6]
      cases hb : breakTok c with
      | none => exact .inl ⟨rfl, rfl⟩
      | some b =>
        refine .inr ⟨_, _, rfl, .inl ⟨?_, rfl⟩⟩
        simp only [List.length_cons]
        omega
    simp only [if_neg h6]
    by_cases h7 : (isSpace c || (breakTok c).isSome) = true
    · simp only [if_pos h7]
      by_cases h8 : (l && misplaced str) = true
      · simp only [if_pos h8]
        exact .inl ⟨trivial, trivial⟩
      · simp only [if_neg h8]
        refine .inr ⟨_, _, rfl, .inl ⟨?_, rfl⟩⟩
        simp only [List.length_cons]
        omega
    simp only [if_neg h7]
    by_cases h8 : (!isAlnum c && c != '_' && !(l || isLimited c)) = true
    · simp only [if_pos h8]
      exact .inl ⟨trivial, trivial⟩
    · simp only [if_neg h8]
      exact up _ _ _

theorem onTok_offset (p : PState) (t : Tok) {o o2 : Nat} (h : 0 < o) (h2 : 0 < o2) :
    onTok p t o = onTok p t o2 := by
  unfold onTok
  simp only [show ¬ o = 0 by omega, show ¬ o2 = 0 by omega, if_false]

/-- Contents that differ by a comment only. -/
inductive Differ (body r : List Char) : List Char → List Char → Prop where
  | comment {a : List Char} : (∀ c ∈ a, c.toNat < 128) →
      Differ body r (a ++ '#' :: (body ++ '\n' :: r)) (a ++ '\n' :: r)
  | same {c : List Char} : Differ body r c c

theorem loop_comment {body r : List Char} (hb : ∀ c ∈ body, c ≠ '\n' ∧ c.toNat < 128) :
    ∀ (n : Nat) (p : PState) (x y : List Char), Differ body r x y → loop n p x = loop n p y
  | 0, _, _, _, _ => rfl
  | n + 1, p, _, _, .same => rfl
  | n + 1, p, _, _, @Differ.comment _ _ a ha => by
    have ih := fun p x y => loop_comment (r := r) hb n p x y
    have hbn := fun c hc => (hb c hc).1
    have hba := fun c hc => (hb c hc).2
    rw [loop, loop]
    have goal : ∀ (s1 s2 : Next), (s1 = s2 ∨ ∃ p2 c1 c2, s1 = .go p2 c1 ∧ s2 = .go p2 c2 ∧
        Differ body r c1 c2) →
        (match s1 with | .go p2 c2 => loop n p2 c2 | .halt o => some o) =
        (match s2 with | .go p2 c2 => loop n p2 c2 | .halt o => some o) := by
      rintro s1 s2 (rfl | ⟨p2, c1, c2, rfl, rfl, h⟩)
      · rfl
      · exact ih p2 c1 c2 h
    apply goal
    unfold step
    rcases lexLoop_comment body r hbn a [] 0 false false (.inl rfl) with ⟨h1, h2⟩ | ⟨t, o, h2, h1⟩
    · left
      unfold lex
      rw [h1, h2]
    · have hy : lex (a ++ '\n' :: r) = some (t, o) := h2
      have hpos : t = .eof ∨ 0 < o := by
        rcases lex_progress hy with h | h | ⟨ch, h, ht, ho⟩
        · exact .inl h
        · exact .inr h
        · left
          have hnl : a = [] ∧ r = [] ∧ ch = '\n' := by
            cases a with
            | nil => simp at h; exact ⟨rfl, h.2, h.1.symm⟩
            | cons _ _ => simp at h
          obtain ⟨rfl, rfl, rfl⟩ := hnl
          rw [List.nil_append] at hy
          have : lex ['\n'] = some (.eof, 1) := rfl
          rw [this] at hy
          simp only [Option.some.injEq, Prod.mk.injEq] at hy
          exact hy.1.symm
      rcases h1 with ⟨hle, h1⟩ | ⟨hge, h1⟩
      · have hx : lex (a ++ '#' :: (body ++ '\n' :: r)) = some (t, o) := h1
        rw [hx, hy]
        simp only
        split
        · exact .inl rfl
        · cases onTok p t o with
          | none => exact .inl rfl
          | some p2 =>
            rw [sliceFrom_ascii a _ ha o (by simpa using hle), sliceFrom_ascii a _ ha o (by simpa using hle)]
            exact .inr ⟨p2, _, _, rfl, rfl, .comment (fun c hc => ha c (List.mem_of_mem_drop hc))⟩
      · have hx : lex (a ++ '#' :: (body ++ '\n' :: r)) = some (t, o + (body.length + 1)) := h1
        rw [hx, hy]
        simp only
        split
        · exact .inl rfl
        · rename_i hne
          have ho := hpos.resolve_left hne
          rw [onTok_offset p t (o := o + (body.length + 1)) (by omega) ho]
          cases onTok p t o with
          | none => exact .inl rfl
          | some p2 =>
            left
            obtain ⟨k, rfl⟩ : ∃ k, o = a.length + k := ⟨o - a.length, by omega⟩
            have e1 : sliceFrom (a.length + k + (body.length + 1)) (a ++ '#' :: (body ++ '\n' :: r)) =
                sliceFrom k ('\n' :: r) := by
              have := sliceFrom_past (a ++ '#' :: body) ('\n' :: r) (by
                intro c hc
                rcases List.mem_append.1 hc with hc | hc
                · exact ha c hc
                · rcases List.mem_cons.1 hc with hc | hc
                  · rw [hc]; decide
                  · exact hba c hc) k
              rw [← this]
              simp only [List.length_append, List.length_cons, List.append_assoc, List.cons_append]
              congr 1
              omega
            rw [e1, sliceFrom_past a _ ha k]

/-! ### A text without end -/

/-- Reading a single letter again and again. -/
theorem loop_letter : ∀ (n : Nat) (r : Request) (q : Ref) (st : Store) (pr : Prot.Store),
    r.pending = .request q → r.closed = false →
    loop n ⟨some (.request r), st, pr⟩ ['A'] = none
  | 0, _, _, _, _, _, _ => rfl
  | n + 1, r, q, st, pr, hp, hc => by
    have hl : lex ['A'] = some (.word ['A'], 0) := rfl
    have hs : step ⟨some (.request r), st, pr⟩ ['A'] =
        .go ⟨some (.request { r with
          pending := .request (joinDot q ['A'])
          expect := [.word, .pathDelimiter, .semicolon, .exclamation, .opn] }), st, pr⟩ ['A'] := by
      unfold step
      rw [hl]
      simp only [onTok, feed, Request.next, Request.onWord, hp, keep, hc, sliceFrom]
      simp
    rw [loop, hs]
    exact loop_letter n _ _ st pr rfl hc

theorem never_ends (pr : Prot.Store) : ∀ n, loop n (PState.init pr) ['A'] = none
  | 0 => rfl
  | n + 1 => by
    have hl : lex ['A'] = some (.word ['A'], 0) := rfl
    have he : openEntity ['A'] = some (.request (Request.new ['A'])) := by
      unfold openEntity
      rw [if_neg (by decide), if_pos (by decide)]
    have hs : step (PState.init pr) ['A'] =
        .go ⟨some (.request { Request.new ['A'] with
          pending := .request (joinDot ['A'] ['A'])
          expect := [.word, .pathDelimiter, .semicolon, .exclamation, .opn] }), Store.new, pr⟩ ['A'] := by
      unfold step
      rw [hl]
      simp only [onTok, PState.init, he, feed, Request.next, Request.onWord, Request.new, keep, sliceFrom]
      simp
    rw [loop, hs]
    exact loop_letter n _ _ _ _ rfl rfl

end Verif.Flow
