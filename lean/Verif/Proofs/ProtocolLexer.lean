import Verif.Spec.ProtocolSyntax
import Verif.Proofs.ProtocolStore
set_option autoImplicit false
/-!
The lexer reads back spelled symbols.
-/
namespace Verif.Prot.Syntax

open Verif Verif.Prot

theorem isSpace_cases {c : Char} (h : isSpace c = true) :
    c = ' ' ∨ c = '\t' ∨ c = '\n' ∨ c = '\x0c' ∨ c = '\r' := by
  simpa [isSpace, or_assoc] using h

theorem isDigit_nat (c : Char) : isDigit c = true ↔ 48 ≤ c.toNat ∧ c.toNat ≤ 57 := by
  simp only [isDigit, decide_eq_true_eq]
  exact Iff.rfl

theorem idChar_nat {c : Char} (h : IdChar c) :
    (48 ≤ c.toNat ∧ c.toNat ≤ 57) ∨ (65 ≤ c.toNat ∧ c.toNat ≤ 90) ∨
    (97 ≤ c.toNat ∧ c.toNat ≤ 122) ∨ c.toNat = 95 := by
  rcases h with h | rfl
  · simp only [isAlnum, Bool.or_eq_true, decide_eq_true_eq, isDigit_nat] at h
    rcases h with (h | h) | h
    · exact .inl h
    · exact .inr (.inr (.inl h))
    · exact .inr (.inl h)
  · right; right; right; rfl

theorem ne_of_toNat {c d : Char} (h : c.toNat ≠ d.toNat) : (c == d) = false := by
  rw [beq_eq_false_iff_ne]
  intro e
  exact h (by rw [e])

/-- What the lexer asks about a character of a name. -/
theorem idChar_class {c : Char} (h : IdChar c) :
    c.toNat < 128 ∧ isSpace c = false ∧ isBreak c = false ∧ (c == '[') = false ∧
    (c == ']') = false ∧ (!isAlnum c && c != '_') = false := by
  have hn := idChar_nat h
  have ne : ∀ d : Char, ¬ ((48 ≤ d.toNat ∧ d.toNat ≤ 57) ∨ (65 ≤ d.toNat ∧ d.toNat ≤ 90) ∨
      (97 ≤ d.toNat ∧ d.toNat ≤ 122) ∨ d.toNat = 95) → (c == d) = false := by
    intro d hd
    refine ne_of_toNat fun e => hd ?_
    rw [e] at hn
    exact hn
  refine ⟨by omega, ?_, ?_, ne _ (by decide), ne _ (by decide), ?_⟩
  · simp only [isSpace, ne ' ' (by decide), ne '\t' (by decide), ne '\n' (by decide),
      ne '\x0c' (by decide), ne '\r' (by decide), Bool.or_false]
  · simp only [isBreak, ne ';' (by decide), ne '{' (by decide), ne '}' (by decide),
      ne '?' (by decide), ne '.' (by decide), Bool.or_false]
  · rcases h with h | h
    · simp [h]
    · simp [h]

theorem lex_blank : ∀ (ws : List Char) (pass : Nat) (t : List Char), Blank ws →
    lexLoop [] pass (ws ++ t) = lexLoop [] (pass + ws.length) t
  | [], _, _, _ => rfl
  | c :: ws, pass, t, h => by
    have hc := isSpace_cases (h c List.mem_cons_self)
    have ih := lex_blank ws (pass + 1) t (fun d hd => h d (List.mem_cons_of_mem _ hd))
    rw [List.cons_append, List.length_cons]
    have : pass + (ws.length + 1) = pass + 1 + ws.length := by omega
    rw [this, ← ih]
    rcases hc with rfl | rfl | rfl | rfl | rfl <;> rfl

/-- The character that ends a word. -/
def nextOf (c : Char) : Option Char := if isSpace c then none else some c

theorem lex_word_tail : ∀ (w : Name) (str : Name) (pass : Nat) (c : Char) (rest : List Char),
    str ≠ [] → (∀ d ∈ w, IdChar d) →
    (isSpace c = true ∨ isBreak c = true ∨ c = '[') →
    lexLoop str pass (w ++ c :: rest) = some (.word (str ++ w) (nextOf c), pass + w.length)
  | [], str, pass, c, rest, hs, _, hc => by
    have he : str.isEmpty = false := by simpa using hs
    simp only [List.nil_append, lexLoop, he, Bool.and_false, List.append_nil, List.length_nil]
    rcases hc with hc | hc | rfl
    · rcases isSpace_cases hc with rfl | rfl | rfl | rfl | rfl <;> rfl
    · have : c = ';' ∨ c = '{' ∨ c = '}' ∨ c = '?' ∨ c = '.' := by
        simpa [isBreak, or_assoc] using hc
      rcases this with rfl | rfl | rfl | rfl | rfl <;> rfl
    · rfl
  | d :: w, str, pass, c, rest, hs, hw, hc => by
    obtain ⟨h1, h2, h3, h4, h5, h6⟩ := idChar_class (hw d List.mem_cons_self)
    have he : str.isEmpty = false := by simpa using hs
    simp only [List.cons_append, lexLoop, he, h1, h2, h3, h4, h5, h6, not_true_eq_false,
      Bool.and_false, Bool.or_self, if_false, Bool.false_eq_true]
    rw [lex_word_tail w (str ++ [d]) (pass + 1) c rest (by simp)
      (fun x hx => hw x (List.mem_cons_of_mem _ hx)) hc]
    simp [Nat.add_assoc, Nat.add_comm 1]

theorem lex_word (w : Name) (pass : Nat) (c : Char) (rest : List Char) (hw : Ident w)
    (hc : isSpace c = true ∨ isBreak c = true ∨ c = '[') :
    lexLoop [] pass (w ++ c :: rest) = some (.word w (nextOf c), pass + w.length) := by
  obtain ⟨d, ds, rfl, hd, hall⟩ := hw
  obtain ⟨h1, h2, h3, h4, h5, h6⟩ := idChar_class (hall d List.mem_cons_self)
  simp only [List.cons_append, lexLoop, h1, h2, h3, h4, h5, h6, hd, not_true_eq_false,
    Bool.false_and, Bool.or_self, if_false, Bool.false_eq_true, List.nil_append]
  rw [lex_word_tail ds [d] (pass + 1) c rest (by simp)
    (fun x hx => hall x (List.mem_cons_of_mem _ hx)) hc]
  simp [Nat.add_assoc, Nat.add_comm 1]

theorem spelled_head {ts : List Sym} {c : Char} {rest : List Char} (h : Spelled ts (c :: rest))
    (hc : ¬ IdChar c) : isSpace c = true ∨ isBreak c = true ∨ c = '[' := by
  generalize ht : c :: rest = t at h
  have blank : ∀ {ws u : List Char}, Blank ws → c :: rest = ws ++ u →
      isSpace c = true ∨ ∃ v, u = c :: v := by
    intro ws u hb he
    cases ws with
    | nil => exact .inr ⟨rest, he.symm⟩
    | cons d ws =>
      simp only [List.cons_append, List.cons.injEq] at he
      exact .inl (he.1 ▸ hb d List.mem_cons_self)
  cases h with
  | nil hb => subst ht; exact .inl (hb c List.mem_cons_self)
  | word hb hw _ _ =>
    rcases blank hb ht with h | ⟨v, hv⟩
    · exact .inl h
    · obtain ⟨d, ds, rfl, _, hall⟩ := hw
      simp only [List.cons_append, List.cons.injEq] at hv
      exact absurd (hv.1 ▸ hall d List.mem_cons_self) hc
  | simple hb hw _ =>
    rcases blank hb ht with h | ⟨v, hv⟩
    · exact .inl h
    · obtain ⟨d, ds, rfl, _, hall⟩ := hw
      simp only [List.cons_append, List.cons.injEq] at hv
      exact absurd (hv.1 ▸ hall d List.mem_cons_self) hc
  | @mark _ m _ _ hb _ =>
    rcases blank hb ht with h | ⟨v, hv⟩
    · exact .inl h
    · simp only [List.cons.injEq] at hv
      refine .inr (.inl ?_)
      rw [← hv.1]
      cases m <;> rfl
  | rep hb _ _ =>
    rcases blank hb ht with h | ⟨v, hv⟩
    · exact .inl h
    · simp only [List.cons.injEq] at hv
      exact .inr (.inr hv.1.symm)

/-- The token of a punctuation mark. -/
def Mark.tok : Mark → Tok
  | .opn => .openStruct
  | .cls => .closeStruct
  | .semi => .semicolon
  | .opt => .optional
  | .dot => .pathSpliter

theorem lex_mark (m : Mark) (pass : Nat) (rest : List Char) :
    lexLoop [] pass (m.char :: rest) = some (m.tok, pass + 1) := by
  cases m <;> rfl

/-- One round of the parser, given the token and the rest of the text. -/
def roundTo (p : PState) (t : Tok) (rest : List Char) : Next (PState × List Char) :=
  match onTok p t with
  | .go p2 => .go (p2, rest)
  | .halt o => .halt o

theorem step_of_lex {text rest : List Char} {t : Tok} {n : Nat} (h : lex text = some (t, n))
    (hd : text.drop n = rest) (p : PState) : step p text = roundTo p t rest := by
  simp only [step, h, hd, roundTo]
  cases onTok p t <;> rfl

theorem drop_two {a b c : List Char} {n : Nat} (h : n = a.length + b.length) :
    (a ++ (b ++ c)).drop n = c := by
  rw [← List.append_assoc]
  exact List.drop_left' (by simp [h])

theorem step_word {w : Name} {ts : List Sym} {text : List Char}
    (h : Spelled (.word w :: ts) text) : ∃ next rest, Spelled ts rest ∧
      (next = some ';' → rest.head? = some ';') ∧
      ∀ p, step p text = roundTo p (.word w next) rest := by
  cases h with
  | @word ws _ _ c rest hb hw hc hs =>
    refine ⟨nextOf c, c :: rest, hs, ?_, ?_⟩
    · simp only [nextOf]
      split
      · simp
      · simp
    · refine step_of_lex (n := ws.length + w.length) ?_ (drop_two rfl)
      rw [lex, lex_blank _ _ _ hb, lex_word w _ c rest hw (spelled_head hs hc), Nat.zero_add]

theorem step_simple {w : Name} {ts : List Sym} {text : List Char}
    (h : Spelled (.simple w :: ts) text) : ∃ rest,
      (∀ p, step p text = roundTo p (.word w (some ';')) rest) ∧ Spelled (.mark .semi :: ts) rest := by
  cases h with
  | @simple ws _ _ rest hb hw hs =>
    refine ⟨';' :: rest, ?_, .mark (m := .semi) (ws := []) (by simp [Blank]) hs⟩
    refine step_of_lex (n := ws.length + w.length) ?_ (drop_two rfl)
    rw [lex, lex_blank _ _ _ hb, lex_word w _ ';' rest hw (.inr (.inl rfl)), Nat.zero_add]
    rfl

theorem step_mark {m : Mark} {ts : List Sym} {text : List Char}
    (h : Spelled (.mark m :: ts) text) : ∃ rest, Spelled ts rest ∧
      ∀ p, step p text = roundTo p m.tok rest := by
  cases h with
  | @mark ws _ _ rest hb hs =>
    refine ⟨rest, hs, step_of_lex (n := ws.length + 1) ?_ ?_⟩
    · rw [lex, lex_blank _ _ _ hb, lex_mark, Nat.zero_add]
    · exact drop_two (b := [m.char]) (by simp)

theorem step_rep {ts : List Sym} {text : List Char} (h : Spelled (.rep :: ts) text) :
    ∃ rest, Spelled ts rest ∧ ∀ p, step p text = roundTo p .repeated rest := by
  cases h with
  | @rep ws ws2 _ rest hb hb2 hs =>
    refine ⟨rest, hs, step_of_lex (n := ws.length + (ws2.length + 2)) ?_ ?_⟩
    · rw [lex, lex_blank _ _ _ hb]
      have : lexLoop [] (0 + ws.length) ('[' :: (ws2 ++ ']' :: rest)) =
        lexLoop [] (0 + ws.length + 1) (ws2 ++ ']' :: rest) := rfl
      rw [this, lex_blank _ _ _ hb2]
      have : lexLoop [] (0 + ws.length + 1 + ws2.length) (']' :: rest) =
        some (.repeated, 0 + ws.length + 1 + ws2.length + 1) := rfl
      rw [this]
      have : 0 + ws.length + 1 + ws2.length + 1 = ws.length + (ws2.length + 2) := by omega
      rw [this]
    · have : ws ++ '[' :: (ws2 ++ ']' :: rest) = ws ++ (('[' :: (ws2 ++ [']'])) ++ rest) := by simp
      rw [this]
      exact drop_two (by simp)

theorem step_end {text : List Char} (h : Spelled [] text) (p : PState) :
    step p text = .halt (if p.errs then .rejected else .accepted p.store) := by
  cases h with
  | nil hb =>
    have := lex_blank text 0 [] hb
    rw [List.append_nil] at this
    simp only [step, lex, this]
    rfl

end Verif.Prot.Syntax
