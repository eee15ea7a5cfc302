import Verif.Spec.WorkflowSyntax
import Verif.Proofs.ProtocolLexer
set_option autoImplicit false
/-!
The lexer of workflow files reads back spelled symbols, and slicing is dropping for ASCII.
-/
namespace Verif.Flow.Syntax

open Verif Verif.Flow
open Verif.Prot (Name isSpace isDigit isAlnum)
open Verif.Prot.Syntax (IdChar Ident isSpace_cases idChar_nat ne_of_toNat)

theorem utf8Size_pos (c : Char) : 1 ≤ c.utf8Size := Char.utf8Size_pos c

theorem utf8Size_ascii {c : Char} (h : c.toNat < 128) : c.utf8Size = 1 := by
  have : c.val ≤ 127 := by
    rw [UInt32.le_iff_toNat_le]
    show c.toNat ≤ 127
    omega
  simp [Char.utf8Size, this]

theorem sliceFrom_ascii : ∀ (a b : List Char), (∀ c ∈ a, c.toNat < 128) →
    sliceFrom a.length (a ++ b) = some b
  | [], b, _ => by cases b <;> rfl
  | c :: a, b, h => by
    have h1 := utf8Size_ascii (h c List.mem_cons_self)
    simp only [List.length_cons, List.cons_append, sliceFrom, h1]
    rw [if_pos (by omega)]
    exact sliceFrom_ascii a b (fun d hd => h d (List.mem_cons_of_mem _ hd))

/-- The token of a punctuation mark. -/
def Mark.tok : Mark → Tok
  | .opn => .opn
  | .cls => .cls
  | .openBracket => .openBracket
  | .closeBracket => .closeBracket
  | .arrow => .arrow
  | .exclamation => .exclamation
  | .question => .question
  | .semicolon => .semicolon
  | .dot => .pathDelimiter
  | .colon => .valueDelimiter

/-- The token of a symbol. -/
def Sym.tok : Sym → Tok
  | .word w => .word w
  | .mark m => m.tok

theorem lex_comment : ∀ (body : List Char) (str : Name) (pass : Nat) (lim : Bool) (t : List Char),
    (∀ c ∈ body, c ≠ '\n' ∧ c.toNat < 128) →
    lexLoop str pass lim true (body ++ t) = lexLoop str (pass + body.length) lim true t
  | [], _, _, _, _, _ => rfl
  | c :: body, str, pass, lim, t, h => by
    have hc := (h c List.mem_cons_self).1
    rw [List.cons_append, lexLoop]
    have : (true && c != '\n') = true := by simpa using hc
    rw [if_pos this, lex_comment body str (pass + 1) lim t (fun d hd => h d (List.mem_cons_of_mem _ hd)),
      List.length_cons]
    congr 1
    omega

theorem lex_gap {g : List Char} (h : Gap g) : ∀ (pass : Nat) (t : List Char),
    lexLoop [] pass false false (g ++ t) = lexLoop [] (pass + g.length) false false t := by
  induction h with
  | nil => intro pass t; rfl
  | @space c g hc _ ih =>
    intro pass t
    have : pass + (c :: g).length = pass + 1 + g.length := by rw [List.length_cons]; omega
    rw [this, ← ih]
    rcases isSpace_cases hc with rfl | rfl | rfl | rfl | rfl <;> rfl
  | @comment body g hb _ ih =>
    intro pass t
    have e : '#' :: (body ++ '\n' :: g) ++ t = '#' :: (body ++ '\n' :: (g ++ t)) := by simp
    rw [e]
    have h1 : lexLoop [] pass false false ('#' :: (body ++ '\n' :: (g ++ t))) =
      lexLoop [] (pass + 1) false true (body ++ '\n' :: (g ++ t)) := rfl
    have h2 : lexLoop [] (pass + 1 + body.length) false true ('\n' :: (g ++ t)) =
      lexLoop [] (pass + 1 + body.length + 1) false false (g ++ t) := rfl
    rw [h1, lex_comment _ _ _ _ _ hb, h2, ih]
    congr 1
    simp
    omega

/-- What the lexer asks about a character of a name. -/
theorem idChar_class {c : Char} (h : IdChar c) :
    c.toNat < 128 ∧ isSpace c = false ∧ breakTok c = none ∧ (c == '#') = false ∧
    (!isAlnum c && c != '_') = false ∧ isLimited c = false := by
  have hn := idChar_nat h
  have ne : ∀ d : Char, ¬ ((48 ≤ d.toNat ∧ d.toNat ≤ 57) ∨ (65 ≤ d.toNat ∧ d.toNat ≤ 90) ∨
      (97 ≤ d.toNat ∧ d.toNat ≤ 122) ∨ d.toNat = 95) → (c == d) = false := by
    intro d hd
    refine ne_of_toNat fun e => hd ?_
    rw [e] at hn
    exact hn
  have ne' : ∀ d : Char, ¬ ((48 ≤ d.toNat ∧ d.toNat ≤ 57) ∨ (65 ≤ d.toNat ∧ d.toNat ≤ 90) ∨
      (97 ≤ d.toNat ∧ d.toNat ≤ 122) ∨ d.toNat = 95) → c ≠ d :=
    fun d hd => beq_eq_false_iff_ne.mp (ne d hd)
  refine ⟨by omega, (Prot.Syntax.idChar_class h).2.1, ?_, ne _ (by decide), ?_, ?_⟩
  · simp only [breakTok, ne' '}' (by decide), ne' '{' (by decide), ne' ':' (by decide),
      ne' '?' (by decide), ne' ';' (by decide), ne' '.' (by decide), ne' '(' (by decide),
      ne' ')' (by decide), ne' '>' (by decide), ne' '!' (by decide), if_false]
  · rcases h with h | h
    · simp [h]
    · simp [h]
  · simp only [isLimited, ne '@' (by decide), ne '&' (by decide), Bool.or_false]

/-- A character that ends a word at once. -/
def Ends (c : Char) : Prop := isSpace c = true ∨ ∃ m : Mark, c = m.char

theorem lex_word_end {c : Char} (hc : Ends c) (str : Name) (pass : Nat) (lim : Bool)
    (rest : List Char) (hs : str ≠ []) (hm : lim = true → misplaced str = false) :
    lexLoop str pass lim false (c :: rest) = some (.word str, pass) := by
  have he : str.isEmpty = false := by simpa using hs
  have hl : (lim && misplaced str) = false := by
    cases lim
    · rfl
    · simp [hm rfl]
  rw [lexLoop]
  simp only [he, hl, Bool.and_false, Bool.false_and, Bool.false_eq_true, if_false]
  rcases hc with hc | ⟨m, rfl⟩
  · rcases isSpace_cases hc with rfl | rfl | rfl | rfl | rfl <;> rfl
  · cases m <;> rfl

theorem lex_word_tail : ∀ (w : Name) (str : Name) (pass : Nat) (lim : Bool) (t : List Char),
    str ≠ [] → (∀ d ∈ w, IdChar d) →
    lexLoop str pass lim false (w ++ t) = lexLoop (str ++ w) (pass + w.length) lim false t
  | [], str, pass, lim, t, _, _ => by simp
  | d :: w, str, pass, lim, t, hs, hw => by
    obtain ⟨h1, h2, h3, h4, h5, h6⟩ := idChar_class (hw d List.mem_cons_self)
    have he : str.isEmpty = false := by simpa using hs
    have h5' : (!isAlnum d && d != '_' && !(lim || false)) = false := by simp [h5]
    rw [List.cons_append, lexLoop]
    simp only [he, h1, h2, h3, h4, h6, not_true_eq_false, Bool.false_and, Bool.and_false,
      Bool.or_self, Bool.or_false, Option.isSome_none, if_false, Bool.false_eq_true]
    simp only [Bool.or_false] at h5'
    rw [h5']
    simp only [if_false, Bool.false_eq_true]
    rw [lex_word_tail w (str ++ [d]) (pass + 1) lim t (by simp)
      (fun x hx => hw x (List.mem_cons_of_mem _ hx))]
    simp [Nat.add_assoc, Nat.add_comm 1]

theorem mem_idChar_ne {w : Name} (hw : ∀ d ∈ w, IdChar d) (c : Char) (hc : isLimited c = true) :
    w.contains c = false := by
  rw [List.contains_eq_any_beq, List.any_eq_false]
  intro d hd
  obtain ⟨_, _, _, _, _, h6⟩ := idChar_class (hw d hd)
  intro he
  rw [beq_iff_eq] at he
  rw [he] at hc
  simp [hc] at h6

/-- Reading a word up to its end. -/
theorem lex_word (w : Name) (hw : IsWord w) (pass : Nat) (t : List Char) :
    ∃ lim, (lim = true → misplaced w = false) ∧
      lexLoop [] pass false false (w ++ t) = lexLoop w (pass + w.length) lim false t := by
  rcases hw with ⟨d, ds, rfl, hd, hall⟩ | ⟨v, ⟨d, ds, rfl, hd, hall⟩, hv⟩
  · obtain ⟨h1, h2, h3, h4, h5, h6⟩ := idChar_class (hall d List.mem_cons_self)
    refine ⟨false, by simp, ?_⟩
    rw [List.cons_append, lexLoop]
    simp only [h1, h2, h3, h4, h6, hd, not_true_eq_false, Bool.false_and, Bool.and_false,
      Bool.or_self, Option.isSome_none, if_false, Bool.false_eq_true, List.nil_append]
    have h5' : (!isAlnum d && d != '_' && !false) = false := by simp [h5]
    rw [h5']
    simp only [if_false, Bool.false_eq_true]
    rw [lex_word_tail ds [d] (pass + 1) false t (by simp)
      (fun x hx => hall x (List.mem_cons_of_mem _ hx))]
    simp [Nat.add_assoc, Nat.add_comm 1]
  · refine ⟨true, ?_, ?_⟩
    · intro _
      have ha := mem_idChar_ne hall '@' rfl
      have hb := mem_idChar_ne hall '&' rfl
      rcases hv with rfl | rfl
      · simp only [List.contains_cons, Bool.or_eq_false_iff] at hb
        simp only [misplaced, List.head?_cons, List.contains_cons, hb.1, hb.2]
        rfl
      · simp only [List.contains_cons, Bool.or_eq_false_iff] at ha
        simp only [misplaced, List.head?_cons, List.contains_cons, ha.1, ha.2]
        rfl
    · have key : ∀ c : Char, (c = '@' ∨ c = '&') →
          lexLoop [] pass false false (c :: d :: ds ++ t) =
            lexLoop (c :: d :: ds) (pass + (c :: d :: ds).length) true false t := by
        intro c hc
        have h1 : lexLoop [] pass false false (c :: (d :: ds ++ t)) =
            lexLoop [c] (pass + 1) true false (d :: ds ++ t) := by
          rcases hc with rfl | rfl <;> rfl
        rw [List.cons_append, h1, lex_word_tail (d :: ds) [c] (pass + 1) true t (by simp) hall]
        simp only [List.length_cons, List.singleton_append]
        congr 1
        omega
      rcases hv with rfl | rfl
      · exact key _ (.inl rfl)
      · exact key _ (.inr rfl)

theorem isWord_ne_nil {w : Name} (h : IsWord w) : w ≠ [] := by
  rcases h with ⟨d, ds, rfl, _⟩ | ⟨v, _, rfl | rfl⟩ <;> simp

theorem gap_ascii {g : List Char} (h : Gap g) : ∀ c ∈ g, c.toNat < 128 := by
  induction h with
  | nil => simp
  | @space c g hc _ ih =>
    intro d hd
    rcases List.mem_cons.mp hd with rfl | hd
    · rcases isSpace_cases hc with rfl | rfl | rfl | rfl | rfl <;> decide
    · exact ih d hd
  | @comment body g hb _ ih =>
    intro d hd
    rcases List.mem_cons.mp hd with rfl | hd
    · decide
    · rcases List.mem_append.mp hd with hd | hd
      · exact (hb d hd).2
      · rcases List.mem_cons.mp hd with rfl | hd
        · decide
        · exact ih d hd

theorem word_ascii {w : Name} (h : IsWord w) : ∀ c ∈ w, c.toNat < 128 := by
  have hid : ∀ v, Ident v → ∀ c ∈ v, c.toNat < 128 := by
    rintro v ⟨_, _, _, _, hall⟩ c hc
    exact (idChar_class (hall c hc)).1
  rcases h with h | ⟨v, hv, rfl | rfl⟩
  · exact hid w h
  all_goals
    intro c hc
    rcases List.mem_cons.mp hc with rfl | hc
    · decide
    · exact hid v hv c hc

theorem mark_ascii (m : Mark) : m.char.toNat < 128 := by cases m <;> decide

theorem mark_ne_hash (m : Mark) : m.char ≠ '#' := by cases m <;> decide

theorem mark_ends (m : Mark) : Ends m.char := .inr ⟨m, rfl⟩

theorem word_head_ne_hash {w : Name} (h : IsWord w) {r t : List Char} (he : w ++ t = '#' :: r) :
    False := by
  rcases h with ⟨d, ds, rfl, _, hall⟩ | ⟨v, _, rfl | rfl⟩
  · simp only [List.cons_append, List.cons.injEq] at he
    have := (idChar_class (hall d List.mem_cons_self)).2.2.2.1
    rw [he.1] at this
    simp at this
  all_goals simp at he

/-- A gap that starts with a comment. -/
theorem gap_hash {g t r : List Char} (h : Gap g) (he : g ++ t = '#' :: r)
    (hn : ∀ x, t ≠ '#' :: x) :
    ∃ body g2, (∀ c ∈ body, c ≠ '\n' ∧ c.toNat < 128) ∧ Gap g2 ∧ r = body ++ '\n' :: (g2 ++ t) := by
  cases h with
  | nil => exact absurd he (hn r)
  | space hc _ =>
    simp only [List.cons_append, List.cons.injEq] at he
    rw [he.1] at hc
    simp [isSpace] at hc
  | @comment body g2 hb hg =>
    simp only [List.cons_append, List.cons.injEq, true_and] at he
    exact ⟨body, g2, hb, hg, by rw [← he]; simp⟩

/-- If a comment follows, it can be left out. -/
theorem spelled_hash {ts : List Sym} {r : List Char} (h : Spelled ts ('#' :: r)) (hne : ts ≠ []) :
    ∃ body r2, (∀ c ∈ body, c ≠ '\n' ∧ c.toNat < 128) ∧ r = body ++ '\n' :: r2 ∧
      Spelled ts ('\n' :: r2) := by
  generalize ht : '#' :: r = t at h
  cases h with
  | nil => exact absurd rfl hne
  | tail => exact absurd rfl hne
  | @word g w ts c rest hg hw hc hn hs =>
    obtain ⟨body, g2, h1, h2, h3⟩ := gap_hash hg ht.symm (fun x hx => word_head_ne_hash hw hx)
    refine ⟨body, _, h1, h3, ?_⟩
    have := Spelled.word (Gap.space (c := '\n') rfl h2) hw hc hn hs
    simpa using this
  | @mark g m ts rest hg hs =>
    obtain ⟨body, g2, h1, h2, h3⟩ := gap_hash hg ht.symm (fun x hx => mark_ne_hash m (by
      simp only [List.cons.injEq] at hx; exact hx.1))
    refine ⟨body, _, h1, h3, ?_⟩
    have := Spelled.mark (m := m) (Gap.space (c := '\n') rfl h2) hs
    simpa using this

/-- One round of the parser, given the token and the rest of the text. -/
def roundTo (p : PState) (t : Tok) (rest : List Char) : Next :=
  match onTok p t 1 with
  | some p2 => .go p2 rest
  | none => .halt .rejected

theorem onTok_offset (p : PState) (t : Tok) {n : Nat} (h : n ≠ 0) : onTok p t n = onTok p t 1 := by
  simp [onTok, h]

theorem step_of_lex {text rest : List Char} {t : Tok} {n : Nat} (h : lex text = some (t, n))
    (ht : t ≠ .eof) (hn : n ≠ 0) (hd : sliceFrom n text = some rest) (p : PState) :
    step p text = roundTo p t rest := by
  simp only [step, h, if_neg ht, onTok_offset p t hn, roundTo, hd]
  cases onTok p t 1 <;> rfl

theorem step_word {w : Name} {ts : List Sym} {text : List Char}
    (h : Spelled (.word w :: ts) text) : ∃ rest, Spelled ts rest ∧
      ∀ p, step p text = roundTo p (.word w) rest := by
  cases h with
  | @word g _ _ c rest hg hw hc hn hs =>
    have hwl : w.length ≠ 0 := by simpa using isWord_ne_nil hw
    obtain ⟨lim, hm, hl⟩ := lex_word w hw (0 + g.length) (c :: rest)
    have fin : ∀ (a : List Char) (d : Char) (r : List Char), c :: rest = a ++ d :: r →
        (∀ x ∈ a, x.toNat < 128) →
        lexLoop w (0 + g.length + w.length) lim false (c :: rest) =
          some (.word w, g.length + w.length + a.length) →
        Spelled ts (d :: r) →
        ∃ rest2, Spelled ts rest2 ∧
          ∀ p, step p (g ++ (w ++ c :: rest)) = roundTo p (.word w) rest2 := by
      intro a d r he ha hlex hsp
      refine ⟨d :: r, hsp, step_of_lex (n := g.length + w.length + a.length) ?_ (by simp)
        (by omega) ?_⟩
      · rw [lex, lex_gap hg, hl, hlex]
      · have : g ++ (w ++ c :: rest) = (g ++ (w ++ a)) ++ d :: r := by rw [he]; simp
        rw [this]
        have hlen : g.length + w.length + a.length = (g ++ (w ++ a)).length := by simp; omega
        rw [hlen]
        apply sliceFrom_ascii
        intro x hx
        rcases List.mem_append.mp hx with hx | hx
        · exact gap_ascii hg x hx
        · rcases List.mem_append.mp hx with hx | hx
          · exact word_ascii hw x hx
          · exact ha x hx
    by_cases hh : c = '#'
    · subst hh
      obtain ⟨body, r2, hb, rfl, hs2⟩ := spelled_hash hs hn
      refine fin ('#' :: body) '\n' r2 (by simp) ?_ ?_ hs2
      · intro x hx
        rcases List.mem_cons.mp hx with rfl | hx
        · decide
        · exact (hb x hx).2
      · have h1 : lexLoop w (0 + g.length + w.length) lim false ('#' :: (body ++ '\n' :: r2)) =
            lexLoop w (0 + g.length + w.length + 1) lim true (body ++ '\n' :: r2) := by
          rw [lexLoop]; rfl
        rw [h1, lex_comment _ _ _ _ _ hb]
        have h2 : lexLoop w (0 + g.length + w.length + 1 + body.length) lim true ('\n' :: r2) =
            lexLoop w (0 + g.length + w.length + 1 + body.length) lim false ('\n' :: r2) := by
          rw [lexLoop, lexLoop]; rfl
        rw [h2, lex_word_end (.inl rfl) w _ lim r2 (isWord_ne_nil hw) hm]
        simp
        omega
    · have he : Ends c := by
        rcases hc with h | h | h
        · exact .inl h
        · exact absurd h hh
        · exact .inr h
      refine fin [] c rest rfl (by simp) ?_ hs
      rw [lex_word_end he w _ lim rest (isWord_ne_nil hw) hm]
      simp

theorem step_mark {m : Mark} {ts : List Sym} {text : List Char}
    (h : Spelled (.mark m :: ts) text) : ∃ rest, Spelled ts rest ∧
      ∀ p, step p text = roundTo p m.tok rest := by
  cases h with
  | @mark g _ _ rest hg hs =>
    refine ⟨rest, hs, step_of_lex (n := g.length + 1) ?_ (by cases m <;> simp [Mark.tok])
      (by omega) ?_⟩
    · rw [lex, lex_gap hg]
      cases m <;> simp only [Nat.zero_add] <;> rfl
    · have : g ++ m.char :: rest = (g ++ [m.char]) ++ rest := by simp
      rw [this]
      have hlen : g.length + 1 = (g ++ [m.char]).length := by simp
      rw [hlen]
      apply sliceFrom_ascii
      intro x hx
      rcases List.mem_append.mp hx with hx | hx
      · exact gap_ascii hg x hx
      · rw [List.mem_singleton] at hx
        rw [hx]
        exact mark_ascii m

theorem step_sym {t : Sym} {ts : List Sym} {text : List Char}
    (h : Spelled (t :: ts) text) : ∃ rest, Spelled ts rest ∧
      ∀ p, step p text = roundTo p t.tok rest := by
  cases t with
  | word w => exact step_word h
  | mark m => exact step_mark h

theorem step_end {text : List Char} (h : Spelled [] text) (p : PState) :
    step p text =
      .halt (if p.store.validate then .accepted p.store p.protocol else .rejected) := by
  have fin : ∀ n, lex text = some (.eof, n) → step p text =
      .halt (if p.store.validate then .accepted p.store p.protocol else .rejected) := by
    intro n hn
    simp [step, hn]
  cases h with
  | nil hg =>
    have := lex_gap hg 0 []
    rw [List.append_nil] at this
    exact fin _ this
  | @tail g body hg hb =>
    have h1 := lex_gap hg 0 ('#' :: body)
    have h2 : lexLoop [] (0 + g.length) false false ('#' :: body) =
      lexLoop [] (0 + g.length + 1) false true body := rfl
    have h3 := lex_comment body [] (0 + g.length + 1) false [] hb
    rw [List.append_nil] at h3
    exact fin (0 + g.length + 1 + body.length) (by rw [lex, h1, h2, h3]; rfl)

/-- The parser on tokens. -/
def run : PState → List Tok → Option PState
  | p, [] => some p
  | p, t :: ts =>
    match onTok p t 1 with
    | some p2 => run p2 ts
    | none => none

theorem run_append (p : PState) (a b : List Tok) :
    run p (a ++ b) = (run p a).bind (fun p2 => run p2 b) := by
  induction a generalizing p with
  | nil => rfl
  | cons t a ih =>
    simp only [List.cons_append, run]
    split
    · exact ih _
    · rfl

/-- The end of a run. -/
def finish : Option PState → Outcome
  | none => .rejected
  | some p => if p.store.validate then .accepted p.store p.protocol else .rejected

/-- Parsing a spelled text is running its tokens. -/
theorem parse_spelled : ∀ (ts : List Sym) (text : List Char) (p : PState), Spelled ts text →
    ∃ n, loop n p text = some (finish (run p (ts.map Sym.tok)))
  | [], text, p, h => ⟨1, by simp [loop, step_end h, run, finish]⟩
  | t :: ts, text, p, h => by
    obtain ⟨rest, hs, hstep⟩ := step_sym h
    have hp := hstep p
    simp only [List.map_cons, run]
    unfold roundTo at hp
    split at hp
    · rename_i p2 hp2
      obtain ⟨n, hn⟩ := parse_spelled ts rest p2 hs
      refine ⟨n + 1, ?_⟩
      simp [loop, hp, hn]
    · rename_i hp2
      refine ⟨1, ?_⟩
      simp [loop, hp, finish]

end Verif.Flow.Syntax
