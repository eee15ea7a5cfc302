import Verif.Model.Puml
import Verif.Spec.Puml
import Verif.Proofs.WorkflowLookup
set_option autoImplicit false
/-!
Lemmas about diagrams: replacing in templates, lines of texts, and what is rendered.
-/
namespace Verif.Puml

open Verif.Prot (Name)
open Verif.Prot.Syntax (IdChar Ident)
open Verif.Flow (Ref Broadcast Event Action Request Store)
open Verif.Flow.Syntax

/-! ### Replacing -/

theorem replaceFrom_skip {pat rep : Text} (hp : pat.head? = some '[') :
    ∀ (a b : Text), (∀ c ∈ a, c ≠ '[') → replaceFrom pat rep 0 (a ++ b) = a ++ replaceFrom pat rep 0 b := by
  intro a b
  induction a with
  | nil => intro _; rfl
  | cons c cs ih =>
    intro h
    have hc : c ≠ '[' := h c List.mem_cons_self
    match pat, hp with
    | p :: ps, hp =>
      have : p = '[' := by simpa using hp
      subst this
      have h2 : (('[' :: ps).isPrefixOf (c :: (cs ++ b))) = false := by
        simp [List.isPrefixOf, Ne.symm hc]
      simp only [List.cons_append, replaceFrom, h2]
      rw [ih fun d hd => h d (List.mem_cons_of_mem _ hd)]
      rfl

theorem replaceFrom_drop {pat rep : Text} : ∀ (a b : Text), replaceFrom pat rep a.length (a ++ b) =
    replaceFrom pat rep 0 b := by
  intro a b
  induction a with
  | nil => rfl
  | cons c cs ih => simpa [replaceFrom] using ih

theorem replaceFrom_hit {pat rep : Text} (hp : pat ≠ []) (b : Text) :
    replaceFrom pat rep 0 (pat ++ b) = rep ++ replaceFrom pat rep 0 b := by
  match pat, hp with
  | p :: ps, _ =>
    have h2 : ((p :: ps).isPrefixOf (p :: (ps ++ b))) = true := by
      rw [List.isPrefixOf_iff_prefix]
      exact ⟨b, by simp⟩
    simp only [List.cons_append, replaceFrom, h2, if_true]
    rw [show (p :: ps).length - 1 = ps.length by simp, replaceFrom_drop]

theorem replaceFrom_none {pat rep : Text} (hp : pat.head? = some '[') (a : Text) (h : ∀ c ∈ a, c ≠ '[') :
    replaceFrom pat rep 0 a = a := by
  have := replaceFrom_skip (rep := rep) hp a [] h
  simpa [replaceFrom] using this

/-! ### Lines -/

theorem parts_acc : ∀ (t acc : Text), partsAtLineEnds t acc =
    match splitLines t with
    | [] => [acc.reverse]
    | l :: ls => (acc.reverse ++ l) :: ls := by
  intro t
  induction t with
  | nil => intro acc; simp [partsAtLineEnds, splitLines]
  | cons c cs ih =>
    intro acc
    by_cases hc : c = '\n'
    · subst hc
      simp only [partsAtLineEnds, splitLines, if_true, List.append_nil, List.cons.injEq, true_and]
      rw [ih]
      cases h : splitLines cs with
      | nil =>
        exfalso
        cases cs with
        | nil => simp [splitLines] at h
        | cons d ds =>
          simp only [splitLines] at h
          split at h
          · simp at h
          · split at h <;> simp at h
      | cons l ls => simp
    · simp only [partsAtLineEnds, splitLines, if_neg hc, ih]
      cases splitLines cs <;> simp

theorem splitLines_ne : ∀ t : Text, splitLines t ≠ [] := by
  intro t
  cases t with
  | nil => simp [splitLines]
  | cons c cs =>
    simp only [splitLines]
    split
    · simp
    · split <;> simp

theorem parts_eq (t : Text) : partsAtLineEnds t [] = splitLines t := by
  rw [parts_acc]
  cases h : splitLines t with
  | nil => exact absurd h (splitLines_ne t)
  | cons l ls => simp

theorem splitLines_append (a b : Text) : splitLines (a ++ '\n' :: b) = splitLines a ++ splitLines b := by
  induction a with
  | nil => simp [splitLines]
  | cons c cs ih =>
    by_cases hc : c = '\n'
    · simp [splitLines, hc, ih]
    · simp only [List.cons_append, splitLines, if_neg hc, ih]
      cases h : splitLines cs with
      | nil => exact absurd h (splitLines_ne cs)
      | cons l ls => rfl

theorem splitLines_single {a : Text} (h : ∀ c ∈ a, c ≠ '\n') : splitLines a = [a] := by
  induction a with
  | nil => rfl
  | cons c cs ih =>
    simp only [splitLines, if_neg (h c List.mem_cons_self), ih fun d hd => h d (List.mem_cons_of_mem _ hd)]

theorem splitLines_no_end : ∀ (t : Text), ∀ l ∈ splitLines t, ∀ c ∈ l, c ≠ '\n' := by
  intro t
  induction t with
  | nil => simp [splitLines]
  | cons d ds ih =>
    intro l hl
    by_cases hd : d = '\n'
    · simp only [splitLines, if_pos hd, List.mem_cons] at hl
      rcases hl with rfl | hl
      · simp
      · exact ih l hl
    · simp only [splitLines, if_neg hd] at hl
      cases hs : splitLines ds with
      | nil => exact absurd hs (splitLines_ne ds)
      | cons x xs =>
        rw [hs] at hl
        simp only [List.mem_cons] at hl
        rcases hl with rfl | hl
        · intro c hc
          rcases List.mem_cons.1 hc with rfl | hc
          · exact hd
          · exact ih x (by rw [hs]; exact List.mem_cons_self) c hc
        · exact ih l (by rw [hs]; exact List.mem_cons_of_mem _ hl)

theorem lines_nil : linesOf [] = [] := by decide

theorem lines_append (a b : Text) : linesOf (a ++ '\n' :: b) = linesOf a ++ linesOf b := by
  simp only [linesOf, parts_eq, splitLines_append, List.map_append, List.filter_append]

theorem lines_cons (b : Text) : linesOf ('\n' :: b) = linesOf b := by
  have := lines_append [] b
  rwa [lines_nil, List.nil_append, List.nil_append] at this

/-- Nothing, or it starts with a line end. -/
def Starts (b : Text) : Prop := b = [] ∨ ∃ c, b = '\n' :: c

theorem lines_starts (a : Text) {b : Text} (h : Starts b) : linesOf (a ++ b) = linesOf a ++ linesOf b := by
  rcases h with rfl | ⟨c, rfl⟩
  · simp [lines_nil]
  · rw [lines_append, lines_cons]

theorem Starts.append {a b : Text} (ha : Starts a) (hb : Starts b) : Starts (a ++ b) := by
  rcases ha with rfl | ⟨c, rfl⟩
  · simpa using hb
  · exact .inr ⟨c ++ b, rfl⟩

theorem stripped_left {t : Text} (h : ∀ c ∈ t, c = ' ') (l : Text) : stripped (t ++ l) = stripped l := by
  induction t with
  | nil => rfl
  | cons c cs ih =>
    have hc : c = ' ' := h c List.mem_cons_self
    have := ih fun d hd => h d (List.mem_cons_of_mem _ hd)
    simpa [stripped, hc] using this

theorem splitLines_joinTabs {t : Text} (ht : ∀ c ∈ t, c ≠ '\n') : ∀ ls : List Text, ls ≠ [] →
    (∀ l ∈ ls, ∀ c ∈ l, c ≠ '\n') → splitLines (joinTabs t ls) = ls.map (t ++ ·) := by
  intro ls
  induction ls with
  | nil => intro h; exact absurd rfl h
  | cons l ls ih =>
    intro _ h
    have hl : ∀ c ∈ t ++ l, c ≠ '\n' := by
      intro c hc
      rcases List.mem_append.1 hc with hc | hc
      · exact ht c hc
      · exact h l List.mem_cons_self c hc
    cases ls with
    | nil => simp only [joinTabs, splitLines_single hl, List.map_cons, List.map_nil]
    | cons l2 ls =>
      rw [joinTabs, splitLines_append, splitLines_single hl,
        ih (by simp) fun x hx => h x (List.mem_cons_of_mem _ hx)]
      rfl

theorem tabs_blank (n : Nat) : ∀ c ∈ tabs n, c = ' ' := by
  intro c hc
  exact (List.mem_replicate.1 hc).2

theorem lines_injectTabs (n : Nat) (s : Text) : linesOf (injectTabs n s) = linesOf s := by
  have ht : ∀ c ∈ tabs n, c ≠ '\n' := fun c hc => by rw [tabs_blank n c hc]; decide
  simp only [linesOf, parts_eq, injectTabs,
    splitLines_joinTabs ht _ (splitLines_ne s) (splitLines_no_end s), List.map_map]
  congr 2
  funext l
  exact stripped_left (tabs_blank n) l

theorem joinTabs_cons (t l : Text) {ls : List Text} (h : ls ≠ []) :
    joinTabs t (l :: ls) = t ++ l ++ '\n' :: joinTabs t ls := by
  cases ls with
  | nil => exact absurd rfl h
  | cons x xs => rfl

theorem injectTabs_nil (n : Nat) : injectTabs n [] = tabs n := by
  simp [injectTabs, splitLines, joinTabs]

theorem injectTabs_cons (n : Nat) (c : Text) : injectTabs n ('\n' :: c) = tabs n ++ '\n' :: injectTabs n c := by
  simp only [injectTabs, splitLines, if_true]
  rw [joinTabs_cons _ _ (splitLines_ne c), List.append_nil]

/-! ### Single lines -/

/-- A line without blanks at its ends. -/
def Plain (l : Text) : Prop :=
  l ≠ [] ∧ (∀ c ∈ l, c ≠ '\n') ∧ l.head? ≠ some ' ' ∧ l.getLast? ≠ some ' '

theorem stripped_plain {l : Text} (h : Plain l) : stripped l = l := by
  obtain ⟨h1, _, h3, h4⟩ := h
  have e1 : l.dropWhile (· = ' ') = l := by
    cases l with
    | nil => rfl
    | cons c cs =>
      have : c ≠ ' ' := by simpa using h3
      simp [List.dropWhile, this]
  have e2 : l.reverse.dropWhile (· = ' ') = l.reverse := by
    cases hr : l.reverse with
    | nil => rfl
    | cons c cs =>
      have : l.getLast? = some c := by
        rw [← List.head?_reverse, hr]; rfl
      have : c ≠ ' ' := by
        intro hc
        exact h4 (by rw [this, hc])
      simp [List.dropWhile, this]
  simp only [stripped, e1, e2, List.reverse_reverse]

theorem dropWhile_blank {t : Text} (h : ∀ c ∈ t, c = ' ') (l : Text) :
    (t ++ l).dropWhile (· = ' ') = l.dropWhile (· = ' ') := by
  induction t with
  | nil => rfl
  | cons c cs ih =>
    have hc : c = ' ' := h c List.mem_cons_self
    have := ih fun d hd => h d (List.mem_cons_of_mem _ hd)
    simpa [hc] using this

theorem stripped_right {l t : Text} (hl : Plain l) (h : ∀ c ∈ t, c = ' ') : stripped (l ++ t) = l := by
  have e1 : (l ++ t).dropWhile (· = ' ') = l ++ t := by
    cases l with
    | nil => exact absurd rfl hl.1
    | cons c cs =>
      have : c ≠ ' ' := by simpa using hl.2.2.1
      simp [this]
  have h2 := stripped_plain hl
  simp only [stripped, e1, List.reverse_append]
  rw [dropWhile_blank fun c hc => h c (List.mem_reverse.1 hc)]
  have e3 : l.dropWhile (· = ' ') = l := by
    cases l with
    | nil => rfl
    | cons c cs =>
      have : c ≠ ' ' := by simpa using hl.2.2.1
      simp [List.dropWhile, this]
  simpa only [stripped, e3] using h2

theorem lines_plain {l : Text} (h : Plain l) (n : Nat) : linesOf (tabs n ++ l) = [l] := by
  have hn : ∀ c ∈ tabs n ++ l, c ≠ '\n' := by
    intro c hc
    rcases List.mem_append.1 hc with hc | hc
    · rw [tabs_blank n c hc]; decide
    · exact h.2.1 c hc
  simp only [linesOf, parts_eq, splitLines_single hn, List.map_cons, List.map_nil,
    stripped_left (tabs_blank n), stripped_plain h]
  simp [h.1]

theorem lines_plain2 {l : Text} (h : Plain l) (n m : Nat) : linesOf (tabs n ++ (l ++ tabs m)) = [l] := by
  have hn : ∀ c ∈ tabs n ++ (l ++ tabs m), c ≠ '\n' := by
    intro c hc
    simp only [List.mem_append] at hc
    rcases hc with hc | hc | hc
    · rw [tabs_blank n c hc]; decide
    · exact h.2.1 c hc
    · rw [tabs_blank m c hc]; decide
  simp only [linesOf, parts_eq, splitLines_single hn, List.map_cons, List.map_nil,
    stripped_left (tabs_blank n), stripped_right h (tabs_blank m)]
  simp [h.1]

/-- A line, and behind it lines with tabs in front. -/
theorem lines_followed {l : Text} (h : Plain l) (n m : Nat) {b : Text} (hb : Starts b) :
    linesOf (tabs n ++ (l ++ injectTabs m b)) = l :: linesOf b := by
  rcases hb with rfl | ⟨c, rfl⟩
  · rw [injectTabs_nil, lines_plain2 h, lines_nil]
  · rw [injectTabs_cons, show tabs n ++ (l ++ (tabs m ++ '\n' :: injectTabs m c)) =
      (tabs n ++ (l ++ tabs m)) ++ '\n' :: injectTabs m c by simp, lines_append, lines_plain2 h,
      lines_injectTabs, lines_cons]
    rfl

/-- A name: no bracket, no blank, no line end. -/
def Tame (r : Text) : Prop := r ≠ [] ∧ ∀ c ∈ r, c ≠ '[' ∧ c ≠ '\n' ∧ c ≠ ' '

theorem plain_append {p r : Text} (hp : p ≠ []) (h1 : p.all (· ≠ '\n') = true) (h2 : p.head? ≠ some ' ')
    (hr : Tame r) : Plain (p ++ r) := by
  refine ⟨by simp [hp], ?_, ?_, ?_⟩
  · intro c hc
    rcases List.mem_append.1 hc with hc | hc
    · simpa using List.all_eq_true.1 h1 c hc
    · exact (hr.2 c hc).2.1
  · cases p with
    | nil => exact absurd rfl hp
    | cons c cs => simpa using h2
  · rw [List.getLast?_append]
    cases hl : r.getLast? with
    | none => exact absurd (List.getLast?_eq_none_iff.1 hl) hr.1
    | some c =>
      have hm := List.mem_of_getLast? hl
      intro he
      have : c = ' ' := by simpa using he
      exact (hr.2 c hm).2.2 this

/-- The names of the line are tame. -/
def Item.Named : Item → Prop
  | .start => True
  | .participants => True
  | .group t => Tame t
  | .message _ _ _ n => Tame n
  | .failure n => Tame n
  | .case n => Tame n
  | .close => True
  | .finish => True

theorem plain_of {l : Text} (h : (decide (l ≠ []) && l.all (· ≠ '\n') && decide (l.head? ≠ some ' ') &&
    decide (l.getLast? ≠ some ' ')) = true) : Plain l := by
  simp only [Bool.and_eq_true, decide_eq_true_eq] at h
  exact ⟨h.1.1.1, fun c hc => by simpa using List.all_eq_true.1 h.1.1.2 c hc, h.1.2, h.2⟩

theorem plain_case {n : Text} (h : Tame n) : Plain ("== ".toList ++ n ++ " ==".toList) := by
  have h1 := plain_append (p := "== ".toList) (by decide) (by decide) (by decide) h
  refine ⟨by simp, ?_, ?_, ?_⟩
  · intro c hc
    rcases List.mem_append.1 hc with hc | hc
    · exact h1.2.1 c hc
    · exact fun he => by subst he; revert hc; decide
  · simp
  · rw [List.getLast?_append, show " ==".toList.getLast? = some '=' by decide]
    simp

theorem plain_message (s : Party) (k : Stroke) (r : Party) {n : Text} (h : Tame n) :
    Plain (Item.message s k r n).line := by
  have : ∀ p : Text, (decide (p ≠ []) && p.all (· ≠ '\n') && decide (p.head? ≠ some ' ')) = true →
      Plain (p ++ n) := by
    intro p hp
    simp only [Bool.and_eq_true, decide_eq_true_eq] at hp
    exact plain_append hp.1.1 hp.1.2 hp.2 h
  refine this (s.name ++ ' ' :: k.arrow ++ ' ' :: r.name ++ ": ".toList) ?_
  cases s <;> cases k <;> cases r <;> decide

theorem Item.plain {i : Item} (h : i.Named) : Plain i.line := by
  cases i with
  | start => exact plain_of (by decide)
  | participants => exact plain_of (by decide)
  | group t => exact plain_append (by decide) (by decide) (by decide) h
  | message s k r n => exact plain_message s k r h
  | failure n => exact plain_append (by decide) (by decide) (by decide) h
  | case n => exact plain_case h
  | close => exact plain_of (by decide)
  | finish => exact plain_of (by decide)

/-! ### Lists of lines -/

theorem foldl_append {α : Type} (f : α → Text) : ∀ (xs : List α) (acc : Text),
    xs.foldl (fun out x => out ++ f x) acc = acc ++ xs.flatMap f := by
  intro xs
  induction xs with
  | nil => simp
  | cons x xs ih => intro acc; simp [ih]

theorem lines_flatMap {α : Type} (f : α → Text) (g : α → List Text) : ∀ xs : List α,
    (∀ x ∈ xs, Starts (f x) ∧ linesOf (f x) = g x) →
    Starts (xs.flatMap f) ∧ linesOf (xs.flatMap f) = xs.flatMap g := by
  intro xs
  induction xs with
  | nil => intro _; exact ⟨.inl rfl, lines_nil⟩
  | cons x xs ih =>
    intro h
    have h1 := h x List.mem_cons_self
    have h2 := ih fun y hy => h y (List.mem_cons_of_mem _ hy)
    rw [List.flatMap_cons, List.flatMap_cons]
    exact ⟨h1.1.append h2.1, by rw [lines_starts _ h2.1, h1.2, h2.2]⟩

/-- Lines that are messages, one after the other. -/
theorem lines_messages {α : Type} (f : α → Text) (m : α → Item) (xs : List α)
    (h : ∀ x ∈ xs, f x = '\n' :: (m x).line ∧ (m x).Named) :
    Starts (xs.flatMap f) ∧ linesOf (xs.flatMap f) = (xs.map m).map Item.line := by
  have := lines_flatMap f (fun x => [(m x).line]) xs fun x hx => ⟨.inr ⟨_, (h x hx).1⟩, by
    rw [(h x hx).1, lines_cons]
    have := lines_plain (Item.plain (h x hx).2) 0
    simpa [tabs] using this⟩
  refine ⟨this.1, this.2.trans ?_⟩
  clear this h
  induction xs with
  | nil => rfl
  | cons x xs ih => simp [ih]

end Verif.Puml
