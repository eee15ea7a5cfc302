import Verif.Spec.Cli
set_option autoImplicit false
/-!
How the tool reads its arguments.
-/
namespace Verif.Cli

open Verif Verif.Cli.Spec
open Verif.Files (Name Dir Path Content World)
open Verif.Flow (Target)

theorem isOne_iff (o : Opt) (a : Arg) : isOne o.keys a = true ↔ o.Key a := by
  unfold isOne Opt.Key
  rw [List.any_eq_true]
  constructor
  · rintro ⟨k, hk, h⟩
    exact ⟨k, hk, (of_decide_eq_true h).symm⟩
  · rintro ⟨k, hk, h⟩
    exact ⟨k, hk, decide_eq_true h.symm⟩

theorem isOne_false (o : Opt) (a : Arg) : isOne o.keys a = false ↔ ¬ o.Key a := by
  rw [← isOne_iff, Bool.not_eq_true]

def allKeys : List (Opt × String) :=
  [Opt.help, .embedded, .overwrite, .source, .workflow, .rust, .typescript, .consumer, .producer, .puml].flatMap
    fun o => o.keys.map fun k => (o, k)

theorem mem_allKeys {o : Opt} {k : String} (h : k ∈ o.keys) : (o, k) ∈ allKeys := by
  unfold allKeys
  refine List.mem_flatMap.mpr ⟨o, by cases o <;> decide, List.mem_map.mpr ⟨k, h, rfl⟩⟩

/-- No key belongs to two options. -/
theorem key_unique {o p : Opt} {a : Arg} (h1 : o.Key a) (h2 : p.Key a) : o = p := by
  obtain ⟨k, hk, rfl⟩ := h1
  obtain ⟨l, hl, he⟩ := h2
  have : ∀ x ∈ allKeys, ∀ y ∈ allKeys, x.2.toList = y.2.toList → x.1 = y.1 := by decide
  exact this _ (mem_allKeys hk) _ (mem_allKeys hl) he

instance (o : Opt) : Decidable o.plain := by cases o <;> (unfold Opt.plain; infer_instance)

theorem reads_words {args : List Arg} {items : List Item} (h : Reads args items) : words items = args := by
  induction h with
  | nil => rfl
  | flag h hk hr ih => simp [words, Item.words] at ih ⊢; exact ih
  | value h hk hr ih => simp [words, Item.words] at ih ⊢; exact ih
  | lone h hk => rfl
  | stray h hr ih => simp [words, Item.words] at ih ⊢; exact ih

/-- Every list can be read. -/
theorem reads_total : ∀ (n : Nat) (args : List Arg), args.length ≤ n → ∃ items, Reads args items := by
  intro n
  induction n with
  | zero =>
    intro args h
    cases args with
    | nil => exact ⟨_, .nil⟩
    | cons a l => simp at h
  | succ n ih =>
    intro args h
    cases args with
    | nil => exact ⟨_, .nil⟩
    | cons a l =>
      have hl : l.length ≤ n := by simpa using h
      by_cases hk : Key a
      · obtain ⟨o, hk⟩ := hk
        by_cases hp : o.plain
        · obtain ⟨items, hi⟩ := ih l hl
          exact ⟨_, .flag hp hk hi⟩
        · cases l with
          | nil => exact ⟨_, .lone hp hk⟩
          | cons v l =>
            obtain ⟨items, hi⟩ := ih l (by simp at hl; omega)
            exact ⟨_, .value hp hk hi⟩
      · obtain ⟨items, hi⟩ := ih l hl
        exact ⟨_, .stray hk hi⟩

theorem reads_unique {args : List Arg} {a b : List Item} (h : Reads args a) (h2 : Reads args b) : a = b := by
  induction h generalizing b with
  | nil => cases h2; rfl
  | flag h hk hr ih =>
    cases h2 with
    | flag h' hk' hr' => rw [key_unique hk hk', ih hr']
    | value h' hk' hr' => exact absurd (key_unique hk hk' ▸ h) h'
    | lone h' hk' => exact absurd (key_unique hk hk' ▸ h) h'
    | stray h' hr' => exact absurd ⟨_, hk⟩ h'
  | value h hk hr ih =>
    cases h2 with
    | flag h' hk' hr' => exact absurd h' (key_unique hk hk' ▸ h)
    | value h' hk' hr' => rw [key_unique hk hk', ih hr']
    | stray h' hr' => exact absurd ⟨_, hk⟩ h'
  | lone h hk =>
    cases h2 with
    | flag h' hk' hr' => exact absurd h' (key_unique hk hk' ▸ h)
    | lone h' hk' => rw [key_unique hk hk']
    | stray h' hr' => exact absurd ⟨_, hk⟩ h'
  | stray h hr ih =>
    cases h2 with
    | flag h' hk' hr' => exact absurd ⟨_, hk'⟩ h
    | value h' hk' hr' => exact absurd ⟨_, hk'⟩ h
    | lone h' hk' => exact absurd ⟨_, hk'⟩ h
    | stray h' hr' => rw [ih hr']

/-! ### Cleaners -/

/-- Items without the first one of an option. -/
def without (o : Opt) : List Item → List Item
  | [] => []
  | i :: rest => if i.opt = some o then rest else i :: without o rest

theorem without_value {o p : Opt} {k v : Arg} {items : List Item} (h : Item.value p k v ∈ without o items) :
    Item.value p k v ∈ items := by
  induction items with
  | nil => exact h
  | cons i rest ih =>
    unfold without at h
    split at h
    · exact List.mem_cons_of_mem _ h
    · rcases List.mem_cons.mp h with h | h
      · exact h ▸ List.mem_cons_self
      · exact List.mem_cons_of_mem _ (ih h)

theorem reads_cons_lone {o : Opt} {k : Arg} {args : List Arg} {items : List Item}
    (h : Reads args (.lone o k :: items)) : args = [k] ∧ items = [] := by
  cases h
  exact ⟨rfl, rfl⟩

/-- What is left after the first item of an option is taken out is read as the other items. -/
theorem reads_without {o : Opt} {args : List Arg} {items : List Item} (h : Reads args items) :
    Reads (words (without o items)) (without o items) := by
  induction h with
  | nil => exact .nil
  | flag h hk hr ih =>
    unfold without
    split
    · exact reads_words hr ▸ hr
    · exact .flag h hk ih
  | value h hk hr ih =>
    unfold without
    split
    · exact reads_words hr ▸ hr
    · exact .value h hk ih
  | lone h hk =>
    unfold without
    split
    · exact .nil
    · exact .lone h hk
  | stray h hr ih =>
    unfold without
    split
    · exact reads_words hr ▸ hr
    · exact .stray h ih

theorem not_key {o p : Opt} {a : Arg} (hk : p.Key a) (h : o ≠ p) : isOne o.keys a = false :=
  (isOne_false o a).mpr fun h2 => h (key_unique h2 hk)

theorem cleanFlag_items {o : Opt} (ho : o.plain) {args : List Arg} {items : List Item} (h : Reads args items)
    (hv : NoKeyAsValue items) : cleanFlag o.keys args = words (without o items) := by
  induction h with
  | nil => rfl
  | @flag p k rest items h hk hr ih =>
    by_cases he : p = o
    · subst he
      simp [cleanFlag, (isOne_iff p k).mpr hk, without, Item.opt, reads_words hr]
    · simp only [cleanFlag, not_key hk (Ne.symm he), without, Item.opt, Option.some.injEq, he, if_false,
        Bool.false_eq_true]
      rw [ih fun _ _ _ hm => hv _ _ _ (List.mem_cons_of_mem _ hm)]
      rfl
  | @value p k v rest items h hk hr ih =>
    have he : ¬ p = o := fun he => h (he ▸ ho)
    have h2 : isOne o.keys v = false := (isOne_false o v).mpr fun hx =>
      hv p k v List.mem_cons_self ⟨o, hx⟩
    simp only [cleanFlag, not_key hk (Ne.symm he), h2, without, Item.opt, Option.some.injEq, he, if_false,
      Bool.false_eq_true]
    rw [ih fun _ _ _ hm => hv _ _ _ (List.mem_cons_of_mem _ hm)]
    rfl
  | @lone p k h hk =>
    have he : ¬ p = o := fun he => h (he ▸ ho)
    simp [cleanFlag, not_key hk (Ne.symm he), without, Item.opt, he, words, Item.words]
  | @stray a rest items h hr ih =>
    have h2 : isOne o.keys a = false := (isOne_false o a).mpr fun hx => h ⟨o, hx⟩
    simp only [cleanFlag, h2, without, Item.opt, if_false, Bool.false_eq_true, reduceCtorEq]
    rw [ih fun _ _ _ hm => hv _ _ _ (List.mem_cons_of_mem _ hm)]
    rfl

theorem cleanValue_items {o : Opt} (ho : ¬ o.plain) {args : List Arg} {items : List Item} (h : Reads args items)
    (hv : NoKeyAsValue items) : cleanValue o.keys args = words (without o items) := by
  induction h with
  | nil => rfl
  | @flag p k rest items h hk hr ih =>
    have he : ¬ p = o := fun he => ho (he ▸ h)
    simp only [cleanValue, not_key hk (Ne.symm he), without, Item.opt, Option.some.injEq, he, if_false,
      Bool.false_eq_true]
    rw [ih fun _ _ _ hm => hv _ _ _ (List.mem_cons_of_mem _ hm)]
    rfl
  | @value p k v rest items h hk hr ih =>
    by_cases he : p = o
    · subst he
      simp [cleanValue, (isOne_iff p k).mpr hk, without, Item.opt, reads_words hr]
    · have h2 : isOne o.keys v = false := (isOne_false o v).mpr fun hx =>
        hv p k v List.mem_cons_self ⟨o, hx⟩
      simp only [cleanValue, not_key hk (Ne.symm he), h2, without, Item.opt, Option.some.injEq, he, if_false,
        Bool.false_eq_true]
      rw [ih fun _ _ _ hm => hv _ _ _ (List.mem_cons_of_mem _ hm)]
      rfl
  | @lone p k h hk =>
    by_cases he : p = o
    · subst he
      simp [cleanValue, (isOne_iff p k).mpr hk, without, Item.opt, words]
    · simp [cleanValue, not_key hk (Ne.symm he), without, Item.opt, he, words, Item.words]
  | @stray a rest items h hr ih =>
    have h2 : isOne o.keys a = false := (isOne_false o a).mpr fun hx => h ⟨o, hx⟩
    simp only [cleanValue, h2, without, Item.opt, if_false, Bool.false_eq_true, reduceCtorEq]
    rw [ih fun _ _ _ hm => hv _ _ _ (List.mem_cons_of_mem _ hm)]
    rfl

/-- Items without the first one of each of these options. -/
def withoutAll : List Opt → List Item → List Item
  | [], items => items
  | o :: more, items => withoutAll more (without o items)

def order : List Opt :=
  [.help, .embedded, .overwrite, .source, .workflow, .rust, .typescript, .consumer, .producer, .puml]

/-- A cleaner of the tool. -/
def clean (o : Opt) (args : List Arg) : List Arg :=
  if o.plain then cleanFlag o.keys args else cleanValue o.keys args

theorem clean_items (o : Opt) {args : List Arg} {items : List Item} (h : Reads args items)
    (hv : NoKeyAsValue items) : clean o args = words (without o items) := by
  unfold clean
  split
  · exact cleanFlag_items ‹_› h hv
  · exact cleanValue_items ‹_› h hv

theorem clean_all (os : List Opt) {args : List Arg} {items : List Item} (h : Reads args items)
    (hv : NoKeyAsValue items) :
    os.foldl (fun a o => clean o a) args = words (withoutAll os items) := by
  induction os generalizing args items with
  | nil => exact (reads_words h).symm
  | cons o more ih =>
    simp only [List.foldl_cons, withoutAll]
    rw [clean_items o h hv]
    exact ih (reads_without h) fun _ _ _ hm => hv _ _ _ (without_value hm)

theorem unknown_eq (args : List Arg) : unknown args = order.foldl (fun a o => clean o a) args := rfl

theorem without_nil {o : Opt} {items : List Item} (h : without o items = []) :
    ∀ i ∈ items, i.opt = some o ∧ items = [i] := by
  cases items with
  | nil => intro i hi; exact nomatch hi
  | cons j rest =>
    unfold without at h
    split at h
    · subst h
      intro i hi
      simp only [List.mem_singleton] at hi
      subst hi
      exact ⟨‹_›, rfl⟩
    · exact nomatch h

theorem without_stray {o : Opt} {items : List Item} {a : Arg} (h : Item.stray a ∈ items) :
    Item.stray a ∈ without o items := by
  induction items with
  | nil => exact h
  | cons i rest ih =>
    unfold without
    split
    · rename_i hi
      rcases List.mem_cons.mp h with h | h
      · subst h; simp [Item.opt] at hi
      · exact h
    · rcases List.mem_cons.mp h with h | h
      · exact h ▸ List.mem_cons_self
      · exact List.mem_cons_of_mem _ (ih h)

theorem withoutAll_stray {a : Arg} (os : List Opt) {items : List Item} (h : Item.stray a ∈ items) :
    Item.stray a ∈ withoutAll os items := by
  induction os generalizing items with
  | nil => exact h
  | cons o more ih => exact ih (without_stray h)

/-- The options that are left. -/
theorem without_opts (o : Opt) (items : List Item) :
    (without o items).filterMap Item.opt = (items.filterMap Item.opt).erase o := by
  induction items with
  | nil => rfl
  | cons i rest ih =>
    unfold without
    cases hi : i.opt with
    | none => simp [hi, ih]
    | some p =>
      by_cases he : p = o
      · subst he; simp [hi]
      · simp [hi, he, ih]

theorem withoutAll_opts (os : List Opt) (items : List Item) :
    (withoutAll os items).filterMap Item.opt = os.foldl List.erase (items.filterMap Item.opt) := by
  induction os generalizing items with
  | nil => rfl
  | cons o more ih => simp only [withoutAll, List.foldl_cons, ih, without_opts]

theorem count_foldl_erase (p : Opt) (os l : List Opt) : (os.foldl List.erase l).count p = l.count p - os.count p := by
  induction os generalizing l with
  | nil => simp
  | cons o more ih =>
    simp only [List.foldl_cons, ih, List.count_erase, List.count_cons]
    by_cases h : o = p
    · subst h; simp; omega
    · simp [h]

theorem count_order (p : Opt) : order.count p = 1 := by cases p <;> decide

theorem stray_of_opt {i : Item} (h : i.opt = none) : ∃ a, i = .stray a := by
  cases i <;> simp [Item.opt] at h
  exact ⟨_, rfl⟩

theorem withoutAll_mem {os : List Opt} {items : List Item} {i : Item} (h : i ∈ withoutAll os items) : i ∈ items := by
  induction os generalizing items with
  | nil => exact h
  | cons o more ih =>
    have := ih h
    clear h ih
    induction items with
    | nil => exact this
    | cons j rest ih =>
      unfold without at this
      split at this
      · exact List.mem_cons_of_mem _ this
      · rcases List.mem_cons.mp this with h | h
        · exact h ▸ List.mem_cons_self
        · exact List.mem_cons_of_mem _ (ih h)

/-- If no value is a key: nothing is unknown exactly if there is no stray argument and no option is given
twice. -/
theorem unknown_iff {args : List Arg} {items : List Item} (h : Reads args items) (hv : NoKeyAsValue items) :
    unknown args = [] ↔ (∀ a, Item.stray a ∉ items) ∧ OptsOnce items := by
  rw [unknown_eq, clean_all order h hv]
  have hw : ∀ l : List Item, words l = [] ↔ l = [] := by
    intro l
    cases l with
    | nil => exact ⟨fun _ => rfl, fun _ => rfl⟩
    | cons i r =>
      refine ⟨fun h => ?_, fun h => nomatch h⟩
      have : i.words ≠ [] := by cases i <;> simp [Item.words]
      simp [words] at h
      exact absurd h.1 this
  rw [hw]
  have hc := withoutAll_opts order items
  constructor
  · intro he
    refine ⟨fun a ha => ?_, ?_⟩
    · have := withoutAll_stray order ha
      rw [he] at this
      exact nomatch this
    · unfold OptsOnce
      rw [List.nodup_iff_count]
      intro p
      have := congrArg (List.count p) hc
      rw [he, count_foldl_erase, count_order] at this
      simp at this
      omega
  · rintro ⟨hs, hn⟩
    have h0 : (withoutAll order items).filterMap Item.opt = [] := by
      apply List.eq_nil_iff_forall_not_mem.mpr
      intro p hp
      rw [hc] at hp
      have := List.count_pos_iff.mpr hp
      rw [count_foldl_erase, count_order] at this
      have := List.nodup_iff_count.mp hn p
      omega
    apply List.eq_nil_iff_forall_not_mem.mpr
    intro i hi
    cases ho : i.opt with
    | none =>
      obtain ⟨a, rfl⟩ := stray_of_opt ho
      exact hs a (withoutAll_mem hi)
    | some p =>
      have : p ∈ (withoutAll order items).filterMap Item.opt := List.mem_filterMap.mpr ⟨i, hi, ho⟩
      rw [h0] at this
      exact nomatch this

/-! ### Flags and values -/

theorem flag_iff (o : Opt) (args : List Arg) : flag o.keys args = true ↔ Has o args := by
  unfold flag Has
  rw [List.any_eq_true]
  exact ⟨fun ⟨a, ha, h⟩ => ⟨a, ha, (isOne_iff o a).mp h⟩, fun ⟨a, ha, h⟩ => ⟨a, ha, (isOne_iff o a).mpr h⟩⟩

theorem flag_false (o : Opt) (args : List Arg) : flag o.keys args = false ↔ ¬ Has o args := by
  rw [← flag_iff, Bool.not_eq_true]

theorem valueOf_iff (o : Opt) (args : List Arg) (v : Arg) : valueOf o.keys args = some v ↔ Given o args v := by
  induction args with
  | nil =>
    refine ⟨fun h => (nomatch h), ?_⟩
    rintro ⟨l, k, r, h, _⟩
    exact absurd h (by simp)
  | cons a rest ih =>
    unfold valueOf
    split
    · rename_i h
      constructor
      · intro hh
        cases rest with
        | nil => exact nomatch hh
        | cons b r =>
          cases hh
          exact ⟨[], a, r, rfl, (isOne_iff o a).mp h, by simp⟩
      · rintro ⟨l, k, r, he, hk, hl⟩
        cases l with
        | nil => simp at he; simp [he.2]
        | cons x l =>
          simp at he
          exact absurd ((isOne_iff o a).mp h) (he.1 ▸ hl x List.mem_cons_self)
    · rename_i h
      rw [ih]
      constructor
      · rintro ⟨l, k, r, he, hk, hl⟩
        refine ⟨a :: l, k, r, by simp [he], hk, ?_⟩
        intro x hx
        rcases List.mem_cons.mp hx with rfl | hx
        · exact fun hx => h ((isOne_iff o x).mpr hx)
        · exact hl x hx
      · rintro ⟨l, k, r, he, hk, hl⟩
        cases l with
        | nil =>
          simp at he
          exact absurd ((isOne_iff o a).mpr (he.1 ▸ hk)) h
        | cons x l =>
          simp at he
          exact ⟨l, k, r, he.2, hk, fun y hy => hl y (List.mem_cons_of_mem _ hy)⟩

theorem valueOf_none (o : Opt) (args : List Arg) : valueOf o.keys args = none ↔ ∀ v, ¬ Given o args v := by
  constructor
  · intro h v hv
    rw [← valueOf_iff, h] at hv
    exact nomatch hv
  · intro h
    cases hv : valueOf o.keys args with
    | none => rfl
    | some v => exact absurd ((valueOf_iff o args v).mp hv) (h v)

/-- The value an item gives. -/
def Item.gives : Item → Option Arg
  | .value _ _ v => some v
  | _ => none

theorem valueOf_items {o : Opt} (ho : ¬ o.plain) {args : List Arg} {items : List Item} (h : Reads args items)
    (hv : NoKeyAsValue items) :
    valueOf o.keys args = (items.find? fun i => i.opt == some o).bind Item.gives := by
  induction h with
  | nil => rfl
  | @flag p k rest items h hk hr ih =>
    have he : ¬ p = o := fun he => ho (he ▸ h)
    simp only [valueOf, not_key hk (Ne.symm he), Bool.false_eq_true, if_false]
    rw [ih fun _ _ _ hm => hv _ _ _ (List.mem_cons_of_mem _ hm), List.find?_cons_of_neg]
    simp [Item.opt, he]
  | @value p k v rest items h hk hr ih =>
    by_cases he : p = o
    · subst he
      simp [valueOf, (isOne_iff p k).mpr hk, Item.opt, Item.gives]
    · have h2 : isOne o.keys v = false := (isOne_false o v).mpr fun hx =>
        hv p k v List.mem_cons_self ⟨o, hx⟩
      simp only [valueOf, not_key hk (Ne.symm he), h2, Bool.false_eq_true, if_false]
      rw [ih fun _ _ _ hm => hv _ _ _ (List.mem_cons_of_mem _ hm), List.find?_cons_of_neg]
      simp [Item.opt, he]
  | @lone p k h hk =>
    by_cases he : p = o
    · subst he
      simp [valueOf, (isOne_iff p k).mpr hk, Item.opt, Item.gives]
    · simp [valueOf, not_key hk (Ne.symm he), Item.opt, he]
  | @stray a rest items h hr ih =>
    have h2 : isOne o.keys a = false := (isOne_false o a).mpr fun hx => h ⟨o, hx⟩
    simp only [valueOf, h2, Bool.false_eq_true, if_false]
    rw [ih fun _ _ _ hm => hv _ _ _ (List.mem_cons_of_mem _ hm), List.find?_cons_of_neg]
    simp [Item.opt]

theorem has_items {o : Opt} {args : List Arg} {items : List Item} (h : Reads args items)
    (hv : NoKeyAsValue items) : Has o args ↔ ∃ i ∈ items, i.opt = some o := by
  unfold Has
  induction h with
  | nil => simp
  | @flag p k rest items h hk hr ih =>
    simp only [List.mem_cons, exists_eq_or_imp, Item.opt, Option.some.injEq,
      ih fun _ _ _ hm => hv _ _ _ (List.mem_cons_of_mem _ hm)]
    rw [show o.Key k ↔ p = o from ⟨fun hx => key_unique hk hx, fun he => he ▸ hk⟩]
  | @value p k v rest items h hk hr ih =>
    simp only [List.mem_cons, exists_eq_or_imp, Item.opt, Option.some.injEq,
      ih fun _ _ _ hm => hv _ _ _ (List.mem_cons_of_mem _ hm)]
    rw [show o.Key k ↔ p = o from ⟨fun hx => key_unique hk hx, fun he => he ▸ hk⟩]
    rw [show o.Key v ↔ False from iff_false_intro fun hx => hv p k v List.mem_cons_self ⟨o, hx⟩]
    simp
  | @lone p k h hk =>
    simp only [List.mem_singleton, exists_eq_left, Item.opt, Option.some.injEq]
    exact ⟨fun hx => key_unique hk hx, fun he => he ▸ hk⟩
  | @stray a rest items h hr ih =>
    simp only [List.mem_cons, exists_eq_or_imp, Item.opt, reduceCtorEq, false_or,
      ih fun _ _ _ hm => hv _ _ _ (List.mem_cons_of_mem _ hm)]
    rw [show o.Key a ↔ False from iff_false_intro fun hx => h ⟨o, hx⟩]
    simp

end Verif.Cli
