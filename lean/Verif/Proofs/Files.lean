import Verif.Spec.Files
set_option autoImplicit false
/-!
Running a list of writes, and names of files.
-/
namespace Verif.Files

open Verif Verif.Files.Spec
open Verif.Flow (Target)

/-! ### Running -/

theorem run_append (a b : List Op) (fs : Files) : run (a ++ b) fs = run b (run a fs) := by
  simp [run, List.foldl_append]

theorem run_cons (op : Op) (l : List Op) (fs : Files) : run (op :: l) fs = run l (op.run fs) := rfl

/-- What one write does to one file. -/
def at1 (op : Op) (v : Option Content) : Option Content :=
  if op.keep && v.isSome then v else some op.content

theorem Op.run_at (op : Op) (fs : Files) (p : Path) :
    op.run fs p = if op.path = p then at1 op (fs p) else fs p := by
  unfold Op.run at1
  by_cases hp : op.path = p
  · subst hp
    by_cases hk : (op.keep && (fs op.path).isSome) = true
    · simp [hk]
    · simp [hk]
  · by_cases hk : (op.keep && (fs op.path).isSome) = true
    · simp [hk, hp]
    · simp [hk, hp, Ne.symm hp]

/-- Only writes to a file matter for it. -/
theorem run_at (p : Path) (l : List Op) (fs : Files) :
    run l fs p = (l.filter (fun op => op.path = p)).foldl (fun v op => at1 op v) (fs p) := by
  induction l generalizing fs with
  | nil => rfl
  | cons op l ih =>
    rw [run_cons, ih, Op.run_at]
    by_cases hp : op.path = p
    · simp [hp]
    · simp [hp]

theorem fold_some (l : List Op) (v : Option Content) (h : v.isSome = true ∨ l ≠ []) :
    (l.foldl (fun v op => at1 op v) v).isSome = true := by
  induction l generalizing v with
  | nil => rcases h with h | h; exact h; exact absurd rfl h
  | cons op l ih =>
    refine ih _ (.inl ?_)
    show (at1 op v).isSome = true
    unfold at1
    split
    · rename_i h2
      exact (Bool.and_eq_true_iff.mp h2).2
    · rfl

/-- Writing never removes a file. -/
theorem run_some {l : List Op} {fs : Files} {p : Path}
    (h : (fs p).isSome = true ∨ ∃ op ∈ l, op.path = p) : (run l fs p).isSome = true := by
  rw [run_at]
  refine fold_some _ _ (h.imp id ?_)
  rintro ⟨op, ho, hp⟩ hn
  have : op ∈ l.filter (fun op => op.path = p) := by simp [ho, hp]
  rw [hn] at this
  exact nomatch this

theorem fold_twice (l : List Op) (v : Option Content) :
    l.foldl (fun v op => at1 op v) (l.foldl (fun v op => at1 op v) v) =
      l.foldl (fun v op => at1 op v) v := by
  have key : ∀ (l : List Op) (v : Option Content),
      (l.all (·.keep) = true ∧ v.isSome = true → l.foldl (fun v op => at1 op v) v = v) ∧
      (l.all (·.keep) = false →
        ∀ w, l.foldl (fun v op => at1 op v) v = l.foldl (fun v op => at1 op v) w) := by
    intro l
    induction l with
    | nil => intro v; exact ⟨fun _ => rfl, fun h => nomatch h⟩
    | cons op l ih =>
      intro v
      refine ⟨?_, ?_⟩
      · rintro ⟨h1, h2⟩
        simp only [List.all_cons, Bool.and_eq_true] at h1
        have : at1 op v = v := by simp [at1, h1.1, h2]
        rw [List.foldl_cons, this]
        exact (ih v).1 ⟨h1.2, h2⟩
      · intro h1 w
        rw [List.foldl_cons, List.foldl_cons]
        cases hl : l.all (·.keep) with
        | false => exact (ih _).2 hl _
        | true =>
          simp only [List.all_cons, hl, Bool.and_true] at h1
          simp [at1, h1]
  cases h : l.all (·.keep) with
  | false => exact (key l _).2 h _
  | true =>
    cases l with
    | nil => rfl
    | cons op l => exact (key _ _).1 ⟨h, fold_some _ _ (.inr (by simp))⟩

/-- Doing it all again changes nothing. -/
theorem run_twice (l : List Op) (fs : Files) : run l (run l fs) = run l fs := by
  funext p
  rw [run_at, run_at, fold_twice]

/-- Files that are only written if missing stay. -/
theorem run_kept {l : List Op} {fs : Files} {p : Path} (h : ∀ op ∈ l, op.path = p → op.keep = true)
    (hs : (fs p).isSome = true) : run l fs p = fs p := by
  rw [run_at]
  have : ∀ op ∈ l.filter (fun op => op.path = p), op.keep = true := by
    intro op ho
    simp only [List.mem_filter, decide_eq_true_eq] at ho
    exact h op ho.1 ho.2
  revert this hs
  generalize l.filter (fun op => op.path = p) = m
  generalize fs p = v
  intro hs hm
  induction m with
  | nil => rfl
  | cons op m ih =>
    rw [List.foldl_cons]
    have : at1 op v = v := by simp [at1, hm op (by simp), hs]
    rw [this]
    exact ih (fun o ho => hm o (by simp [ho]))

/-- A write all writes to its file agree with takes effect. -/
theorem run_put {l : List Op} {fs : Files} {op : Op} (ho : op ∈ l)
    (h : ∀ op2 ∈ l, op2.path = op.path → op2 = op) : run l fs op.path = at1 op (fs op.path) := by
  rw [run_at]
  have hm : op ∈ l.filter (fun o => o.path = op.path) := by simp [ho]
  have ha : ∀ o ∈ l.filter (fun o => o.path = op.path), o = op := by
    intro o h2
    simp only [List.mem_filter, decide_eq_true_eq] at h2
    exact h o h2.1 h2.2
  revert hm ha
  generalize l.filter (fun o => o.path = op.path) = m
  intro hm ha
  cases m with
  | nil => exact nomatch hm
  | cons o m =>
    have h1 := ha o (by simp)
    subst h1
    rw [List.foldl_cons]
    have key : ∀ m : List Op, (∀ x ∈ m, x = o) → ∀ v, m.foldl (fun v op => at1 op v) (at1 o v) = at1 o v := by
      intro m
      induction m with
      | nil => intro _ _; rfl
      | cons x m ih =>
        intro hx v
        have h2 := hx x (by simp)
        subst h2
        rw [List.foldl_cons]
        have : at1 x (at1 x v) = at1 x v := by
          unfold at1
          cases hk : x.keep <;> cases v <;> rfl
        rw [this]
        exact ih (fun y hy => hx y (by simp [hy])) v
    exact key m (fun x hx => ha x (by simp [hx])) _

/-- Writes in one folder. -/
def inDir (D : Dir) (op : Op) : Bool := op.path.dir = D

theorem filter_dir (p : Path) (l : List Op) :
    (l.filter (inDir p.dir)).filter (fun op => op.path = p) = l.filter (fun op => op.path = p) := by
  rw [List.filter_filter]
  congr 1
  funext op
  simp only [inDir]
  by_cases h : op.path = p
  · simp [h]
  · simp [h]

/-- Only writes in the folder of a file matter for it. -/
theorem run_dir (p : Path) (l : List Op) (fs : Files) :
    run l fs p = run (l.filter (inDir p.dir)) fs p := by
  rw [run_at, run_at, filter_dir]

/-! ### Names -/

theorem toNat_lower (c : Char) :
    c.toLower.toNat = if 65 ≤ c.toNat ∧ c.toNat ≤ 90 then c.toNat + 32 else c.toNat := by
  have e1 : (c.val ≥ 'A'.val) = (65 ≤ c.toNat) := by
    show ('A'.val ≤ c.val) = _
    rw [UInt32.le_iff_toNat_le]; rfl
  have e2 : (c.val ≤ 'Z'.val) = (c.toNat ≤ 90) := by
    rw [UInt32.le_iff_toNat_le]; rfl
  unfold Char.toLower
  by_cases h : c.val ≥ 'A'.val ∧ c.val ≤ 'Z'.val
  · rw [dif_pos h]
    rw [e1, e2] at h
    rw [if_pos h]
    show (c.val + ('a'.val - 'A'.val)).toNat = c.val.toNat + 32
    have : c.val.toNat = c.toNat := rfl
    rw [UInt32.toNat_add]
    show (c.val.toNat + 32) % 4294967296 = _
    omega
  · rw [dif_neg h]
    rw [e1, e2] at h
    rw [if_neg h]

theorem upperOf_iff (a b : Char) :
    UpperOf a b ↔ 65 ≤ a.toNat ∧ a.toNat ≤ 90 ∧ b.toNat = a.toNat + 32 := Iff.rfl

theorem char_eq_iff (a b : Char) : a = b ↔ a.toNat = b.toNat :=
  ⟨fun h => by rw [h], fun h => Char.ext (UInt32.toNat_inj.mp h)⟩

theorem toLower_eq_iff (a b : Char) : a.toLower = b.toLower ↔ SameLetter a b := by
  rw [char_eq_iff, toNat_lower, toNat_lower]
  unfold SameLetter
  rw [upperOf_iff, upperOf_iff, char_eq_iff]
  split <;> split <;> omega

/-- One character of a Rust file name. -/
def rustChar (c : Char) : Char := if c.toLower = '.' then '_' else c.toLower

theorem toNat_rustChar (c : Char) : (rustChar c).toNat =
    if 65 ≤ c.toNat ∧ c.toNat ≤ 90 then c.toNat + 32 else if c.toNat = 46 then 95 else c.toNat := by
  have hd : '.'.toNat = 46 := rfl
  have hu : '_'.toNat = 95 := rfl
  unfold rustChar
  by_cases h : c.toLower = '.'
  · rw [if_pos h, hu]
    rw [char_eq_iff, toNat_lower, hd] at h
    split at h <;> split <;> first | omega | skip
  · rw [if_neg h, toNat_lower]
    rw [char_eq_iff, toNat_lower, hd] at h
    split at h
    · rename_i h2
      rw [if_pos h2, if_pos h2]
    · rename_i h2
      rw [if_neg h2, if_neg h2, if_neg h]

theorem rustChar_eq_iff (a b : Char) : rustChar a = rustChar b ↔
    SameLetter a b ∨ ((a = '.' ∨ a = '_') ∧ (b = '.' ∨ b = '_')) := by
  have hd : '.'.toNat = 46 := rfl
  have hu : '_'.toNat = 95 := rfl
  unfold SameLetter
  rw [upperOf_iff, upperOf_iff]
  simp only [char_eq_iff, toNat_rustChar, hd, hu]
  repeat' split
  all_goals omega

theorem letterwise_iff {f : Char → Char} {R : Char → Char → Prop} (h : ∀ a b, f a = f b ↔ R a b)
    (l m : List Char) : l.map f = m.map f ↔ Letterwise R l m := by
  induction l generalizing m with
  | nil => cases m <;> simp [Letterwise]
  | cons a l ih => cases m with
    | nil => simp [Letterwise]
    | cons b m => simp only [List.map_cons, List.cons.injEq, Letterwise, h, ih]

theorem rustName_eq (r : Ref) : rustName r = r.map rustChar := by
  simp only [rustName, lower, List.map_map]
  rfl

theorem rustName_iff (r s : Ref) : rustName r = rustName s ↔ Alike .rust r s := by
  rw [rustName_eq, rustName_eq]
  exact letterwise_iff rustChar_eq_iff r s

theorem lower_iff (r s : Ref) : lower r = lower s ↔ Alike .typescript r s :=
  letterwise_iff toLower_eq_iff r s

theorem rustFile_iff (r s : Ref) : rustFile r = rustFile s ↔ Alike .rust r s := by
  rw [← rustName_iff]
  simp [rustFile]

theorem tsFile_iff (r s : Ref) : tsFile r = tsFile s ↔ Alike .typescript r s := by
  rw [← lower_iff]
  simp [tsFile]

/-- The name of a file of a target. -/
def fileName : Target → Ref → Name
  | .rust => rustFile
  | .typescript => tsFile

theorem fileName_iff (t : Target) (r s : Ref) : fileName t r = fileName t s ↔ Alike t r s := by
  cases t
  · exact rustFile_iff r s
  · exact tsFile_iff r s

end Verif.Files
