import Verif.Spec.NetworkCodec
set_option autoImplicit false
/-! Values in JavaScript and of declared types. -/
namespace Verif.Network

open Verif Verif.Ts
open Verif.TsServer (Js)

theorem readAll_looks {α : Type} {R : α → Js → Prop} {f : Js → Option α} (hf : ∀ v x, R v x → f x = some v) :
    ∀ (vs : List α) (ps : List (List Char × Js)), Ts.Pairs R vs (ps.map Prod.snd) → readAll f ps = some vs
  | [], [], _ => rfl
  | [], _ :: _, h => h.elim
  | _ :: _, [], h => h.elim
  | v :: vs, p :: ps, h => by
    rw [readAll, hf v p.2 h.1, readAll_looks hf vs ps h.2]

theorem readRep_looks {α : Type} {R : α → Js → Prop} {f : Js → Option α} (hf : ∀ v x, R v x → f x = some v) :
    ∀ (rep : Bool) (v : Rep α rep) (x : Js), LooksRep R rep v x → readRep f rep x = some v
  | false, v, x, h => hf v x h
  | true, vs, x, h => by
    obtain ⟨ps, rfl, h, _⟩ := h
    exact readAll_looks hf vs ps h

theorem readOpt_looks {α : Type} {R : α → Js → Prop} {f : Js → Option α} (hf : ∀ v x, R v x → f x = some v) :
    ∀ (opt : Bool) (v : Opt α opt) (x : Option Js), LooksOpt R opt v x → readOpt f opt x = some v
  | false, v, x, h => by
    obtain ⟨y, rfl, h⟩ := h
    exact hf v y h
  | true, some v, x, h => by
    obtain ⟨y, rfl, h⟩ := h
    rw [readOpt, hf v y h]; rfl
  | true, none, x, h => by
    cases h; rfl

mutual
theorem readOne_looks : ∀ (e : NElem) (v : e.erase.Val) (x : Js), LooksOne e v x → readOne e x = some v
  | .num n, v, x, h => by
    simp only [LooksOne] at h
    subst h
    rw [readOne, dif_pos v.isLt]
  | .bool, v, x, h => by simp only [LooksOne] at h; subst h; rw [readOne]
  | .str, v, x, h => by simp only [LooksOne] at h; subst h; rw [readOne]
  | .struct _ _ fs, v, x, h => by
    simp only [LooksOne] at h
    obtain ⟨ps, rfl, h⟩ := h
    rw [readOne]
    exact readFields_looks fs v _ h
  | .enum vs, v, x, h => by
    simp only [LooksOne] at h
    obtain ⟨ps, rfl, h⟩ := h
    rw [readOne]
    exact readEnum_looks vs v _ h
theorem readFields_looks : ∀ (fs : NFields) (v : fs.erase.Val) (get : List Char → Option Js), LooksFields fs v get →
    readFields fs get = some v
  | .nil, v, get, _ => by rw [readFields]
  | .cons name id e rep opt rest, v, get, h => by
    simp only [LooksFields] at h
    rw [readFields, readOpt_looks (readRep_looks (readOne_looks e) rep) opt v.1 _ h.1, readFields_looks rest v.2 get h.2]
theorem readEnum_looks : ∀ (vs : NVariants) (v : Option vs.erase.Val) (get : List Char → Option Js), LooksEnum vs v get →
    readEnum vs get = some v
  | .nil, none, get, _ => by rw [readEnum]
  | .nil, some w, get, _ => nomatch w
  | .cons name e rep rest, none, get, h => by
    simp only [LooksEnum] at h
    rw [readEnum, h.1]
    dsimp only
    rw [readEnum_looks rest none get h.2]
    rfl
  | .cons name e rep rest, some (.inl x), get, h => by
    simp only [LooksEnum] at h
    obtain ⟨⟨y, h1, h2⟩, _⟩ := h
    rw [readEnum, h1]
    dsimp only
    rw [readRep_looks (readOne_looks e) rep x y h2]
    rfl
  | .cons name e rep rest, some (.inr w), get, h => by
    simp only [LooksEnum] at h
    rw [readEnum, h.1]
    dsimp only
    rw [readEnum_looks rest (some w) get h.2]
    rfl
end

theorem items_snd : ∀ (i : Nat) (xs : List Js), (items i xs).map Prod.snd = xs
  | _, [] => rfl
  | i, x :: xs => by rw [items, List.map_cons, items_snd]

theorem items_fst : ∀ (i : Nat) (xs : List Js), (items i xs).map Prod.fst = (List.range xs.length).map (fun k => Nat.toDigits 10 (i + k))
  | _, [] => rfl
  | i, x :: xs => by
    rw [items, List.map_cons, items_fst, List.length_cons, List.range_succ_eq_map, List.map_cons, List.map_map]
    congr 2
    funext k
    show Nat.toDigits 10 (i + 1 + k) = Nat.toDigits 10 (i + (k + 1))
    congr 1
    omega

theorem pairs_show {α : Type} {R : α → Js → Prop} {f : α → Js} (hf : ∀ v, R v (f v)) : ∀ vs : List α, Ts.Pairs R vs (vs.map f)
  | [] => trivial
  | v :: vs => ⟨hf v, pairs_show hf vs⟩

theorem looksRep_show {α : Type} {R : α → Js → Prop} {f : α → Js} (hf : ∀ v, R v (f v)) :
    ∀ (rep : Bool) (v : Rep α rep), LooksRep R rep v (showRep f rep v)
  | false, v => hf v
  | true, vs => ⟨_, rfl, by rw [items_snd]; exact pairs_show hf vs, by rw [items_fst, List.length_map]; simp⟩

theorem showOpt_self {α : Type} {R : α → Js → Prop} {f : α → Js} (hf : ∀ v, R v (f v)) (name : List Char)
    (more : List (List Char × Js)) (hm : more.lookup name = none) :
    ∀ (opt : Bool) (v : Opt α opt), LooksOpt R opt v ((showOpt name f opt v ++ more).lookup name)
  | false, v => ⟨_, by rw [showOpt, List.cons_append, List.lookup_cons_self], hf v⟩
  | true, some v => ⟨_, by rw [showOpt, List.cons_append, List.lookup_cons_self], hf v⟩
  | true, none => hm

theorem lookup_ne {n name : List Char} (h : n ≠ name) (x : Js) (ps : List (List Char × Js)) : ((name, x) :: ps).lookup n = ps.lookup n := by
  rw [List.lookup_cons, beq_eq_false_iff_ne.2 h]

theorem showOpt_other {α : Type} {f : α → Js} {name n : List Char} (h : n ≠ name) (more : List (List Char × Js)) :
    ∀ (opt : Bool) (v : Opt α opt), (showOpt name f opt v ++ more).lookup n = more.lookup n
  | false, _ => lookup_ne h _ _
  | true, some _ => lookup_ne h _ _
  | true, none => rfl

theorem showFields_none : ∀ (fs : NFields) (v : fs.erase.Val) (n : List Char), n ∉ fs.names → (showFields fs v).lookup n = none
  | .nil, _, n, _ => by rw [showFields]; rfl
  | .cons name id e rep opt rest, v, n, h => by
    simp only [NFields.names, List.mem_cons, not_or] at h
    rw [showFields, showOpt_other h.1]
    exact showFields_none rest v.2 n h.2

theorem looksEnum_none : ∀ (vs : NVariants) (get : List Char → Option Js), (∀ n ∈ vs.names, get n = none) → LooksEnum vs none get
  | .nil, _, _ => by simp only [LooksEnum]
  | .cons name e rep rest, get, h => by
    simp only [LooksEnum]
    exact ⟨h name (by simp [NVariants.names]), looksEnum_none rest get (fun n hn => h n (by simp [NVariants.names, hn]))⟩

mutual
theorem looksOne_show : ∀ (e : NElem) (v : e.erase.Val), NamesOne e → LooksOne e v (showOne e v)
  | .num n, v, _ => by simp only [LooksOne, showOne]
  | .bool, v, _ => by simp only [LooksOne, showOne]
  | .str, v, _ => by simp only [LooksOne, showOne]
  | .struct _ _ fs, v, h => by
    simp only [NamesOne] at h
    simp only [LooksOne, showOne]
    exact ⟨_, rfl, looksFields_show fs v h _ (fun n _ => rfl)⟩
  | .enum vs, v, h => by
    simp only [NamesOne] at h
    simp only [LooksOne, showOne]
    exact ⟨_, rfl, looksEnum_show vs v h _ (fun n _ => rfl)⟩
theorem looksFields_show : ∀ (fs : NFields) (v : fs.erase.Val), NamesFields fs → ∀ get : List Char → Option Js,
    (∀ n ∈ fs.names, get n = (showFields fs v).lookup n) → LooksFields fs v get
  | .nil, _, _, _, _ => by simp only [LooksFields]
  | .cons name id e rep opt rest, v, h, get, hg => by
    simp only [NamesFields] at h
    obtain ⟨h1, h2, h3⟩ := h
    simp only [LooksFields]
    simp only [NFields.names, List.mem_cons, showFields] at hg
    refine ⟨?_, looksFields_show rest v.2 h3 get (fun n hn => ?_)⟩
    · rw [hg name (.inl rfl)]
      exact showOpt_self (looksRep_show (fun v => looksOne_show e v h1) rep) name _ (showFields_none rest v.2 name h2) opt v.1
    · rw [hg n (.inr hn), showOpt_other (n := n) (name := name) (fun he => h2 (he ▸ hn))]
theorem looksEnum_show : ∀ (vs : NVariants) (v : Option vs.erase.Val), NamesEnum vs → ∀ get : List Char → Option Js,
    (∀ n ∈ vs.names, get n = (showEnum vs v).lookup n) → LooksEnum vs v get
  | .nil, _, _, _, _ => by simp only [LooksEnum]
  | .cons name e rep rest, none, h, get, hg => by
    refine looksEnum_none _ get (fun n hn => ?_)
    rw [hg n hn, showEnum]; rfl
  | .cons name e rep rest, some (.inl x), h, get, hg => by
    simp only [NamesEnum] at h
    obtain ⟨h1, h2, h3⟩ := h
    simp only [NVariants.names, List.mem_cons, showEnum] at hg
    simp only [LooksEnum]
    refine ⟨⟨_, by rw [hg name (.inl rfl), List.lookup_cons_self], looksRep_show (fun v => looksOne_show e v h1) rep x⟩,
      looksEnum_none rest get (fun n hn => ?_)⟩
    rw [hg n (.inr hn), lookup_ne (n := n) (name := name) (fun he => h2 (he ▸ hn))]; rfl
  | .cons name e rep rest, some (.inr w), h, get, hg => by
    simp only [NamesEnum] at h
    obtain ⟨h1, h2, h3⟩ := h
    simp only [NVariants.names, List.mem_cons, showEnum] at hg
    simp only [LooksEnum]
    refine ⟨?_, looksEnum_show rest (some w) h3 get (fun n hn => hg n (.inr hn))⟩
    rw [hg name (.inl rfl)]
    exact showEnum_none rest (some w) name h2
theorem showEnum_none : ∀ (vs : NVariants) (v : Option vs.erase.Val) (n : List Char), n ∉ vs.names → (showEnum vs v).lookup n = none
  | .nil, _, n, _ => by rw [showEnum]; rfl
  | .cons name e rep rest, none, n, _ => by rw [showEnum]; rfl
  | .cons name e rep rest, some (.inl x), n, h => by
    simp only [NVariants.names, List.mem_cons, not_or] at h
    simp only [showEnum]
    rw [lookup_ne h.1]; rfl
  | .cons name e rep rest, some (.inr w), n, h => by
    simp only [NVariants.names, List.mem_cons, not_or] at h
    simp only [showEnum]
    exact showEnum_none rest (some w) n h.2
end

end Verif.Network
