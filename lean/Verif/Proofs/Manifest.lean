import Verif.Proofs.FilesNames
set_option autoImplicit false
/-!
Dependencies in manifests, and several generators one after the other.
-/
namespace Verif.Files

open Verif Verif.Files.Spec
open Verif.Flow (Target)

/-! ### Folders -/

theorem below_under (base : Dir) (l : List Op) (fs : Files) :
    below base (run (l.map (Op.under base)) fs) = run l (below base fs) := by
  induction l generalizing fs with
  | nil => rfl
  | cons op l ih =>
    rw [List.map_cons, run_cons, run_cons, ih]
    congr 1
    funext p
    show (Op.under base op).run fs ⟨base ++ p.dir, p.file⟩ = op.run (below base fs) p
    rw [Op.run_at, Op.run_at]
    have : (Op.under base op).path = ⟨base ++ p.dir, p.file⟩ ↔ op.path = p := by
      obtain ⟨⟨od, of⟩, c, k⟩ := op
      obtain ⟨pd, pf⟩ := p
      simp [Op.under]
    by_cases h : op.path = p
    · rw [if_pos (this.mpr h), if_pos h]
      rfl
    · rw [if_neg (fun x => h (this.mp x)), if_neg h]
      rfl

theorem run_outside {l : List Op} {fs : Files} {p : Path} (h : ∀ op ∈ l, op.path ≠ p) :
    run l fs p = fs p := by
  rw [run_at]
  have : l.filter (fun op => op.path = p) = [] := by
    rw [List.filter_eq_nil_iff]
    intro o ho
    simpa using h o ho
  rw [this]
  rfl

theorem under_outside {base : Dir} {l : List Op} {fs : Files} {p : Path} (h : ¬ base <+: p.dir) :
    run (l.map (Op.under base)) fs p = fs p := by
  refine run_outside ?_
  intro op ho he
  obtain ⟨o, -, rfl⟩ := List.mem_map.mp ho
  apply h
  rw [← he]
  exact List.prefix_append _ _

theorem below_apart {a b : Dir} (h : Disjoint a b) (l : List Op) (fs : Files) :
    below a (run (l.map (Op.under b)) fs) = below a fs := by
  funext p
  refine under_outside (p := ⟨a ++ p.dir, p.file⟩) ?_
  intro hb
  have ha : a <+: a ++ p.dir := List.prefix_append _ _
  rcases List.prefix_or_prefix_of_prefix ha hb with h1 | h1
  · exact h.1 h1
  · exact h.2 h1

/-! ### Generators -/

theorem generate_files (side : Side) (t : Target) (base : Dir) (d : Decls) (w : World) :
    (generate side t base d w).1.files = run ((ops side t d).map (Op.under base)) w.files := by
  unfold generate
  cases mergeAt (required side t) base (w.manifests t) <;> rfl

theorem generateAll_cons (d : Decls) (j : Job) (more : List Job) (w : World) :
    generateAll d (j :: more) w =
      if (generate j.side j.target j.base d w).2 = true then
        generateAll d more (generate j.side j.target j.base d w).1
      else ((generate j.side j.target j.base d w).1, false) := by
  show (match generate j.side j.target j.base d w with
    | (w2, true) => generateAll d more w2
    | (w2, false) => (w2, false)) = _
  rcases generate j.side j.target j.base d w with ⟨w2, b⟩
  cases b <;> rfl

/-- Files below the folder of a generator: what this generator makes of them. -/
theorem generateAll_below {d : Decls} {jobs : List Job} {w : World} (h : (generateAll d jobs w).2 = true)
    {j : Job} (hj : j ∈ jobs) (hd : ∀ x ∈ jobs, x = j ∨ Disjoint j.base x.base) :
    below j.base (generateAll d jobs w).1.files = run (ops j.side j.target d) (below j.base w.files) := by
  suffices key : ∀ (jobs : List Job) (w : World), (generateAll d jobs w).2 = true →
      (∀ x ∈ jobs, x = j ∨ Disjoint j.base x.base) →
      below j.base (generateAll d jobs w).1.files = (if j ∈ jobs then
        run (ops j.side j.target d) (below j.base w.files) else below j.base w.files) by
    rw [key jobs w h hd, if_pos hj]
  intro jobs
  induction jobs with
  | nil => intro w _ _; simp [generateAll]
  | cons x more ih =>
    intro w h hd
    rw [generateAll_cons] at h ⊢
    split at h
    · rename_i hok
      rw [if_pos hok, ih _ h (fun y hy => hd y (by simp [hy])), generate_files]
      by_cases hx : x = j
      · subst hx
        rw [below_under, if_pos (List.mem_cons_self)]
        split
        · rw [run_twice]
        · rfl
      · have := (hd x (by simp)).resolve_left hx
        rw [below_apart this]
        have hm : j ∈ x :: more ↔ j ∈ more := by
          simp only [List.mem_cons]
          exact ⟨fun h => h.resolve_left (fun e => hx e.symm), .inr⟩
        simp only [hm]
    · exact absurd h (by simp)

/-- Files outside the folders of all generators stay. -/
theorem generateAll_outside {d : Decls} {jobs : List Job} {w : World} {p : Path}
    (hp : ∀ x ∈ jobs, ¬ x.base <+: p.dir) : (generateAll d jobs w).1.files p = w.files p := by
  induction jobs generalizing w with
  | nil => rfl
  | cons x more ih =>
    rw [generateAll_cons]
    have h1 : (generate x.side x.target x.base d w).1.files p = w.files p := by
      rw [generate_files, under_outside (hp x (by simp))]
    split
    · rw [ih (fun y hy => hp y (by simp [hy])), h1]
    · exact h1

/-! ### Manifests -/

theorem nearestUp_iff (m : Manifests) (up : List Name) (d : Dir) :
    nearestUp m up = some d → Nearest (fun x => (m x).isSome = true) up.reverse d := by
  induction up with
  | nil => exact fun h => nomatch h
  | cons n up ih =>
    unfold nearestUp
    split
    · rename_i hs
      intro h
      cases h
      refine ⟨by simp, List.prefix_rfl, hs, fun e _ he _ => he.length_le⟩
    · rename_i hs
      intro h
      obtain ⟨h1, h2, h3, h4⟩ := ih h
      refine ⟨h1, ?_, h3, ?_⟩
      · rw [List.reverse_cons]
        exact h2.trans (List.prefix_append _ _)
      · intro e he hp hh
        rw [List.reverse_cons, List.prefix_concat_iff] at hp
        rcases hp with rfl | hp
        · rw [List.reverse_cons] at hs
          exact absurd hh hs
        · exact h4 e he hp hh

theorem nearestUp_none (m : Manifests) (up : List Name) (h : nearestUp m up = none) (e : Dir) (he : e ≠ [])
    (hp : e <+: up.reverse) : m e = none := by
  induction up with
  | nil => exact absurd (List.prefix_nil.mp hp) he
  | cons n up ih =>
    unfold nearestUp at h
    split at h
    · exact nomatch h
    · rename_i hs
      rw [List.reverse_cons, List.prefix_concat_iff] at hp
      rcases hp with rfl | hp
      · rw [List.reverse_cons] at hs
        simpa using hs
      · exact ih h hp

theorem addDeps_table (req : List (Name × Value)) (get : Name → Option Value) :
    ∃ g, addDeps req (.table get) = .table g ∧
      (∀ k, k ∉ req.map Prod.fst → g k = get k) ∧
      ((req.map Prod.fst).Nodup → ∀ e ∈ req, g e.1 = some e.2) := by
  induction req generalizing get with
  | nil => exact ⟨get, rfl, fun _ _ => rfl, fun _ e he => nomatch he⟩
  | cons e req ih =>
    obtain ⟨k, v⟩ := e
    obtain ⟨g, h1, h2, h3⟩ := ih (insert get k v)
    refine ⟨g, h1, ?_, ?_⟩
    · intro x hx
      simp only [List.map_cons, List.mem_cons, not_or] at hx
      rw [h2 x hx.2]
      exact if_neg hx.1
    · intro hn e he
      rw [List.map_cons, List.nodup_cons] at hn
      rcases List.mem_cons.mp he with rfl | he
      · rw [h2 _ hn.1]
        exact if_pos rfl
      · exact h3 hn.2 e he

theorem addDeps_leaf (req : List (Name × Value)) (s : List Char) : addDeps req (.leaf s) = .leaf s := by
  induction req with
  | nil => rfl
  | cons e req ih => exact ih

theorem required_nodup (side : Side) (t : Target) : ((required side t).map Prod.fst).Nodup := by
  cases side <;> cases t <;> simp only [required, dep, depWith, List.map_cons, List.map_nil] <;> decide

/-- What is in a manifest afterwards. -/
theorem merge_entries (req : List (Name × Value)) (hn : (req.map Prod.fst).Nodup) (v : Value) :
    (Usable v → ∀ e ∈ req, entry (merge req v) ["dependencies".toList, e.1] = some e.2) ∧
    (∀ k, k ∉ req.map Prod.fst → ∀ more, entry (merge req v) ("dependencies".toList :: k :: more) =
      entry v ("dependencies".toList :: k :: more)) ∧
    (∀ k, k ≠ "dependencies".toList → ∀ more, entry (merge req v) (k :: more) = entry v (k :: more)) := by
  cases v with
  | leaf s => exact ⟨fun h => h.elim, fun _ _ _ => rfl, fun _ _ _ => rfl⟩
  | table get =>
    refine ⟨?_, ?_, ?_⟩
    · intro hu e he
      have : ∃ g0, (get "dependencies".toList).getD (.table fun _ => none) = .table g0 := by
        cases hg : get "dependencies".toList with
        | none => exact ⟨_, rfl⟩
        | some v =>
          obtain ⟨g, rfl⟩ := hu v hg
          exact ⟨g, rfl⟩
      obtain ⟨g0, h0⟩ := this
      obtain ⟨g, h1, -, h3⟩ := addDeps_table req g0
      simp only [merge, entry, insert, if_pos, h0, h1, h3 hn e he]
    · intro k hk more
      cases hg : get "dependencies".toList with
      | none =>
        obtain ⟨g, h1, h2, -⟩ := addDeps_table req (fun _ => none)
        simp only [merge, entry, insert, if_pos, hg, Option.getD_none, h1, h2 k hk]
      | some x => cases x with
        | leaf s =>
          simp only [merge, entry, insert, if_pos, hg, Option.getD_some, addDeps_leaf]
        | table g0 =>
          obtain ⟨g, h1, h2, -⟩ := addDeps_table req g0
          simp only [merge, entry, insert, if_pos, hg, Option.getD_some, h1, h2 k hk]
    · intro k hk more
      simp only [merge, entry, insert, if_neg hk]

theorem mergeAt_some {req : List (Name × Value)} {base : Dir} {m m2 : Manifests}
    (h : mergeAt req base m = some m2) : ∃ d v, Nearest (fun x => (m x).isSome = true) base d ∧
      m d = some (some v) ∧ m2 d = some (some (merge req v)) ∧ ∀ x, x ≠ d → m2 x = m x := by
  unfold mergeAt at h
  split at h
  · exact nomatch h
  · rename_i d hd
    split at h
    · rename_i v hv
      cases h
      refine ⟨d, v, ?_, hv, if_pos rfl, fun x hx => if_neg hx⟩
      have := nearestUp_iff m _ d hd
      rwa [List.reverse_reverse] at this
    · exact nomatch h

theorem mergeAt_none {req : List (Name × Value)} {base : Dir} {m : Manifests}
    (h : mergeAt req base m = none) : (∀ e, e ≠ [] → e <+: base → m e = none) ∨
      ∃ d, Nearest (fun x => (m x).isSome = true) base d ∧ m d = some none := by
  unfold mergeAt at h
  split at h
  · rename_i hn
    refine .inl fun e he hp => nearestUp_none m _ hn e he ?_
    rwa [List.reverse_reverse]
  · rename_i d hd
    have hN := nearestUp_iff m _ d hd
    rw [List.reverse_reverse] at hN
    refine .inr ⟨d, hN, ?_⟩
    split at h
    · exact nomatch h
    · rename_i hx
      have : (m d).isSome = true := hN.2.2.1
      cases hm : m d with
      | none => rw [hm] at this; exact nomatch this
      | some o => cases o with
        | none => rfl
        | some v => exact absurd hm (hx v)

theorem merge_usable (req : List (Name × Value)) {v : Value} (h : Usable v) : Usable (merge req v) := by
  cases v with
  | leaf s => exact h.elim
  | table get =>
    intro x hx
    simp only [insert, if_pos, Option.some.injEq] at hx
    have : ∃ g0, (get "dependencies".toList).getD (.table fun _ => none) = .table g0 := by
      cases hg : get "dependencies".toList with
      | none => exact ⟨_, rfl⟩
      | some v =>
        obtain ⟨g, rfl⟩ := h v hg
        exact ⟨g, rfl⟩
    obtain ⟨g0, h0⟩ := this
    obtain ⟨g, h1, -, -⟩ := addDeps_table req g0
    rw [h0, h1] at hx
    exact ⟨g, hx.symm⟩

/-- What one generator does to a manifest. -/
theorem generate_manifest {side : Side} {t : Target} {base : Dir} {d : Decls} {w : World}
    (h : (generate side t base d w).2 = true) : ∃ x v, Nearest (fun x => (w.manifests t x).isSome = true)
      base x ∧ w.manifests t x = some (some v) ∧
      (generate side t base d w).1.manifests t x = some (some (merge (required side t) v)) ∧
      (∀ y, y ≠ x → (generate side t base d w).1.manifests t y = w.manifests t y) ∧
      ∀ t2, t2 ≠ t → (generate side t base d w).1.manifests t2 = w.manifests t2 := by
  unfold generate at h ⊢
  cases hm : mergeAt (required side t) base (w.manifests t) with
  | none => rw [hm] at h; exact nomatch h
  | some m =>
    obtain ⟨x, v, h1, h2, h3, h4⟩ := mergeAt_some hm
    refine ⟨x, v, h1, h2, ?_, ?_, ?_⟩
    · show (if t = t then m else _) x = _
      rw [if_pos rfl]
      exact h3
    · intro y hy
      show (if t = t then m else _) y = _
      rw [if_pos rfl]
      exact h4 y hy
    · intro t2 ht
      show (if t2 = t then m else _) = _
      rw [if_neg ht]

theorem nearest_unique {has : Dir → Prop} {base a b : Dir} (ha : Nearest has base a)
    (hb : Nearest has base b) : a = b := by
  obtain ⟨a1, a2, a3, a4⟩ := ha
  obtain ⟨b1, b2, b3, b4⟩ := hb
  have h1 := a4 b b1 b2 b3
  have h2 := b4 a a1 a2 a3
  exact List.IsPrefix.eq_of_length (List.prefix_of_prefix_length_le a2 b2 (by omega)) (by omega)

theorem generate_has {side : Side} {t : Target} {base : Dir} {d : Decls} {w : World}
    (h : (generate side t base d w).2 = true) (t2 : Target) (y : Dir) :
    ((generate side t base d w).1.manifests t2 y).isSome = (w.manifests t2 y).isSome := by
  obtain ⟨x, v, h1, h2, h3, h4, h5⟩ := generate_manifest h
  by_cases ht : t2 = t
  · subst ht
    by_cases hy : y = x
    · subst hy
      rw [h2, h3]
      rfl
    · rw [h4 y hy]
  · rw [h5 t2 ht]

theorem generateAll_needed {d : Decls} {all : List Job} {t : Target} {x : Dir} {k : Name}
    (jobs : List Job) (w : World) (h : (generateAll d jobs w).2 = true) (hs : ∀ j ∈ jobs, j ∈ all) {v : Value}
    (hv : w.manifests t x = some (some v)) (hu : Usable v)
    (hk : (∃ y, entry v ["dependencies".toList, k] = some y ∧ Needed all t k y) ∨
      ∃ j ∈ jobs, j.target = t ∧ Nearest (fun x => (w.manifests t x).isSome = true) j.base x ∧
        k ∈ (required j.side t).map Prod.fst) :
    ∃ v2 y, (generateAll d jobs w).1.manifests t x = some (some v2) ∧
      entry v2 ["dependencies".toList, k] = some y ∧ Needed all t k y := by
  induction jobs generalizing w v with
  | nil =>
    rcases hk with ⟨y, h1, h2⟩ | ⟨j, hj, -⟩
    · exact ⟨v, y, hv, h1, h2⟩
    · exact nomatch hj
  | cons j more ih =>
    rw [generateAll_cons] at h ⊢
    split at h
    · rename_i hok
      rw [if_pos hok]
      have hsame := generate_has hok
      obtain ⟨x0, v0, h1, h2, h3, h4, h5⟩ := generate_manifest hok
      have hmore : ∀ j ∈ more, j ∈ all := fun y hy => hs y (by simp [hy])
      -- the rest of the goal once it is known what is in the manifest now
      have carry : (∃ j2 ∈ more, j2.target = t ∧
          Nearest (fun x => (w.manifests t x).isSome = true) j2.base x ∧
          k ∈ (required j2.side t).map Prod.fst) → ∃ j2 ∈ more, j2.target = t ∧
          Nearest (fun x => (((generate j.side j.target j.base d w).1).manifests t x).isSome = true)
            j2.base x ∧ k ∈ (required j2.side t).map Prod.fst := by
        rintro ⟨j2, a, b, c, e⟩
        refine ⟨j2, a, b, ?_, e⟩
        have : (fun x => (((generate j.side j.target j.base d w).1).manifests t x).isSome = true) =
            fun x => (w.manifests t x).isSome = true := by
          funext y
          rw [hsame t y]
        rw [this]
        exact c
      by_cases hit : j.target = t ∧ x0 = x
      · obtain ⟨rfl, rfl⟩ := hit
        rw [hv] at h2
        cases h2
        obtain ⟨m1, m2, -⟩ := merge_entries (required j.side j.target) (required_nodup _ _) v
        refine ih _ h hmore h3 (merge_usable _ hu) ?_
        by_cases hr : k ∈ (required j.side j.target).map Prod.fst
        · obtain ⟨e, he, rfl⟩ := List.mem_map.mp hr
          exact .inl ⟨e.2, m1 hu e he, j, hs j (by simp), rfl, he⟩
        · rcases hk with ⟨y, e1, e2⟩ | ⟨j2, e1, e2, e3, e4⟩
          · exact .inl ⟨y, by rw [m2 k hr]; exact e1, e2⟩
          · rcases List.mem_cons.mp e1 with rfl | e1
            · exact absurd e4 hr
            · exact .inr (carry ⟨j2, e1, e2, e3, e4⟩)
      · have hv2 : (generate j.side j.target j.base d w).1.manifests t x = some (some v) := by
          by_cases ht : t = j.target
          · subst ht
            rw [h4 x (fun e => hit ⟨rfl, e.symm⟩)]
            exact hv
          · rw [h5 t ht]
            exact hv
        refine ih _ h hmore hv2 hu ?_
        rcases hk with hk | ⟨j2, e1, e2, e3, e4⟩
        · exact .inl hk
        · rcases List.mem_cons.mp e1 with rfl | e1
          · subst e2
            exact absurd ⟨rfl, nearest_unique h1 e3⟩ hit
          · exact .inr (carry ⟨j2, e1, e2, e3, e4⟩)
    · exact absurd h (by simp)

/-! ### Twice -/

theorem addDeps_fixed (req : List (Name × Value)) : ∃ c : Name → Option Value, ∀ get,
    addDeps req (.table get) = .table fun k => if k ∈ req.map Prod.fst then c k else get k := by
  induction req with
  | nil => exact ⟨fun _ => none, fun get => by simp [addDeps]⟩
  | cons e req ih =>
    obtain ⟨k, v⟩ := e
    obtain ⟨c, hc⟩ := ih
    refine ⟨fun x => if x ∈ req.map Prod.fst then c x else some v, fun get => ?_⟩
    show addDeps req (.table (insert get k v)) = _
    rw [hc]
    congr 1
    funext x
    simp only [List.map_cons, List.mem_cons, insert]
    by_cases h1 : x ∈ req.map Prod.fst
    · rw [if_pos h1, if_pos (.inr h1), if_pos h1]
    · by_cases h2 : x = k
      · rw [if_neg h1, if_pos h2, if_pos (.inl h2), if_neg h1]
      · rw [if_neg h1, if_neg h2, if_neg (fun h => h.elim h2 h1)]

theorem addDeps_idem (r : List (Name × Value)) (v : Value) : addDeps r (addDeps r v) = addDeps r v := by
  cases v with
  | leaf s => rw [addDeps_leaf, addDeps_leaf]
  | table get =>
    obtain ⟨c, hc⟩ := addDeps_fixed r
    rw [hc, hc]
    congr 1
    funext k
    split <;> rfl

theorem addDeps_cong (r s : List (Name × Value)) {a b : Value} (h : addDeps r a = addDeps r b) :
    addDeps r (addDeps s a) = addDeps r (addDeps s b) := by
  obtain ⟨c, hc⟩ := addDeps_fixed r
  obtain ⟨c2, hc2⟩ := addDeps_fixed s
  cases a with
  | leaf x => cases b with
    | leaf y =>
      rw [addDeps_leaf, addDeps_leaf] at h
      rw [h]
    | table g => rw [addDeps_leaf, hc] at h; exact nomatch h
  | table g1 => cases b with
    | leaf y => rw [addDeps_leaf, hc] at h; exact nomatch h
    | table g2 =>
      rw [hc, hc, Value.table.injEq] at h
      rw [hc2, hc2, hc, hc]
      congr 1
      funext k
      have := congrFun h k
      split
      · rfl
      · rename_i hk
        rw [if_neg hk, if_neg hk] at this
        rw [this]

theorem merge_idem (r : List (Name × Value)) (v : Value) : merge r (merge r v) = merge r v := by
  cases v with
  | leaf s => rfl
  | table get =>
    simp only [merge]
    congr 1
    funext k
    simp only [insert]
    split
    · simp only [if_pos, Option.getD_some, addDeps_idem]
    · rfl

theorem merge_cong (r s : List (Name × Value)) {a b : Value} (h : merge r a = merge r b) :
    merge r (merge s a) = merge r (merge s b) := by
  cases a with
  | leaf x => cases b with
    | leaf y =>
      have : Value.leaf x = .leaf y := h
      rw [this]
    | table g => exact nomatch h
  | table g1 => cases b with
    | leaf y => exact nomatch h
    | table g2 =>
      simp only [merge, Value.table.injEq] at h
      simp only [merge]
      congr 1
      funext k
      have := congrFun h k
      simp only [insert] at this ⊢
      split
      · rename_i hk
        rw [if_pos hk, if_pos hk] at this
        simp only [if_pos, Option.getD_some]
        rw [addDeps_cong r s (Option.some.inj this)]
      · rename_i hk
        rw [if_neg hk, if_neg hk] at this
        exact this

/-- Several merges one after the other. -/
def merges (rs : List (List (Name × Value))) (v : Value) : Value := rs.foldl (fun v r => merge r v) v

theorem merges_cong (r : List (Name × Value)) (rs : List (List (Name × Value))) {a b : Value}
    (h : merge r a = merge r b) : merge r (merges rs a) = merge r (merges rs b) := by
  induction rs generalizing a b with
  | nil => exact h
  | cons s rs ih => exact ih (merge_cong r s h)

theorem merges_again {r : List (Name × Value)} {rs : List (List (Name × Value))} (hr : r ∈ rs) (v : Value) :
    merges rs (merge r v) = merges rs v := by
  obtain ⟨a, b, rfl⟩ := List.append_of_mem hr
  unfold merges
  rw [List.foldl_append, List.foldl_append, List.foldl_cons, List.foldl_cons]
  congr 1
  exact merges_cong r a (merge_idem r v)

theorem merges_twice (rs : List (List (Name × Value))) (v : Value) :
    merges rs (merges rs v) = merges rs v := by
  suffices h : ∀ (ss : List (List (Name × Value))) (v : Value), (∀ s ∈ ss, s ∈ rs) →
      merges rs (merges ss v) = merges rs v from h rs v (fun _ h => h)
  intro ss
  induction ss with
  | nil => exact fun v _ => rfl
  | cons s ss ih =>
    intro v h
    show merges rs (merges ss (merge s v)) = _
    rw [ih _ (fun x hx => h x (by simp [hx])), merges_again (h s (by simp))]

/-- The same manifests are there, and the same can be parsed. -/
def SameShape (m m2 : Manifests) : Prop := ∀ x, (m x).map Option.isSome = (m2 x).map Option.isSome

theorem SameShape.there {m m2 : Manifests} (h : SameShape m m2) (x : Dir) :
    (m x).isSome = (m2 x).isSome := by
  have := congrArg Option.isSome (h x)
  simpa using this

theorem SameShape.nearestUp {m m2 : Manifests} (h : SameShape m m2) (up : List Name) :
    nearestUp m up = nearestUp m2 up := by
  induction up with
  | nil => rfl
  | cons n up ih =>
    unfold Verif.Files.nearestUp
    rw [h.there, ih]

/-- Where and whether a merge happens is decided by which manifests are there and can be parsed. -/
theorem mergeAt_shape (req : List (Name × Value)) (base : Dir) (m : Manifests) :
    (∀ m2, SameShape m m2 → mergeAt req base m2 = none) ∨
    ∃ d, ∀ m2, SameShape m m2 →
      mergeAt req base m2 = some fun x => if x = d then (m2 x).map (·.map (merge req)) else m2 x := by
  cases hn : nearestUp m base.reverse with
  | none =>
    refine .inl fun m2 h => ?_
    unfold mergeAt
    rw [← h.nearestUp, hn]
  | some d =>
    cases hm : (m d).map Option.isSome with
    | none =>
      refine .inl fun m2 h => ?_
      unfold mergeAt
      rw [← h.nearestUp, hn]
      rw [h d] at hm
      simp only [Option.map_eq_none_iff] at hm
      simp only [hm]
    | some b => cases b with
      | false =>
        refine .inl fun m2 h => ?_
        unfold mergeAt
        rw [← h.nearestUp, hn]
        rw [h d] at hm
        simp only [Option.map_eq_some_iff, Option.isSome_eq_false_iff, Option.isNone_iff_eq_none] at hm
        obtain ⟨_, h1, rfl⟩ := hm
        simp only [h1]
      | true =>
        refine .inr ⟨d, fun m2 h => ?_⟩
        unfold mergeAt
        rw [← h.nearestUp, hn]
        rw [h d] at hm
        simp only [Option.map_eq_some_iff, Option.isSome_iff_exists] at hm
        obtain ⟨_, h1, v, rfl⟩ := hm
        simp only [h1, Option.some.injEq]
        funext x
        split
        · rename_i hx
          rw [hx, h1]
          rfl
        · rfl

/-- What all the generators do, seen from a world of known shape. -/
theorem generateAll_shape (d : Decls) (jobs : List Job) (w : World) :
    ∃ (l : List Op) (rs : Target → Dir → List (List (Name × Value))) (b : Bool),
      ∀ w2 : World, (∀ t, SameShape (w.manifests t) (w2.manifests t)) →
        generateAll d jobs w2 =
          (⟨run l w2.files, fun t x => (w2.manifests t x).map (·.map (merges (rs t x)))⟩, b) := by
  have same : ∀ f : Manifests, (fun x => (f x).map (·.map (merges []))) = f := by
    intro f
    funext x
    have : (merges [] : Value → Value) = id := rfl
    rw [this]
    cases f x with
    | none => rfl
    | some o => cases o <;> rfl
  induction jobs generalizing w with
  | nil =>
    refine ⟨[], fun _ _ => [], true, fun w2 _ => ?_⟩
    show (w2, true) = _
    congr 1
    obtain ⟨f, m⟩ := w2
    congr 1
    funext t
    exact (same (m t)).symm
  | cons j more ih =>
    rcases mergeAt_shape (required j.side j.target) j.base (w.manifests j.target) with hs | ⟨x0, hs⟩
    · refine ⟨(ops j.side j.target d).map (Op.under j.base), fun _ _ => [], false, fun w2 h => ?_⟩
      rw [generateAll_cons]
      have : generate j.side j.target j.base d w2 =
          (⟨run ((ops j.side j.target d).map (Op.under j.base)) w2.files, w2.manifests⟩, false) := by
        unfold generate
        rw [hs _ (h j.target)]
      rw [this]
      simp only [Bool.false_eq_true, if_false]
      congr 2
      funext t
      exact (same (w2.manifests t)).symm
    · let step : World → World := fun w2 =>
        ⟨run ((ops j.side j.target d).map (Op.under j.base)) w2.files, fun t x =>
          if t = j.target ∧ x = x0 then (w2.manifests t x).map (·.map (merge (required j.side j.target)))
          else w2.manifests t x⟩
      have hg : ∀ w2 : World, (∀ t, SameShape (w.manifests t) (w2.manifests t)) →
          generate j.side j.target j.base d w2 = (step w2, true) := by
        intro w2 h
        unfold generate
        rw [hs _ (h j.target)]
        simp only [step, Prod.mk.injEq, and_true]
        congr 1
        funext t x
        by_cases ht : t = j.target
        · subst ht
          simp
        · rw [if_neg ht, if_neg (fun h => ht h.1)]
      have hsh : ∀ w2 : World, (∀ t, SameShape (w.manifests t) (w2.manifests t)) →
          ∀ t, SameShape ((step w).manifests t) ((step w2).manifests t) := by
        intro w2 h t x
        have := h t x
        simp only [step]
        split
        · simp only [Option.map_map]
          have hf : (Option.isSome ∘ fun o : Option Value => o.map (merge (required j.side j.target))) =
              Option.isSome := by
            funext o
            cases o <;> rfl
          rw [hf]
          exact this
        · exact this
      obtain ⟨l, rs, b, hl⟩ := ih (step w)
      refine ⟨(ops j.side j.target d).map (Op.under j.base) ++ l,
        fun t x => if t = j.target ∧ x = x0 then required j.side j.target :: rs t x else rs t x, b,
        fun w2 h => ?_⟩
      rw [generateAll_cons, hg w2 h]
      simp only [if_true]
      rw [hl (step w2) (hsh w2 h), run_append]
      congr 2
      funext t x
      simp only [step]
      split
      · simp only [Option.map_map]
        congr 1
        funext o
        cases o <;> rfl
      · rfl

/-- Generating twice is generating once. -/
theorem generateAll_twice (d : Decls) (jobs : List Job) (w : World) :
    generateAll d jobs (generateAll d jobs w).1 = generateAll d jobs w := by
  obtain ⟨l, rs, b, h⟩ := generateAll_shape d jobs w
  have h1 := h w (fun _ _ => rfl)
  rw [h1]
  rw [h]
  · simp only [run_twice, Prod.mk.injEq, and_true]
    congr 1
    funext t x
    simp only [Option.map_map]
    congr 1
    funext o
    cases o with
    | none => rfl
    | some v => simp [merges_twice]
  · intro t x
    simp only [Option.map_map]
    congr 1
    funext o
    cases o <;> rfl

/-! ### Success -/

theorem generateAll_ok (d : Decls) (jobs : List Job) (w : World) (h : ∀ j ∈ jobs, ∃ x v,
    Nearest (fun x => (w.manifests j.target x).isSome = true) j.base x ∧
    w.manifests j.target x = some (some v)) : (generateAll d jobs w).2 = true := by
  induction jobs generalizing w with
  | nil => rfl
  | cons j more ih =>
    rw [generateAll_cons]
    have hok : (generate j.side j.target j.base d w).2 = true := by
      obtain ⟨x, v, h1, h2⟩ := h j (by simp)
      unfold generate
      cases hm : mergeAt (required j.side j.target) j.base (w.manifests j.target) with
      | some m => rfl
      | none =>
        rcases mergeAt_none hm with hn | ⟨y, hy, hn⟩
        · rw [hn x h1.1 h1.2.1] at h2
          exact nomatch h2
        · rw [nearest_unique h1 hy, hn] at h2
          exact nomatch h2
    rw [if_pos hok]
    refine ih _ ?_
    intro j2 h2
    obtain ⟨x, v, e1, e2⟩ := h j2 (by simp [h2])
    have hs := generate_has hok
    have hset : (fun x => ((generate j.side j.target j.base d w).1.manifests j2.target x).isSome = true) =
        fun x => (w.manifests j2.target x).isSome = true := by
      funext y
      rw [hs]
    obtain ⟨x0, v0, -, -, g3, g4, g5⟩ := generate_manifest hok
    by_cases ht : j2.target = j.target
    · rw [hset]
      by_cases hx : x = x0
      · rw [ht]
        exact ⟨x0, _, by rw [← hx, ← ht]; exact e1, g3⟩
      · refine ⟨x, v, e1, ?_⟩
        rw [ht, g4 x hx, ← ht]
        exact e2
    · refine ⟨x, v, by rw [hset]; exact e1, ?_⟩
      rw [g5 _ ht]
      exact e2

/-- And only then. -/
theorem generateAll_only (d : Decls) (jobs : List Job) (w : World) (h : (generateAll d jobs w).2 = true) :
    ∀ j ∈ jobs, ∃ x v, Nearest (fun x => (w.manifests j.target x).isSome = true) j.base x ∧
      w.manifests j.target x = some (some v) := by
  induction jobs generalizing w with
  | nil => exact fun j hj => nomatch hj
  | cons j more ih =>
    rw [generateAll_cons] at h
    split at h
    · rename_i hok
      intro j2 hj
      rcases List.mem_cons.mp hj with rfl | hj
      · obtain ⟨x, v, h1, h2, -⟩ := generate_manifest hok
        exact ⟨x, v, h1, h2⟩
      · obtain ⟨x, v, e1, e2⟩ := ih _ h j2 hj
        have hs := generate_has hok
        have hset : (fun x => ((generate j.side j.target j.base d w).1.manifests j2.target x).isSome = true) =
            fun x => (w.manifests j2.target x).isSome = true := by
          funext y
          rw [hs]
        rw [hset] at e1
        obtain ⟨x0, v0, -, g2, -, g4, g5⟩ := generate_manifest hok
        by_cases ht : j2.target = j.target
        · by_cases hx : x = x0
          · exact ⟨x0, v0, by rw [← hx]; exact e1, by rw [ht]; exact g2⟩
          · refine ⟨x, v, e1, ?_⟩
            rw [ht] at e2 ⊢
            rw [← g4 x hx]
            exact e2
        · refine ⟨x, v, e1, ?_⟩
          rw [← g5 _ ht]
          exact e2
    · rename_i hn
      exact nomatch h

end Verif.Files
