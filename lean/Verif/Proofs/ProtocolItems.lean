import Verif.Proofs.ProtocolAbs
set_option autoImplicit false
/-!
The parser on whole texts.
-/
namespace Verif.Prot.Syntax

open Verif Verif.Prot

theorem groupPath_iff {a b : List Group} (h1 : Cover a b) (h2 : Cover b a) (i : Nat)
    (x : List Name) : GroupPath a i x ↔ GroupPath b i x :=
  ⟨fun h => h.mono h1, fun h => h.mono h2⟩

/-- The groups stay the same up to their lists of members. -/
structure SameGroups (s s2 : Store) : Prop where
  to : Cover (allGroups s) (allGroups s2)
  back : Cover (allGroups s2) (allGroups s)
  len : (allGroups s2).length = (allGroups s).length

theorem SameGroups.inj {s s2 : Store} (h : SameGroups s s2) (hj : Inj s) : Inj s2 := by
  intro i j x h1 h2
  exact hj i j x (h1.mono h.back) (h2.mono h.back)

theorem SameGroups.groups {s s2 : Store} (h : SameGroups s s2) {gs : List (List Name)}
    (hg : ∀ x, x ∈ gs ↔ ∃ h ∈ allGroups s, GroupPath (allGroups s) h.id x) :
    ∀ x, x ∈ gs ↔ ∃ h ∈ allGroups s2, GroupPath (allGroups s2) h.id x := by
  intro x
  rw [hg x]
  constructor
  · rintro ⟨k, hk, hp⟩
    obtain ⟨k2, a1, a2, _⟩ := h.to k hk
    exact ⟨k2, a1, a2 ▸ hp.mono h.to⟩
  · rintro ⟨k, hk, hp⟩
    obtain ⟨k2, a1, a2, _⟩ := h.back k hk
    exact ⟨k2, a1, a2 ▸ hp.mono h.back⟩

theorem sameGroups_map {s s2 : Store} (f : Group → Group)
    (hf : ∀ g, (f g).id = g.id ∧ (f g).parent = g.parent ∧ (f g).name = g.name)
    (h1 : s2.groups = s.groups) (h2 : s2.cGroup = s.cGroup.map f) :
    SameGroups s s2 ∧ s2.groupId = s.groupId := by
  refine ⟨⟨?_, ?_, ?_⟩, ?_⟩
  · simp only [allGroups, h1, h2]
    exact cover_bind s f hf
  · simp only [allGroups, h1, h2]
    intro g hg
    simp only [List.mem_append, Option.mem_toList, Option.map_eq_some_iff] at hg
    rcases hg with hg | ⟨c, hc, rfl⟩
    · exact ⟨g, by simp [hg], rfl, rfl, rfl⟩
    · exact ⟨c, by simp [hc], (hf c).1.symm, (hf c).2.1.symm, (hf c).2.2.symm⟩
  · simp only [allGroups, h1, h2]
    cases s.cGroup <;> simp
  · simp only [Store.groupId, h2]
    cases s.cGroup with
    | none => rfl
    | some c => exact (hf c).1

/-- After a struct or enum. -/
theorem Abs.add {s s2 : Store} {known gs : List (List Name)} {g y : List Name}
    (ha : Abs s known gs g) (hr : Reach s2) (hcs : s2.cStruct = none) (hce : s2.cEnum = none)
    (hcf : s2.cField = none) (hsg : SameGroups s s2)
    (hid : s2.groupId = s.groupId)
    (ht : ∀ x, x ∈ typeNames s2 ↔ x ∈ typeNames s ∨ x = y) : Abs s2 (known ++ [y]) gs g where
  reach := hr
  cs := hcs
  ce := hce
  cf := hcf
  types := by
    intro x
    rw [List.mem_append, List.mem_singleton, ha.types, ht]
  here := by rw [hid]; exact ha.here.mono hsg.to
  groups := hsg.groups ha.groups
  len := by rw [hsg.len, ha.len]

/-- The store after opening a group. -/
def opened (s : Store) (n : Name) : Store :=
  { s with
    sequence := s.sequence + 1
    groups := match s.cGroup with
      | some g => s.groups ++ [{ g with groups := g.groups ++ [s.sequence + 1] }]
      | none => s.groups
    cGroup := some ⟨s.sequence + 1, s.groupId, n, [], [], []⟩
    path := s.path ++ [s.sequence + 1] }

theorem opened_cover (s : Store) (n : Name) : Cover (allGroups s) (allGroups (opened s n)) := by
  intro g hg
  simp only [allGroups, List.mem_append, Option.mem_toList] at hg
  rcases hg with hg | hg
  · refine ⟨g, ?_, rfl, rfl, rfl⟩
    simp only [allGroups, opened, List.mem_append]
    left
    split <;> simp [hg]
  · refine ⟨{ g with groups := g.groups ++ [s.sequence + 1] }, ?_, rfl, rfl, rfl⟩
    simp [allGroups, opened, hg]

theorem opened_back (s : Store) (n : Name) : ∀ k ∈ allGroups (opened s n),
    (∃ h ∈ allGroups s, h.id = k.id ∧ h.parent = k.parent ∧ h.name = k.name) ∨
    (k.id = s.sequence + 1 ∧ k.parent = s.groupId ∧ k.name = n) := by
  intro k hk
  simp only [allGroups, opened, List.mem_append, Option.toList_some, List.mem_singleton] at hk
  rcases hk with hk | rfl
  · left
    split at hk
    · rename_i c hc
      simp only [List.mem_append, List.mem_singleton] at hk
      rcases hk with hk | rfl
      · exact ⟨k, by simp [allGroups, hk], rfl, rfl, rfl⟩
      · exact ⟨c, by simp [allGroups, hc], rfl, rfl, rfl⟩
    · exact ⟨k, by simp [allGroups, hk], rfl, rfl, rfl⟩
  · exact .inr ⟨rfl, rfl, rfl⟩

theorem groupId_le {s : Store} (hi : IdsOk s) : s.groupId ≤ s.sequence := by
  cases hc : s.cGroup with
  | none => simp [Store.groupId, hc]
  | some c =>
    have := groupId_pos hi (g := c) (by simp [allGroups, hc])
    simp only [Store.groupId, hc]
    omega

theorem opened_path {s : Store} {g : List Name} (hi : IdsOk s) (hg : GInv s)
    (hh : GroupPath (allGroups s) s.groupId g) (n : Name) {i : Nat} {x : List Name}
    (h : GroupPath (allGroups (opened s n)) i x) :
    GroupPath (allGroups s) i x ∨ (i = s.sequence + 1 ∧ x = g ++ [n]) := by
  induction h with
  | root => exact .inl .root
  | @down k p hk _ ih =>
    rcases opened_back s n k hk with ⟨c, hc, e1, e2, e3⟩ | ⟨e1, e2, e3⟩
    · left
      rcases ih with ih | ⟨ih, _⟩
      · rw [← e1, ← e3]
        exact .down hc (e2 ▸ ih)
      · have h1 := hg.older c hc
        have h2 := groupId_pos hi hc
        omega
    · right
      refine ⟨e1, ?_⟩
      rcases ih with ih | ⟨ih, _⟩
      · rw [e2] at ih
        rw [groupPath_unique hi ih hh, e3]
      · have := groupId_le hi
        omega

theorem opened_here {s : Store} {g : List Name} (hh : GroupPath (allGroups s) s.groupId g)
    (n : Name) : GroupPath (allGroups (opened s n)) (s.sequence + 1) (g ++ [n]) := by
  have : (⟨s.sequence + 1, s.groupId, n, [], [], []⟩ : Group) ∈ allGroups (opened s n) := by
    simp [allGroups, opened]
  exact .down this (hh.mono (opened_cover s n))

theorem opened_abs {s : Store} {known gs : List (List Name)} {g : List Name}
    (ha : Abs s known gs g) (n : Name) (hr : Reach (opened s n)) :
    Abs (opened s n) known (gs ++ [g ++ [n]]) (g ++ [n]) where
  reach := hr
  cs := ha.cs
  ce := ha.ce
  cf := ha.cf
  types := ha.types
  here := opened_here ha.here n
  groups := by
    intro x
    rw [List.mem_append, List.mem_singleton, ha.groups]
    constructor
    · rintro (⟨k, hk, hp⟩ | rfl)
      · obtain ⟨k2, a1, a2, _⟩ := opened_cover s n k hk
        exact ⟨k2, a1, a2 ▸ hp.mono (opened_cover s n)⟩
      · exact ⟨⟨s.sequence + 1, s.groupId, n, [], [], []⟩, by simp [allGroups, opened],
          opened_here ha.here n⟩
    · rintro ⟨k, hk, hp⟩
      rcases opened_path (reach_idsOk ha.reach) (reach_ginv ha.reach) ha.here n hp with h | h
      · left
        rcases opened_back s n k hk with ⟨c, hc, e1, _⟩ | ⟨e1, _⟩
        · exact ⟨c, hc, e1 ▸ h⟩
        · exfalso
          rw [e1] at h
          generalize hz : s.sequence + 1 = z at h
          cases h with
          | root => omega
          | down hk2 _ => have := groupId_pos (reach_idsOk ha.reach) hk2; omega
      · exact .inr h.2
  len := by
    rw [List.length_append, ← ha.len]
    simp only [allGroups, opened]
    cases s.cGroup <;> simp

theorem opened_inj {s : Store} {known gs : List (List Name)} {g : List Name}
    (ha : Abs s known gs g) (n : Name) (hj : Inj s) (hn : g ++ [n] ∉ gs) : Inj (opened s n) := by
  have hi := reach_idsOk ha.reach
  have old : ∀ i, GroupPath (allGroups s) i (g ++ [n]) → False := by
    intro i h
    apply hn
    rw [ha.groups]
    generalize hz : g ++ [n] = z at h
    cases h with
    | root => simp at hz
    | @down k p hk hp => exact ⟨k, hk, .down hk hp⟩
  intro i j x h1 h2
  rcases opened_path hi (reach_ginv ha.reach) ha.here n h1 with a | ⟨a, b⟩ <;>
    rcases opened_path hi (reach_ginv ha.reach) ha.here n h2 with c | ⟨c, d⟩
  · exact hj _ _ _ a c
  · exact absurd (d ▸ a) (old i)
  · exact absurd (b ▸ c) (old j)
  · omega

theorem openGroup_eq {s : Store} (hcs : s.cStruct = none) (hce : s.cEnum = none) (n : Name) :
    s.openGroup n = .ok (opened s n) := by
  unfold Store.openGroup
  rw [if_neg (by simp [hcs]), if_neg (by simp [hce])]
  rfl

/-- Closing a group leads back to where it was opened. -/
theorem close_group {s s2 : Store} {known gs known2 gs2 : List (List Name)} {g : List Name}
    {n : Name} (ha : Abs s known gs g) (h2 : Abs s2 known2 gs2 (g ++ [n]))
    (hp : s2.path = s.path ++ [s.sequence + 1]) (hc : Cover (allGroups s) (allGroups s2)) :
    ∃ s3, s2.close = .ok s3 ∧ s3.path = s.path ∧ s3.structs = s2.structs ∧ s3.enums = s2.enums ∧
      Cover (allGroups s2) (allGroups s3) ∧ (Inj s2 → Inj s3) ∧
      (Reach s3 → Abs s3 known2 gs2 g) := by
  have hi2 := reach_idsOk h2.reach
  have hg2 := reach_ginv h2.reach
  have htop := (reach_ginv ha.reach).top
  have hcur : ∃ c, s2.cGroup = some c := by
    have := hg2.top
    rw [hp] at this
    cases hcg : s2.cGroup with
    | none => rw [hcg] at this; simp at this
    | some c => exact ⟨c, rfl⟩
  obtain ⟨c, hcg⟩ := hcur
  have hdrop : s2.path.dropLast = s.path := by rw [hp]; simp
  have hemp : ¬ s2.path.isEmpty = true := by rw [hp]; simp
  have hrun : s2.close = match s.path.getLast? with
      | none => .ok { s2 with groups := s2.groups ++ [c], path := s.path, cGroup := none }
      | some top =>
        match (s2.groups ++ [c]).find? (fun x => x.id == top) with
        | none => .err
        | some p => .ok { s2 with
            groups := (s2.groups ++ [c]).eraseP (fun x => x.id == top), path := s.path,
            cGroup := some p } := by
    simp only [Store.close, h2.ce, h2.cs, hcg]
    rw [if_neg hemp, hdrop]
    rfl
  have finish : ∀ s3 : Store, s3.structs = s2.structs → s3.enums = s2.enums →
      s3.cStruct = s2.cStruct → s3.cEnum = s2.cEnum → s3.cField = s2.cField →
      SameGroups s2 s3 → s3.groupId = s.groupId →
      Cover (allGroups s2) (allGroups s3) ∧ (Inj s2 → Inj s3) ∧
      (Reach s3 → Abs s3 known2 gs2 g) := by
    intro s3 e1 e2 e3 e4 e5 hsg hid
    refine ⟨hsg.to, hsg.inj, fun hr => ⟨hr, e3.trans h2.cs, e4.trans h2.ce, e5.trans h2.cf, ?_, ?_,
      hsg.groups h2.groups, by rw [hsg.len, h2.len]⟩⟩
    · intro x
      rw [h2.types, typeNames, typeNames, e1, e2]
    · rw [hid]
      exact (ha.here.mono hc).mono hsg.to
  have hall : allGroups s2 = s2.groups ++ [c] := by simp [allGroups, hcg]
  rw [hrun]
  cases hl : s.path.getLast? with
  | none =>
    rw [hl] at htop
    have hno : s.cGroup = none := by
      cases hx : s.cGroup with
      | none => rfl
      | some d => rw [hx] at htop; simp at htop
    refine ⟨_, rfl, rfl, rfl, rfl, finish _ rfl rfl rfl rfl rfl ?_ ?_⟩
    · have : allGroups { s2 with groups := s2.groups ++ [c], path := s.path, cGroup := none } =
        allGroups s2 := by simp [allGroups, hcg]
      exact ⟨by rw [this]; exact .refl _, by rw [this]; exact .refl _, by rw [this]⟩
    · simp [Store.groupId, hno]
  | some top =>
    rw [hl] at htop
    have hx : ∃ d, s.cGroup = some d ∧ d.id = top := by
      cases hx : s.cGroup with
      | none => rw [hx] at htop; simp at htop
      | some d => rw [hx] at htop; exact ⟨d, rfl, by simpa using htop.symm⟩
    obtain ⟨d, hd, hdt⟩ := hx
    obtain ⟨d2, hd2, hid2, _⟩ := hc d (by simp [allGroups, hd])
    rw [hall] at hd2
    have hcount : ∀ i, ((s2.groups ++ [c]).map Group.id).count i ≤ 1 := by
      intro i
      have := allGroups_count s2 hi2 i
      rwa [hall] at this
    have hf := find_group hd2 (hcount _)
    rw [hid2, hdt] at hf
    simp only [hf]
    refine ⟨_, rfl, rfl, rfl, rfl, finish _ rfl rfl rfl rfl rfl ?_ ?_⟩
    · have hmem : ∀ x, x ∈ s2.groups ++ [c] ↔
          x ∈ (s2.groups ++ [c]).eraseP (fun x => x.id == top) ++ [d2] := by
        intro x
        simp only [List.mem_append (t := [d2]), List.mem_singleton]
        constructor
        · intro hx
          by_cases hxt : x.id = top
          · right
            have := find_group hx (hcount _)
            rw [hxt, hf] at this
            exact (Option.some.inj this).symm
          · left
            exact (List.mem_eraseP_of_neg (by simpa using hxt)).mpr hx
        · rintro (hx | rfl)
          · exact List.mem_of_mem_eraseP hx
          · exact hd2
      have ha3 : allGroups { s2 with
          groups := (s2.groups ++ [c]).eraseP (fun x => x.id == top), path := s.path,
          cGroup := some d2 } = (s2.groups ++ [c]).eraseP (fun x => x.id == top) ++ [d2] := by
        simp [allGroups]
      refine ⟨?_, ?_, ?_⟩
      · rw [ha3, hall]
        exact fun x hx => ⟨x, (hmem x).mp hx, rfl, rfl, rfl⟩
      · rw [ha3, hall]
        exact fun x hx => ⟨x, (hmem x).mpr hx, rfl, rfl, rfl⟩
      · rw [ha3, hall, List.length_append, List.length_eraseP_of_mem hd2 (by simp [hid2, hdt])]
        simp
    · simp [Store.groupId, hd, hid2]

/-! ### Simulation -/

/-- After `}`. -/
abbrev eClose : List Expect := [.fieldType, .groupDef, .structDef, .enumDef, .entityClose]

/-- Expectations between declarations. -/
def Between (e : List Expect) : Prop :=
  e = [.structDef, .groupDef, .enumDef] ∨ e = eOpen ∨ e = eClose

/-- What is known after the declarations `its`. -/
structure After (s s2 : Store) (known gs : List (List Name)) (g : List Name) (its : Items) :
    Prop where
  abs : Abs s2 (known ++ typesOf g its) (gs ++ groupsOf g its) g
  structs : s2.structs.map structView = s.structs.map structView ++ structsOf g its
  enums : s2.enums.map enumView = s.enums.map enumView ++ enumsOf g its
  path : s2.path = s.path
  cover : Cover (allGroups s) (allGroups s2)
  names : FieldNamesDistinct its
  fine : Inj s → (gs ++ groupsOf g its).Nodup → Fine known g its ∧ Inj s2

theorem head_word {key n : Name} {e e1 : List Expect} {s s1 : Store} {k : List Sym}
    {text : List Char} (h : Spelled (.word key :: .word n :: .mark .opn :: k) text)
    (h1 : ∀ nx, onTok ⟨e, s, false⟩ (.word key nx) = .go ⟨e1, s, false⟩)
    (h2 : ∀ nx, onTok ⟨e1, s, false⟩ (.word n nx) = .go ⟨[.entityOpen], s1, false⟩)
    (h3 : s1.openBody = .ok s1) :
    ∃ rest, Spelled k rest ∧ Fwd ⟨e, s, false⟩ text ⟨eOpen, s1, false⟩ rest := by
  obtain ⟨nx1, r1, h4, _, g1⟩ := step_word h
  obtain ⟨nx2, r2, h5, _, g2⟩ := step_word h4
  obtain ⟨r3, h6, g3⟩ := step_mark h5
  refine ⟨r3, h6, ((fwd_of g1 (h1 nx1)).trans (fwd_of g2 (h2 nx2))).trans (fwd_of g3 ?_)⟩
  simp [Mark.tok, onTok, h3, after]

/-- The store inside a new struct. -/
theorem openStruct_eq {s : Store} (hcs : s.cStruct = none) (hce : s.cEnum = none)
    (hcf : s.cField = none) (n : Name) :
    ∃ (b : Store) (t : Struct), s.openStruct n = .ok (inStruct b (s.sequence + 1) t) ∧
      b.cEnum = none ∧ b.structs = s.structs ∧ b.enums = s.enums ∧ b.groups = s.groups ∧
      b.path = s.path ∧
      (b.cGroup = s.cGroup.map
        (fun g : Group => { g with structs := g.structs ++ [s.sequence + 1] })) ∧
      t.name = n ∧ t.fields = [] ∧ t.parent = b.groupId := by
  let s1 : Store := { s with
      sequence := s.sequence + 1
      cGroup := s.cGroup.map
        (fun g : Group => { g with structs := g.structs ++ [s.sequence + 1] }) }
  refine ⟨s1, ⟨s.sequence + 1, s1.groupId, n, [], s1.pathByParent s1.groupId⟩, ?_, hce, rfl, rfl, rfl, rfl, rfl, ?_, ?_, ?_⟩
  case refine_1 =>
    unfold Store.openStruct
    rw [if_neg (by simp [hcs]), if_neg (by simp [hce])]
    cases s
    simp only at hcf
    subst hcf
    rfl
  all_goals rfl

theorem openEnum_eq {s : Store} (hcs : s.cStruct = none) (hce : s.cEnum = none) (n : Name) :
    ∃ (b : Store) (t : Enum), s.openEnum n = .ok (inEnum b t) ∧
      b.cStruct = none ∧ b.cField = s.cField ∧ b.structs = s.structs ∧ b.enums = s.enums ∧
      b.groups = s.groups ∧ b.path = s.path ∧
      (b.cGroup = s.cGroup.map
        (fun g : Group => { g with enums := g.enums ++ [s.sequence + 1] })) ∧
      t.name = n ∧ t.variants = [] ∧ t.parent = b.groupId ∧ t.current = none := by
  let s1 : Store := { s with
      sequence := s.sequence + 1
      cGroup := s.cGroup.map
        (fun g : Group => { g with enums := g.enums ++ [s.sequence + 1] }) }
  refine ⟨s1, ⟨s.sequence + 1, s1.groupId, n, [], s1.pathByParent s1.groupId, none⟩, ?_, hcs, rfl, rfl, rfl, rfl, rfl, rfl, ?_, ?_, ?_, ?_⟩
  case refine_1 =>
    unfold Store.openEnum
    rw [if_neg (by simp [hcs]), if_neg (by simp [hce])]
    rfl
  all_goals rfl

theorem keyword {e e1 : List Expect} (he : Between e) (s : Store) (key : Name)
    (hk : (key = "struct".toList ∧ e1 = [.structName]) ∨ (key = "enum".toList ∧ e1 = [.enumName]) ∨
      (key = "group".toList ∧ e1 = [.groupName])) (nx : Option Char) :
    onTok ⟨e, s, false⟩ (.word key nx) = .go ⟨e1, s, false⟩ := by
  rcases hk with ⟨rfl, rfl⟩ | ⟨rfl, rfl⟩ | ⟨rfl, rfl⟩ <;> rcases he with rfl | rfl | rfl <;> rfl

theorem struct_sim {s : Store} {known gs : List (List Name)} {g : List Name} {e : List Expect}
    {n : Name} {fs : List FieldD} {k : List Sym} {text : List Char} (ha : Abs s known gs g)
    (he : Between e) (hn : ∀ f ∈ fs, TypeName f.type)
    (h : Spelled (.word "struct".toList :: .word n :: .mark .opn ::
      (fs.flatMap fieldSyms ++ (.mark .cls :: k))) text) :
    (Halts ⟨e, s, false⟩ text .stopped ∧ (Inj s → ¬ FieldsFine known g fs)) ∨
    ∃ s2 rest, Spelled k rest ∧ Fwd ⟨e, s, false⟩ text
        ⟨eClose, s2, false⟩ rest ∧
      Abs s2 (known ++ [g ++ [n]]) gs g ∧
      s2.structs.map structView = s.structs.map structView ++ [(g, n, fs)] ∧
      s2.enums = s.enums ∧ s2.path = s.path ∧ SameGroups s s2 ∧
      (fs.map FieldD.name).Nodup ∧ (Inj s → FieldsFine known g fs) := by
  obtain ⟨b, t, hop, b1, b2, b3, b4, b5, b6, t1, t2, t3⟩ := openStruct_eq ha.cs ha.ce ha.cf n
  obtain ⟨r1, h1, g1⟩ := head_word (s1 := inStruct b (s.sequence + 1) t) h
    (keyword he s _ (.inl ⟨rfl, rfl⟩))
    (by intro nx; simp [onTok, onWord, hop, after])
    (by simp [Store.openBody, inStruct])
  obtain ⟨hsb, hgb⟩ := sameGroups_map (s := s) (s2 := b)
    (fun g : Group => { g with structs := g.structs ++ [s.sequence + 1] })
    (fun _ => ⟨rfl, rfl, rfl⟩) b4 b6
  have hty : Inj s → ((∀ f ∈ fs, TypeOkS b b.groupId f.type) ↔ ∀ f ∈ fs, TypeOk known g f.type) := by
    intro hj
    have hone : ∀ f ∈ fs, (TypeOkS b b.groupId f.type ↔ TypeOk known g f.type) := by
      intro f hf
      obtain ⟨w, ws, hw, _⟩ := hn f hf
      rw [hgb, typeOkS_congr b2 b3 b4]
      exact typeOk_iff ha hj f.type (by rw [hw]; simp)
    exact ⟨fun h f hf => (hone f hf).mp (h f hf), fun h f hf => (hone f hf).mpr (h f hf)⟩
  rcases fields_sim b b1 fs (s.sequence + 1) t eOpen (.mark .cls :: k) r1 hn (.inl rfl)
    (by rw [t2]; simp) h1 with ⟨i1, i2⟩ | ⟨⟨i1, i2⟩, r2, e2, flds, i3, i4, i5, g2⟩
  · left
    refine ⟨g1.2 _ i1, fun hj hf => i2 ⟨(hty hj).mpr hf.2, ?_⟩⟩
    rw [t2]; simpa using hf.1
  · right
    rw [t2] at i2
    have i2 : (fs.map FieldD.name).Nodup := by simpa using i2
    obtain ⟨r3, h3, g3⟩ := step_mark i5
    let t9 : Struct := { t with fields := t.fields ++ flds }
    let s2 : Store := { b with
      sequence := s.sequence + 1 + fs.length, structs := b.structs ++ [t9],
      cStruct := none, cField := none }
    have gg : Fwd ⟨e, s, false⟩ text
        ⟨eClose, s2, false⟩ r3 := by
      refine (g1.trans g2).trans (fwd_of g3 ?_)
      rcases i3 with rfl | rfl <;>
        simp [Mark.tok, onTok, Store.close, inStruct, b1, after, s2, t9]
    have hr := gg.1 ha.reach
    obtain ⟨hsg, hid⟩ := sameGroups_map (s := s) (s2 := s2)
      (fun g : Group => { g with structs := g.structs ++ [s.sequence + 1] })
      (fun _ => ⟨rfl, rfl, rfl⟩) b4 b6
    have hpath : t9.path = g := by
      have hp := (reach_ginv hr).struct t9 (by simp [s2])
      have hp2 : GroupPath (allGroups s2) t9.parent g := by
        have : t9.parent = s2.groupId := t3
        rw [this, hid]
        exact ha.here.mono hsg.to
      exact groupPath_unique (reach_idsOk hr) hp hp2
    have hview : structView t9 = (g, n, fs) := by
      simp only [structView, hpath]
      simp only [t9, t1, t2, List.nil_append, i4]
    refine ⟨s2, r3, h3, gg, ?_, ?_, b3, b5, hsg, i2, fun hj => ⟨i2, (hty hj).mp i1⟩⟩
    · refine ha.add hr rfl b1 rfl hsg hid ?_
      intro x
      simp only [typeNames, s2, b2, b3, List.map_append, List.map_cons, List.map_nil,
        List.mem_append, List.mem_singleton, hpath]
      have : t9.name = n := t1
      rw [this]
      constructor
      · rintro ((h | h) | h)
        · exact .inl (.inl h)
        · exact .inr h
        · exact .inl (.inr h)
      · rintro ((h | h) | h)
        · exact .inl (.inl h)
        · exact .inr h
        · exact .inl (.inr h)
    · simp only [s2, List.map_append, b2, List.map_cons, List.map_nil, hview]

theorem enum_sim {s : Store} {known gs : List (List Name)} {g : List Name} {e : List Expect}
    {n : Name} {vs : List VariantD} {k : List Sym} {text : List Char} (ha : Abs s known gs g)
    (he : Between e) (hn : ∀ v ∈ vs, v.Named)
    (h : Spelled (.word "enum".toList :: .word n :: .mark .opn ::
      (vs.flatMap variantSyms ++ (.mark .cls :: k))) text) :
    (Halts ⟨e, s, false⟩ text .stopped ∧ (Inj s → ¬ ∀ v ∈ vs, v.TypeFine known g)) ∨
    ∃ s2 rest, Spelled k rest ∧ Fwd ⟨e, s, false⟩ text
        ⟨eClose, s2, false⟩ rest ∧
      Abs s2 (known ++ [g ++ [n]]) gs g ∧ s2.structs = s.structs ∧
      s2.enums.map enumView = s.enums.map enumView ++ [(g, n, vs)] ∧
      s2.path = s.path ∧ SameGroups s s2 ∧ (Inj s → ∀ v ∈ vs, v.TypeFine known g) := by
  obtain ⟨b, t, hop, b1, b0, b2, b3, b4, b5, b6, t1, t2, t3, t4⟩ := openEnum_eq ha.cs ha.ce n
  obtain ⟨r1, h1, g1⟩ := head_word (s1 := inEnum b t) h
    (keyword he s _ (.inr (.inl ⟨rfl, rfl⟩)))
    (by intro nx; simp [onTok, onWord, hop, after])
    (by simp [Store.openBody, inEnum])
  obtain ⟨hsb, hgb⟩ := sameGroups_map (s := s) (s2 := b)
    (fun g : Group => { g with enums := g.enums ++ [s.sequence + 1] })
    (fun _ => ⟨rfl, rfl, rfl⟩) b4 b6
  have hty : Inj s → ((∀ v ∈ vs, ∀ t r n, v = .typed t r n → TypeOkS b b.groupId t) ↔
      ∀ v ∈ vs, v.TypeFine known g) := by
    intro hj
    have hone : ∀ v ∈ vs, ((∀ t r n, v = .typed t r n → TypeOkS b b.groupId t) ↔
        v.TypeFine known g) := by
      intro v hv
      cases v with
      | simple w =>
        simp only [VariantD.TypeFine, iff_true]
        rintro t r n ⟨⟩
      | typed ty r n =>
        obtain ⟨w, ws, hw, _⟩ := hn _ hv
        have hk := typeOk_iff ha hj ty (by rw [hw]; simp)
        have hk2 : TypeOkS b b.groupId ty ↔ TypeOkS s s.groupId ty := by
          rw [hgb, typeOkS_congr b2 b3 b4]
        rw [← hk2] at hk
        simp only [VariantD.TypeFine]
        rw [← hk]
        constructor
        · intro h; exact h ty r n rfl
        · rintro h t r n ⟨⟩; exact h
    exact ⟨fun h v hv => (hone v hv).mp (h v hv), fun h v hv => (hone v hv).mpr (h v hv)⟩
  rcases variants_sim b vs t eOpen (.mark .cls :: k) r1 t4 hn (.inl rfl) h1 with
    ⟨i1, i2⟩ | ⟨i1, r2, e2, its, i3, i4, i5, g2⟩
  · left
    exact ⟨g1.2 _ i1, fun hj hf => i2 ((hty hj).mpr hf)⟩
  · right
    obtain ⟨r3, h3, g3⟩ := step_mark i5
    let t9 : Enum := { t with variants := t.variants ++ its }
    let s2 : Store := { b with enums := b.enums ++ [t9], cEnum := none }
    have gg : Fwd ⟨e, s, false⟩ text
        ⟨eClose, s2, false⟩ r3 := by
      refine (g1.trans g2).trans (fwd_of g3 ?_)
      rcases i3 with rfl | rfl <;>
        simp [Mark.tok, onTok, Store.close, inEnum, after, s2, t9]
    have hr := gg.1 ha.reach
    obtain ⟨hsg, hid⟩ := sameGroups_map (s := s) (s2 := s2)
      (fun g : Group => { g with enums := g.enums ++ [s.sequence + 1] })
      (fun _ => ⟨rfl, rfl, rfl⟩) b4 b6
    have hpath : t9.path = g := by
      have hp := (reach_ginv hr).enum t9 (by simp [s2])
      have hp2 : GroupPath (allGroups s2) t9.parent g := by
        have : t9.parent = s2.groupId := t3
        rw [this, hid]
        exact ha.here.mono hsg.to
      exact groupPath_unique (reach_idsOk hr) hp hp2
    have hview : enumView t9 = (g, n, vs) := by
      simp only [enumView, hpath]
      simp only [t9, t1, t2, List.nil_append, i4]
    refine ⟨s2, r3, h3, gg, ?_, b2, ?_, b5, hsg, fun hj => (hty hj).mp i1⟩
    · refine ha.add hr b1 rfl (b0.trans ha.cf) hsg hid ?_
      intro x
      simp only [typeNames, s2, b2, b3, List.map_append, List.map_cons, List.map_nil,
        List.mem_append, List.mem_singleton, hpath]
      have : t9.name = n := t1
      rw [this, or_assoc]
    · simp only [s2, List.map_append, b3, List.map_cons, List.map_nil, hview]

theorem items_sim : ∀ (its : Items) (s : Store) (known gs : List (List Name)) (g : List Name)
    (e : List Expect) (k : List Sym) (text : List Char), Named its → Abs s known gs g → Between e →
    Spelled (itemsSyms its ++ k) text →
    (Halts ⟨e, s, false⟩ text .stopped ∧
      (Inj s → (gs ++ groupsOf g its).Nodup → ¬ Fine known g its)) ∨
    ∃ s2 rest e2, (e2 = e ∨ e2 = eClose) ∧ Spelled k rest ∧ Fwd ⟨e, s, false⟩ text ⟨e2, s2, false⟩ rest ∧
      After s s2 known gs g its
  | .nil, s, known, gs, g, e, k, text, _, ha, he, h => by
    right
    refine ⟨s, text, e, .inl rfl, h, .refl _ _, ⟨?_, ?_, ?_, rfl, .refl _, trivial, ?_⟩⟩
    · simpa [typesOf, groupsOf] using ha
    · simp [structsOf]
    · simp [enumsOf]
    · exact fun hj _ => ⟨trivial, hj⟩
  | .struct n fs rest, s, known, gs, g, e, k, text, hn, ha, he, h => by
    simp only [itemsSyms, List.cons_append, List.append_assoc] at h
    rcases struct_sim ha he hn.1 h with ⟨h1, h2⟩ | ⟨s1, r1, h1, g1, a1, v1, v2, p1, sg, nd, ff⟩
    · exact .inl ⟨h1, fun hj _ hf => h2 hj hf.1⟩
    · rcases items_sim rest s1 (known ++ [g ++ [n]]) gs g _ k r1 hn.2 a1 (.inr (.inr rfl)) h1 with
        ⟨i1, i2⟩ | ⟨s2, r2, e2, i1, i2, g2, af⟩
      · exact .inl ⟨g1.2 _ i1, fun hj hnd hf => i2 (sg.inj hj) hnd hf.2⟩
      · right
        refine ⟨s2, r2, e2, .inr (by rcases i1 with i | i <;> exact i), i2, g1.trans g2, ⟨?_, ?_, ?_, ?_, ?_, ?_, ?_⟩⟩
        · have := af.abs
          simpa [typesOf, groupsOf, List.append_assoc] using this
        · rw [af.structs, v1]
          simp [structsOf]
        · rw [af.enums, v2]
          simp [enumsOf]
        · rw [af.path, p1]
        · intro x hx
          obtain ⟨y, y1, y2, y3, y4⟩ := sg.to x hx
          obtain ⟨z, z1, z2, z3, z4⟩ := af.cover y y1
          exact ⟨z, z1, z2.trans y2, z3.trans y3, z4.trans y4⟩
        · exact ⟨nd, af.names⟩
        · intro hj hnd
          obtain ⟨f1, f2⟩ := af.fine (sg.inj hj) hnd
          exact ⟨⟨ff hj, f1⟩, f2⟩
  | .enum n vs rest, s, known, gs, g, e, k, text, hn, ha, he, h => by
    simp only [itemsSyms, List.cons_append, List.append_assoc] at h
    rcases enum_sim ha he hn.1 h with ⟨h1, h2⟩ | ⟨s1, r1, h1, g1, a1, v1, v2, p1, sg, ff⟩
    · exact .inl ⟨h1, fun hj _ hf => h2 hj hf.1⟩
    · rcases items_sim rest s1 (known ++ [g ++ [n]]) gs g _ k r1 hn.2 a1 (.inr (.inr rfl)) h1 with
        ⟨i1, i2⟩ | ⟨s2, r2, e2, i1, i2, g2, af⟩
      · exact .inl ⟨g1.2 _ i1, fun hj hnd hf => i2 (sg.inj hj) hnd hf.2⟩
      · right
        refine ⟨s2, r2, e2, .inr (by rcases i1 with i | i <;> exact i), i2, g1.trans g2, ⟨?_, ?_, ?_, ?_, ?_, ?_, ?_⟩⟩
        · have := af.abs
          simpa [typesOf, groupsOf, List.append_assoc] using this
        · rw [af.structs, v1]
          simp [structsOf]
        · rw [af.enums, v2]
          simp [enumsOf]
        · rw [af.path, p1]
        · intro x hx
          obtain ⟨y, y1, y2, y3, y4⟩ := sg.to x hx
          obtain ⟨z, z1, z2, z3, z4⟩ := af.cover y y1
          exact ⟨z, z1, z2.trans y2, z3.trans y3, z4.trans y4⟩
        · exact af.names
        · intro hj hnd
          obtain ⟨f1, f2⟩ := af.fine (sg.inj hj) hnd
          exact ⟨⟨ff hj, f1⟩, f2⟩
  | .group n body rest, s, known, gs, g, e, k, text, hn, ha, he, h => by
    simp only [itemsSyms, List.cons_append, List.append_assoc] at h
    obtain ⟨r1, h1, g1⟩ := head_word (s1 := opened s n) h
      (keyword he s _ (.inr (.inr ⟨rfl, rfl⟩)))
      (by intro nx; simp [onTok, onWord, openGroup_eq ha.cs ha.ce n, after])
      (by simp [Store.openBody, opened])
    have a1 := opened_abs ha n (g1.1 ha.reach)
    have split : (gs ++ groupsOf g (.group n body rest)).Nodup → g ++ [n] ∉ gs ∧
        ((gs ++ [g ++ [n]]) ++ groupsOf (g ++ [n]) body).Nodup ∧
        (((gs ++ [g ++ [n]]) ++ groupsOf (g ++ [n]) body) ++ groupsOf g rest).Nodup := by
      intro hnd
      simp only [groupsOf] at hnd
      refine ⟨?_, ?_, ?_⟩
      · intro hm
        rw [List.nodup_append] at hnd
        exact hnd.2.2 _ hm _ List.mem_cons_self rfl
      · refine hnd.sublist ?_
        rw [List.append_assoc]
        exact (List.Sublist.refl _).append (List.Sublist.cons_cons _ (List.sublist_append_left _ _))
      · simpa [List.append_assoc] using hnd
    rcases items_sim body (opened s n) known (gs ++ [g ++ [n]]) (g ++ [n]) eOpen
      (.mark .cls :: (itemsSyms rest ++ k)) r1 hn.1 a1 (.inr (.inl rfl)) h1 with
      ⟨i1, i2⟩ | ⟨s2, r2, e2, be2, h2, g2, af2⟩
    · left
      refine ⟨g1.2 _ i1, fun hj hnd hf => ?_⟩
      obtain ⟨n1, n2, _⟩ := split hnd
      exact i2 (opened_inj ha n hj n1) n2 hf.1
    · have hcov : Cover (allGroups s) (allGroups s2) := by
        intro x hx
        obtain ⟨y, y1, y2, y3, y4⟩ := opened_cover s n x hx
        obtain ⟨z, z1, z2, z3, z4⟩ := af2.cover y y1
        exact ⟨z, z1, z2.trans y2, z3.trans y3, z4.trans y4⟩
      obtain ⟨s3, hcl, p3, st3, en3, cov3, inj3, abs3⟩ := close_group ha af2.abs
        (by rw [af2.path]; rfl) hcov
      obtain ⟨r3, h3, g3⟩ := step_mark h2
      have gg : Fwd ⟨e, s, false⟩ text
          ⟨eClose, s3, false⟩ r3 := by
        refine (g1.trans g2).trans (fwd_of g3 ?_)
        rcases be2 with rfl | rfl
        · simp [Mark.tok, onTok, hcl, after]
        · simp [Mark.tok, onTok, hcl, after]
      have a3 := abs3 (gg.1 ha.reach)
      rcases items_sim rest s3 _ _ g _ k r3 hn.2 a3 (.inr (.inr rfl)) h3 with
        ⟨i1, i2⟩ | ⟨s4, r4, e4, be4, h4, g4, af4⟩
      · left
        refine ⟨gg.2 _ i1, fun hj hnd hf => ?_⟩
        obtain ⟨n1, n2, n3⟩ := split hnd
        obtain ⟨_, f2⟩ := af2.fine (opened_inj ha n hj n1) n2
        exact i2 (inj3 f2) n3 hf.2
      · right
        refine ⟨s4, r4, e4, .inr (by rcases be4 with i | i <;> exact i), h4, gg.trans g4,
          ⟨?_, ?_, ?_, ?_, ?_, ?_, ?_⟩⟩
        · have := af4.abs
          simpa [typesOf, groupsOf, List.append_assoc] using this
        · rw [af4.structs, st3, af2.structs]
          simp [structsOf, opened]
        · rw [af4.enums, en3, af2.enums]
          simp [enumsOf, opened]
        · rw [af4.path, p3]
        · intro x hx
          obtain ⟨y, y1, y2, y3, y4⟩ := hcov x hx
          obtain ⟨z, z1, z2, z3, z4⟩ := cov3 y y1
          obtain ⟨u, u1, u2, u3, u4⟩ := af4.cover z z1
          exact ⟨u, u1, u2.trans (z2.trans y2), u3.trans (z3.trans y3), u4.trans (z4.trans y4)⟩
        · exact ⟨af2.names, af4.names⟩
        · intro hj hnd
          obtain ⟨n1, n2, n3⟩ := split hnd
          obtain ⟨f1, f2⟩ := af2.fine (opened_inj ha n hj n1) n2
          obtain ⟨f3, f4⟩ := af4.fine (inj3 f2) n3
          exact ⟨⟨f1, f3⟩, f4⟩

theorem abs_new : Abs Store.new [] [] [] where
  reach := .new
  cs := rfl
  ce := rfl
  cf := rfl
  types := by simp [typeNames, Store.new]
  here := .root
  groups := by simp [allGroups, Store.new]
  len := rfl

theorem inj_new : Inj Store.new := by
  have : ∀ i x, GroupPath (allGroups Store.new) i x → i = 0 := by
    intro i x h
    cases h with
    | root => rfl
    | down hg _ => simp [allGroups, Store.new] at hg
  intro i j x h1 h2
  rw [this i x h1, this j x h2]

/-! ### A way to write down any declarations -/

/-- Every symbol with a blank in front. -/
def spell : List Sym → List Char
  | [] => [' ']
  | .word w :: ts => [' '] ++ (w ++ spell ts)
  | .simple w :: ts => [' '] ++ (w ++ ';' :: spell ts)
  | .mark m :: ts => [' '] ++ m.char :: spell ts
  | .rep :: ts => [' '] ++ '[' :: ([] ++ ']' :: spell ts)

/-- All words are names. -/
def SymOk : Sym → Prop
  | .word w => Ident w
  | .simple w => Ident w
  | _ => True

theorem spell_spelled : ∀ (ts : List Sym), (∀ t ∈ ts, SymOk t) → Spelled ts (spell ts)
  | [], _ => .nil (by simp [Blank, isSpace, spell])
  | .word w :: ts, h => by
    have ih := spell_spelled ts (fun t ht => h t (List.mem_cons_of_mem _ ht))
    have hb : ∃ r, spell ts = ' ' :: r := by
      cases ts with
      | nil => exact ⟨_, rfl⟩
      | cons t ts => cases t <;> exact ⟨_, rfl⟩
    obtain ⟨r, hr⟩ := hb
    simp only [spell]
    rw [hr] at ih ⊢
    refine .word (by simp [Blank, isSpace]) (h _ List.mem_cons_self) ?_ ih
    intro hc
    have := idChar_class hc
    exact absurd this.2.1 (by decide)
  | .simple w :: ts, h =>
    .simple (by simp [Blank, isSpace]) (h _ List.mem_cons_self)
      (spell_spelled ts (fun t ht => h t (List.mem_cons_of_mem _ ht)))
  | .mark m :: ts, h =>
    .mark (by simp [Blank, isSpace]) (spell_spelled ts (fun t ht => h t (List.mem_cons_of_mem _ ht)))
  | .rep :: ts, h =>
    .rep (by simp [Blank, isSpace]) (by simp [Blank])
      (spell_spelled ts (fun t ht => h t (List.mem_cons_of_mem _ ht)))

end Verif.Prot.Syntax
