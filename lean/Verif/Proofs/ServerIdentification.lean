import Verif.Model.RustIdentification
import Verif.Proofs.ServerLocal
set_option autoImplicit false
/-!
Merging of keys, and filters.
-/
namespace Verif.Server

open Verif

section merge
variable {V : Type}

theorem put_names (r : Record V) (f : Prot.Name) (v : FieldVal V) :
    (r.put f v).map Prod.fst = r.map Prod.fst := by
  unfold Record.put
  rw [List.map_map]
  apply List.map_congr_left
  intro p _
  simp only [Function.comp_apply]
  split
  · rename_i h; exact h.symm
  · rfl

theorem put_same (r : Record V) (f : Prot.Name) (v : FieldVal V) (h : f ∈ r.map Prod.fst) :
    (r.put f v).lookup f = some v := by
  induction r with
  | nil => cases h
  | cons p r ih =>
    unfold Record.put at ih ⊢
    rw [List.map_cons]
    by_cases e : p.1 = f
    · rw [if_pos e]; simp
    · rw [if_neg e]
      obtain ⟨a, b⟩ := p
      rw [List.lookup_cons, show (f == a) = false from by simpa using fun x : f = a => e x.symm]
      exact ih (by
        rcases List.mem_cons.1 h with h | h
        · exact absurd h.symm e
        · exact h)

theorem put_other (r : Record V) (f g : Prot.Name) (v : FieldVal V) (h : g ≠ f) :
    (r.put f v).lookup g = r.lookup g := by
  induction r with
  | nil => rfl
  | cons p r ih =>
    unfold Record.put at ih ⊢
    rw [List.map_cons]
    obtain ⟨a, b⟩ := p
    by_cases e : a = f
    · subst e
      rw [if_pos rfl, List.lookup_cons, List.lookup_cons,
        show (g == a) = false from by simpa using h]
      exact ih
    · rw [if_neg e, List.lookup_cons, List.lookup_cons, ih]

/-- Name of the field a statement writes. -/
def Stmt.field : Stmt → Prot.Name
  | .copy f => f
  | .copySome f => f

theorem run_names (key e : Record V) (st : Stmt) :
    (st.run key e).map Prod.fst = e.map Prod.fst := by
  unfold Stmt.run
  split
  · split
    · exact put_names _ _ _
    · rfl
  · split
    · exact put_names _ _ _
    · rfl

theorem run_other (key e : Record V) (st : Stmt) (g : Prot.Name) (h : g ≠ st.field) :
    (st.run key e).lookup g = e.lookup g := by
  unfold Stmt.run
  split
  · split
    · exact put_other _ _ _ _ h
    · rfl
  · split
    · exact put_other _ _ _ _ h
    · rfl

theorem fold_other (key : Record V) (sts : List Stmt) (e : Record V) (g : Prot.Name)
    (h : g ∉ sts.map Stmt.field) :
    (sts.foldl (fun e st => st.run key e) e).lookup g = e.lookup g := by
  induction sts generalizing e with
  | nil => rfl
  | cons st sts ih =>
    rw [List.foldl_cons, ih _ (fun x => h (List.mem_cons_of_mem _ x))]
    exact run_other _ _ _ _ (fun x => h (by rw [x]; exact List.mem_cons_self))

theorem fold_names (key : Record V) (sts : List Stmt) (e : Record V) :
    (sts.foldl (fun e st => st.run key e) e).map Prod.fst = e.map Prod.fst := by
  induction sts generalizing e with
  | nil => rfl
  | cons st sts ih => rw [List.foldl_cons, ih, run_names]

theorem merge_names (fields : List Prot.Field) (e k : Record V) :
    (mergeRecords fields e k).map Prod.fst = e.map Prod.fst := fold_names _ _ _

theorem stmts_fields (fields : List Prot.Field) :
    (overwriteStmts fields).map Stmt.field = fields.map Prot.Field.name := by
  unfold overwriteStmts
  rw [List.map_map]
  apply List.map_congr_left
  intro f _
  simp only [Function.comp_apply]
  split <;> rfl

theorem fold_at (key : Record V) (a b : List Stmt) (st : Stmt) (e : Record V)
    (ha : st.field ∉ a.map Stmt.field) (hb : st.field ∉ b.map Stmt.field) :
    ((a ++ st :: b).foldl (fun e st => st.run key e) e).lookup st.field =
      (match st, key.lookup st.field with
        | .copy _, some v => if st.field ∈ e.map Prod.fst then some v else e.lookup st.field
        | .copySome _, some (.opt (some v)) =>
          if st.field ∈ e.map Prod.fst then some (.opt (some v)) else e.lookup st.field
        | _, _ => e.lookup st.field) := by
  rw [List.foldl_append, List.foldl_cons, fold_other _ _ _ _ hb]
  have hn := fold_names key a e
  have ho := fold_other key a e st.field ha
  generalize a.foldl (fun e st => st.run key e) e = e1 at hn ho
  rw [← hn, ← ho]
  have hput : ∀ v, (e1.put st.field v).lookup st.field =
      if st.field ∈ e1.map Prod.fst then some v else e1.lookup st.field := by
    intro v
    split
    · rename_i h; exact put_same _ _ _ h
    · rename_i h
      have : e1.put st.field v = e1 := by
        unfold Record.put
        conv => rhs; rw [← List.map_id e1]
        apply List.map_congr_left
        intro p hp
        rw [if_neg]
        · rfl
        · intro x; exact h (List.mem_map.2 ⟨p, hp, x⟩)
      rw [this]
  cases st with
  | copy f =>
    simp only [Stmt.run, Stmt.field] at hput ⊢
    cases key.lookup f with
    | none => rfl
    | some v => exact hput v
  | copySome f =>
    simp only [Stmt.run, Stmt.field] at hput ⊢
    cases key.lookup f with
    | none => rfl
    | some v =>
      cases v with
      | plain v => rfl
      | opt v =>
        cases v with
        | none => rfl
        | some v => exact hput _

end merge

/-! ### Filters -/

variable {P : Type} {cfg : Cfg P} {opts : Options} {env : Env P}

theorem find_isSome_iff (s : State P) (v : Uuid) :
    (s.find v).isSome = true ↔ v ∈ s.consumers.map Prod.fst := by
  unfold State.find
  generalize s.consumers = l
  induction l with
  | nil => simp
  | cons p l ih =>
    obtain ⟨a, b⟩ := p
    rw [List.lookup_cons]
    by_cases e : v = a
    · subst e; simp
    · rw [show (v == a) = false from by simpa using e]
      simp only [List.map_cons, List.mem_cons]
      rw [ih]
      simp [e]

/-- The map has one entry per key. -/
def Distinct (s : State P) : Prop := (s.consumers.map Prod.fst).Nodup

theorem Distinct.local {A : Act P → Prop} {u : Uuid} {s s' : State P} (h : Distinct s)
    (k : Local A u s s') : Distinct s' := by
  unfold Distinct
  rw [k.keys]
  exact h

theorem Distinct.set {s : State P} (h : Distinct s) {u : Uuid} {c : Consumer P} {a : Act P} :
    Distinct ((s.set u c).push a) := by
  unfold Distinct
  show ((s.set u c).consumers.map Prod.fst).Nodup
  rw [set_keys]
  exact h

theorem keys_broadcast (o : Out P) (us : List Uuid) (s : State P) :
    (broadcast env o us s).consumers = s.consumers := by
  induction us generalizing s with
  | nil => rfl
  | cons u us ih => rw [broadcast, ih]; rfl

theorem keys_broadcastAll (cs : List (Ref × Cast P)) (s : State P) :
    (broadcastAll env cs s).consumers = s.consumers := by
  induction cs generalizing s with
  | nil => rfl
  | cons c cs ih =>
    obtain ⟨r, us, p⟩ := c
    rw [broadcastAll, ih, keys_broadcast]

theorem keys_warned (e : Flow.Event) (p : Option P) (s : State P) :
    (warned (emitEvent cfg env e p) s).2.consumers = s.consumers := by
  have : (emitEvent cfg env e p s).2.consumers = s.consumers := by
    unfold emitEvent
    dsimp only
    split
    · rfl
    · rfl
    · split
      · rfl
      · exact keys_broadcastAll _ _
  unfold warned
  split <;> (rename_i h; rw [h] at this; exact this)

theorem step_distinct (x : Input P) {s : State P} (h : Distinct s) :
    Distinct (step cfg env opts x s).2 := by
  cases x with
  | ready => exact h
  | shutdown => exact h
  | stop => exact h
  | serverEvent v => exact h
  | received v b => exact h.local (received_local env v b s)
  | connected v =>
    simp only [step, addConnection]
    split
    · exact h
    · rename_i hv
      have hk := keys_warned (cfg := cfg) (env := env) (defaultEvent cfg "connected".toList) none s
      unfold Proc.andThen
      split
      · rename_i s1 hs
        rw [hs] at hk
        show ((s1.consumers ++ [(v, Consumer.new)]).map Prod.fst).Nodup
        rw [hk, List.map_append, List.nodup_append]
        refine ⟨h, by simp, ?_⟩
        intro a ha b hb
        simp only [List.map_cons, List.map_nil, List.mem_singleton] at hb
        subst hb
        rintro rfl
        exact hv ((find_isSome_iff s a).2 ha)
      · rename_i hs; rw [hs] at hk; unfold Distinct; rw [hk]; exact h
      · rename_i hs; rw [hs] at hk; unfold Distinct; rw [hk]; exact h
  | disconnected v =>
    simp only [step, removeConnection]
    split
    · exact h
    · unfold Distinct
      rw [keys_warned]
      exact h.sublist (List.filter_sublist.map _)
  | event ref p =>
    simp only [step]
    generalize cfg.workflow.events.find? _ = o
    cases o with
    | none => exact h
    | some e => unfold Distinct; rw [keys_warned]; exact h
  | setKey v k o =>
    simp only [step]
    split
    · exact Distinct.set h
    · exact h
  | setAssigned v k o =>
    simp only [step]
    split
    · exact Distinct.set h
    · exact h
  | confirm =>
    simp only [step]
    split
    · exact h
    · rename_i v vs _
      have h' : Distinct ({ s with confirms := vs } : State P) := h
      unfold confirmation
      split
      · exact h'
      · rename_i c _
        have h'' : Distinct ((({ s with confirms := vs } : State P).set v
            { c with confirmed := true }).push (.confirmed v)) :=
          Distinct.set h'
        dsimp only
        split
        · exact h''
        · split
          · rename_i he
            have := congrArg Prod.snd he
            dsimp only [send] at this
            rw [← this]
            exact h''
          · rename_i he
            have := congrArg Prod.snd he
            dsimp only [send] at this
            rw [← this]
            exact h''

theorem listen_distinct (is : List (Input P)) {s : State P} (h : Distinct s) :
    Distinct (listen cfg env opts is s).2 := by
  induction is generalizing s with
  | nil => exact h
  | cons x is ih =>
    have k := step_distinct (cfg := cfg) (env := env) (opts := opts) x h
    unfold listen
    split
    · exact h
    · exact h
    · exact h
    · rename_i heq
      injection heq with h1 h2
      subst h1 h2
      split
      · rename_i h; rw [h] at k; exact ih k
      · rename_i h; rw [h] at k; exact k
      · rename_i h; rw [h] at k; exact k

theorem mem_of_lookup {l : List (Uuid × Consumer P)} (h : (l.map Prod.fst).Nodup) {v : Uuid}
    {c : Consumer P} : (v, c) ∈ l ↔ l.lookup v = some c := by
  induction l with
  | nil => simp
  | cons p l ih =>
    obtain ⟨a, b⟩ := p
    rw [List.map_cons, List.nodup_cons] at h
    rw [List.lookup_cons, List.mem_cons]
    by_cases e : v = a
    · subst e
      simp only [beq_self_eq_true, Prod.mk.injEq, true_and, Option.some.injEq]
      constructor
      · rintro (e | hm)
        · exact e.symm
        · exact absurd (List.mem_map.2 ⟨_, hm, rfl⟩) h.1
      · exact fun e => .inl e.symm
    · rw [show (v == a) = false from by simpa using e]
      simp only [Prod.mk.injEq, e, false_and, false_or]
      exact ih h.2

end Verif.Server
