import Verif.Spec.TsServer
set_option autoImplicit false
/-! Reading of chunks as function, and messages found under a reference. -/
namespace Verif.Ts

open Verif Verif.Rust

section
variable {T : Type} (d : Decoder T)

/-- A round that goes on takes something off, or changes nothing in the reader. -/
theorem round_again {r r' : Reader T} {es : List TsErr} (h : round d r = .again r' es) :
    r' = r ∨ r'.buffer.length < r.buffer.length := by
  unfold round at h
  split at h
  · cases h
  · rename_i he
    dsimp only at h
    split at h
    · cases h
    · rename_i hl
      split at h
      · cases h; exact .inl rfl
      · have h26 : 0 < headerSize := by decide
        have hb : 26 ≤ r.buffer.length := by
          simp only [enow, Bool.not_eq_true, Bool.not_eq_false', decide_eq_true_eq] at he
          exact he
        split at h
        · cases h
          right
          simp only [List.length_drop]
          have : headerSize = 26 := rfl
          omega
        · cases h
          right
          simp only [List.length_drop]
          have : headerSize = 26 := rfl
          omega
        · cases h

theorem loop_more : ∀ (n m : Nat) (r : Reader T) (es : List TsErr) (x : TsEnd × Reader T), n ≤ m →
    loop d n r es = some x → loop d m r es = some x
  | 0, _, _, _, _, _, h => by cases h
  | n + 1, 0, _, _, _, hm, _ => absurd hm (by omega)
  | n + 1, m + 1, r, es, x, hm, h => by
    unfold loop at h ⊢
    cases hr : round d r with
    | stop => rw [hr] at h; exact h
    | throw => rw [hr] at h; exact h
    | again r' e' => rw [hr] at h; exact loop_more n m _ _ x (by omega) h

theorem loop_stays {r : Reader T} {e' : List TsErr} (h : round d r = .again r e') :
    ∀ (n : Nat) (es : List TsErr), loop d n r es = none
  | 0, _ => rfl
  | n + 1, es => by
    unfold loop
    rw [h]
    exact loop_stays h n _

theorem loop_never : ∀ (n : Nat) (r : Reader T) (es : List TsErr), r.buffer.length < n →
    loop d n r es = none → ∀ m, loop d m r es = none
  | 0, _, _, h, _, _ => absurd h (by omega)
  | n + 1, r, es, hn, h, m => by
    cases m with
    | zero => rfl
    | succ m =>
      unfold loop at h ⊢
      cases hr : round d r with
      | stop => rw [hr] at h; cases h
      | throw => rw [hr] at h; cases h
      | again r' e' =>
        rw [hr] at h
        dsimp only at h ⊢
        rcases round_again d hr with e | e
        · subst e; exact loop_stays d hr m _
        · exact loop_never n r' _ (by omega) h m

end

end Verif.Ts

namespace Verif.TsServer

open Verif

theorem readChunk_iff {T : Type} (d : Rust.Decoder T) (r : Rust.Reader T) (c : Bytes) (e : Ts.TsEnd)
    (r' : Rust.Reader T) : readChunk d r c = some (e, r') ↔ Ts.Chunk d r c e r' := by
  unfold readChunk Ts.Chunk
  constructor
  · exact fun h => ⟨_, h⟩
  · rintro ⟨n, h⟩
    cases hx : Ts.loop d ((r.buffer ++ c).length + 1) ⟨r.buffer ++ c, r.queue⟩ [] with
    | none =>
      rw [Ts.loop_never d _ _ _ (by simp) hx n] at h
      cases h
    | some x =>
      rcases Nat.le_total n ((r.buffer ++ c).length + 1) with hn | hn
      · rw [← hx, Ts.loop_more d _ _ _ _ _ hn h]
      · rw [← h, ← hx, Ts.loop_more d _ _ _ _ _ hn hx, hx]

theorem readChunk_none {T : Type} (d : Rust.Decoder T) (r : Rust.Reader T) (c : Bytes) :
    readChunk d r c = none ↔ ∀ e r', ¬ Ts.Chunk d r c e r' := by
  constructor
  · intro h e r' hc
    rw [(readChunk_iff d r c e r').2 hc] at h
    cases h
  · intro h
    cases hx : readChunk d r c with
    | none => rfl
    | some x => exact absurd ((readChunk_iff d r c x.1 x.2).1 hx) (h _ _)

/-! ### Messages under a reference -/

theorem splitDot_ne_nil : ∀ r : Ref, Flow.splitDot r ≠ []
  | [] => by simp [Flow.splitDot]
  | c :: cs => by
    unfold Flow.splitDot
    split
    · simp
    · split <;> simp

theorem spells_splitDot : ∀ r : Ref, Spells (Flow.splitDot r) r
  | [] => by simp [Flow.splitDot, Spells]
  | c :: cs => by
    have ih := spells_splitDot cs
    unfold Flow.splitDot
    split
    · rename_i h
      subst h
      cases hs : Flow.splitDot cs with
      | nil => exact absurd hs (splitDot_ne_nil cs)
      | cons w ws =>
        rw [hs] at ih
        exact ⟨by simp, cs, ih, rfl⟩
    · rename_i h
      cases hs : Flow.splitDot cs with
      | nil => exact absurd hs (splitDot_ne_nil cs)
      | cons w ws =>
        rw [hs] at ih
        dsimp only
        cases ws with
        | nil =>
          obtain ⟨h1, h2⟩ := ih
          refine ⟨?_, by rw [h2]⟩
          intro hc
          rcases List.mem_cons.1 hc with e | e
          · exact h e.symm
          · exact h1 e
        | cons v vs =>
          obtain ⟨h1, r', h2, h3⟩ := ih
          refine ⟨?_, r', h2, by rw [h3]; rfl⟩
          intro hc
          rcases List.mem_cons.1 hc with e | e
          · exact h e.symm
          · exact h1 e

theorem splitDot_nodot : ∀ (w : Name), '.' ∉ w → Flow.splitDot w = [w]
  | [], _ => rfl
  | c :: cs, h => by
    rw [Flow.splitDot, if_neg (show ¬ c = '.' from fun e => h (by rw [e]; exact List.mem_cons_self)),
      splitDot_nodot cs (fun x => h (List.mem_cons_of_mem _ x))]

theorem splitDot_append : ∀ (w : Name) (r : Ref), '.' ∉ w →
    Flow.splitDot (w ++ '.' :: r) = w :: Flow.splitDot r
  | [], r, _ => by simp [Flow.splitDot]
  | c :: cs, r, h => by
    rw [List.cons_append, Flow.splitDot, if_neg (show ¬ c = '.' from fun e => h (by rw [e]; exact List.mem_cons_self)),
      splitDot_append cs r (fun x => h (List.mem_cons_of_mem _ x))]

theorem spells_unique : ∀ {ns : List Name} {r : Ref}, Spells ns r → ns = Flow.splitDot r
  | [], _, h => h.elim
  | [n], r, h => by rw [h.2, splitDot_nodot n h.1]
  | n :: m :: ns, r, h => by
    obtain ⟨h1, r', h2, h3⟩ := h
    rw [h3, splitDot_append n r' h1, ← spells_unique h2]

theorem wraps_nest : ∀ (ns : List Name) (b : Js), Wraps ns b (nest ns b)
  | [], _ => .body
  | _ :: ns, b => .inside (wraps_nest ns b)

theorem wraps_unique {ns : List Name} {b w : Js} (h : Wraps ns b w) : w = nest ns b := by
  induction h with
  | body => rfl
  | inside _ ih => rw [ih]; rfl

theorem walk_leads : ∀ (ns : List Name) (ps : List (Name × Js)) (t : Js),
    (Js.obj ps).walk ns = some t ↔ Leads (.obj ps) ns t
  | [], ps, t => by
    constructor
    · intro h
      unfold Js.walk at h
      cases h
      exact .here
    · intro h
      cases h
      rfl
  | n :: ns, ps, t => by
    unfold Js.walk
    constructor
    · intro h
      cases hp : (Js.obj ps).prop n with
      | none => rw [hp] at h; cases h
      | some v =>
        rw [hp] at h
        cases v with
        | str _ => cases h
        | num _ => cases h
        | bool _ => cases h
        | other => cases h
        | obj qs => exact .step hp ((walk_leads ns qs t).1 h)
    · intro h
      cases h with
      | step hp hl =>
        rename_i v
        rw [show (Js.obj ps).prop n = some v from hp]
        cases v with
        | str _ => cases hl
        | num _ => cases hl
        | bool _ => cases hl
        | other => cases hl
        | obj qs => exact (walk_leads ns qs t).2 hl

theorem extract_iff (m : Msg) (ref : Ref) (b : Js) : m.extract ref = some b ↔ Found m ref b := by
  unfold Msg.extract tryToGet
  constructor
  · intro h
    cases hw : nest m.path m.body with
    | str _ => rw [hw] at h; cases h
    | num _ => rw [hw] at h; cases h
    | bool _ => rw [hw] at h; cases h
    | other => rw [hw] at h; cases h
    | obj ps =>
      rw [hw] at h
      exact ⟨_, _, spells_splitDot ref, hw ▸ wraps_nest m.path m.body, (walk_leads _ _ _).1 h⟩
  · rintro ⟨ns, w, h1, h2, h3⟩
    rw [← wraps_unique h2]
    cases w with
    | str _ => cases h3
    | num _ => cases h3
    | bool _ => cases h3
    | other => cases h3
    | obj ps =>
      rw [← spells_unique h1]
      exact (walk_leads _ _ _).2 h3

theorem extract_obj {m : Msg} {ref : Ref} {b : Js} (h : m.extract ref = some b) :
    ∃ ps, b = .obj ps := by
  obtain ⟨ns, w, _, _, h3⟩ := (extract_iff m ref b).1 h
  clear h
  rename_i h1 h2
  clear h1 h2
  induction h3 with
  | here => exact ⟨_, rfl⟩
  | step _ _ ih => exact ih

end Verif.TsServer
