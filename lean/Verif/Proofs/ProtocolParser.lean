import Verif.Spec.Protocol
set_option autoImplicit false
/-!
Termination of the protocol parser.
-/
namespace Verif.Prot

open Verif

theorem lexLoop_offset : ∀ (cs : List Char) (str : Name) (pass : Nat) (t : Tok) (off : Nat),
    lexLoop str pass cs = some (t, off) → (∀ w n, t ≠ .word w n) → t ≠ .eof →
    pass + 1 ≤ off ∧ cs ≠ []
  | [], str, pass, t, off, h, hw, he => by
    simp only [lexLoop] at h
    split at h
    · simp at h; exact absurd h.1.symm he
    · simp at h; exact absurd h.1.symm (hw _ _)
  | c :: cs, str, pass, t, off, h, hw, he => by
    refine ⟨?_, by simp⟩
    have ih := fun s => lexLoop_offset cs s (pass + 1) t off
    simp only [lexLoop] at h
    repeat' split at h
    all_goals first
      | (simp at h; done)
      | (have := (ih _ h hw he).1; omega)
      | (simp at h; omega)
      | (simp at h; exact absurd h.1.symm (hw _ _))

/-- How many words in a row can be accepted. -/
def rank (e : List Expect) : Nat :=
  if e.contains .groupDef || e.contains .structDef || e.contains .enumDef || e.contains .fieldType
  then 2
  else if e.contains .structName || e.contains .enumName || e.contains .groupName
    || e.contains .fieldName then 1
  else 0

theorem rank_le (e : List Expect) : rank e ≤ 2 := by
  unfold rank; split
  · omega
  · split <;> omega

theorem after_go {r : Res Store} {e : List Expect} {b : Bool} {p : PState}
    (h : after r e b = .go p) : ∃ s, r = .ok s ∧ p = ⟨e, s, b⟩ := by
  cases r <;> simp_all [after]

theorem onWord_rank {p p2 : PState} {w : Name} {n : Option Char} (h : onWord p w n = .go p2) :
    rank p2.expect < rank p.expect := by
  unfold onWord at h
  repeat' split at h
  all_goals first
    | (simp at h; done)
    | (simp only [Next.go.injEq] at h; subst h; simp_all [rank]; done)
    | (obtain ⟨s, _, rfl⟩ := after_go h; simp_all [rank]; (try (repeat' split) <;> omega); done)
  all_goals (obtain ⟨s, _, rfl⟩ := after_go h; simp_all [rank])

theorem step_measure {p p2 : PState} {c c2 : List Char} (h : step p c = .go (p2, c2)) :
    3 * c2.length + rank p2.expect < 3 * c.length + rank p.expect := by
  unfold step at h
  split at h
  · simp at h
  · rename_i t off hl
    split at h
    · rename_i p3 ht
      simp only [Next.go.injEq, Prod.mk.injEq] at h
      obtain ⟨rfl, rfl⟩ := h
      have hd : (c.drop off).length ≤ c.length := by simp
      by_cases hw : ∃ w n, t = .word w n
      · obtain ⟨w, n, rfl⟩ := hw
        have := onWord_rank (show onWord p w n = .go _ from ht)
        omega
      · have hne : t ≠ .eof := by rintro rfl; simp [onTok] at ht
        obtain ⟨h1, h2⟩ := lexLoop_offset c [] 0 t off hl (fun w n h => hw ⟨w, n, h⟩) hne
        have : c.length ≠ 0 := by simp [h2]
        have := rank_le p3.expect
        simp only [List.length_drop]
        omega
    · simp at h

theorem loop_ends : ∀ (n : Nat) (p : PState) (c : List Char), 3 * c.length + rank p.expect < n →
    ∃ o, loop n p c = some o
  | 0, _, _, h => by omega
  | n + 1, p, c, h => by
    simp only [loop]
    split
    · rename_i p2 c2 hs
      have := step_measure hs
      exact loop_ends n p2 c2 (by omega)
    · exact ⟨_, rfl⟩

theorem loop_mono : ∀ (n m : Nat) (p : PState) (c : List Char) (o : Outcome),
    loop n p c = some o → n ≤ m → loop m p c = some o
  | 0, _, _, _, _, h, _ => by simp [loop] at h
  | n + 1, 0, _, _, _, _, hm => by omega
  | n + 1, m + 1, p, c, o, h, hm => by
    simp only [loop] at h ⊢
    split at h
    · exact loop_mono n m _ _ _ h (by omega)
    · exact h

theorem parses_unique {t : List Char} {o o2 : Outcome} (h : Parses t o) (h2 : Parses t o2) :
    o = o2 := by
  obtain ⟨n, hn⟩ := h
  obtain ⟨m, hm⟩ := h2
  have h1 := loop_mono n (n + m) _ _ _ hn (by omega)
  have h2 := loop_mono m (n + m) _ _ _ hm (by omega)
  rw [h1] at h2
  exact Option.some.inj h2

end Verif.Prot
