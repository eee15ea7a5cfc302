import Verif.Proofs.WorkflowDecls
set_option autoImplicit false
/-!
Every list of declarations can be written down.
-/
namespace Verif.Flow.Syntax

open Verif Verif.Flow
open Verif.Prot (Name isSpace)
open Verif.Prot.Syntax (IdChar Ident)

/-- A blank in front of each word. -/
def plain : List Sym → List Char
  | [] => []
  | .word w :: ts => ' ' :: (w ++ plain ts)
  | .mark m :: ts => m.char :: plain ts

/-- Only words, and not at the end. -/
inductive Writable : List Sym → Prop where
  | nil : Writable []
  | mark {m : Mark} {ts : List Sym} : Writable ts → Writable (.mark m :: ts)
  | word {w : Name} {ts : List Sym} : IsWord w → ts ≠ [] → Writable ts → Writable (.word w :: ts)

theorem Writable.append : ∀ {a b : List Sym}, Writable a → Writable b → Writable (a ++ b)
  | _, _, .nil, h => h
  | _, _, .mark ha, h => .mark (ha.append h)
  | _, _, .word hw hne ha, h => .word hw (by simp [hne]) (ha.append h)

theorem Writable.flatMap {α : Type} {f : α → List Sym} : ∀ {l : List α},
    (∀ x ∈ l, Writable (f x)) → Writable (l.flatMap f)
  | [], _ => .nil
  | x :: l, h => by
    rw [List.flatMap_cons]
    exact (h x List.mem_cons_self).append (Writable.flatMap (fun y hy => h y (List.mem_cons_of_mem _ hy)))

theorem spelled_plain : ∀ {ts : List Sym}, Writable ts → Spelled ts (plain ts)
  | _, .nil => .nil .nil
  | _, .mark (m := m) h => Spelled.mark (g := []) (m := m) .nil (spelled_plain h)
  | _, .word (w := w) (ts := ts) hw hne h => by
    have ih := spelled_plain h
    have hg : Gap [' '] := .space (by decide) .nil
    cases ts with
    | nil => exact absurd rfl hne
    | cons t ts =>
      cases t with
      | word v => exact Spelled.word (g := [' ']) hg hw (.inl (by decide)) hne ih
      | mark m => exact Spelled.word (g := [' ']) hg hw (.inr (.inr ⟨m, rfl⟩)) hne ih

theorem writable_path : ∀ {p : Path} {ts : List Sym}, (∀ w ∈ p, IsWord w) → ts ≠ [] → Writable ts →
    Writable (pathSyms p ++ ts)
  | [], _, _, _, h => h
  | [w], ts, hp, hne, h => .word (hp w List.mem_cons_self) hne h
  | w :: w2 :: ws, ts, hp, hne, h => by
    refine .word (hp w List.mem_cons_self) (by simp) (.mark ?_)
    exact writable_path (p := w2 :: ws) (fun x hx => hp x (List.mem_cons_of_mem _ hx)) hne h

theorem path_words {p : Path} (h : PathShape p) : ∀ w ∈ p, IsWord w := fun w hw => .inl (h.2 w hw)

theorem writable_semicolon : Writable [.mark .semicolon] := .mark .nil

theorem writable_broadcast {b : BroadcastD} (h : PathShape b.ref) : Writable (broadcastSyms b) := by
  refine .mark (writable_path (path_words h) (by simp [optSyms]) ?_)
  unfold optSyms
  split
  · exact .mark writable_semicolon
  · exact writable_semicolon

theorem writable_ref {p : Path} (h : PathShape p) : Writable (refSyms p) :=
  .mark (writable_path (path_words h) (by simp) writable_semicolon)

theorem writable_action {a : ActionD} (h : a.Shape) : Writable (actionSyms a) := by
  obtain ⟨h1, h2, h3, _⟩ := h
  refine .mark ?_
  have hrest : Writable (pathSyms a.response ++ (.mark .closeBracket ::
      (if a.broadcasts = [] then [.mark .semicolon] else a.broadcasts.flatMap broadcastSyms))) := by
    refine writable_path (path_words h2) (by simp) (.mark ?_)
    split
    · exact writable_semicolon
    · exact Writable.flatMap (fun b hb => writable_broadcast (h3 b hb))
  cases hc : a.conclusion with
  | none => exact hrest
  | some w => exact .word (.inl (h1 w hc)) (by simp) (.mark hrest)

theorem alias_word (t : Target) : IsWord (aliasOf t) := by
  cases t
  · exact .inl (ident_literal 'r' "ust".toList (by decide) (by decide) (by decide))
  · exact .inl (ident_literal 't' "ypescript".toList (by decide) (by decide) (by decide))

theorem writable_aliases : ∀ (ts : List Target),
    Writable (ts.map (fun t => Sym.word (aliasOf t)) ++ [.mark .semicolon])
  | [] => writable_semicolon
  | t :: ts => .word (alias_word t) (by simp) (writable_aliases ts)

theorem writable_entry {e : EntryD} (h : e.Shape) : Writable (entrySyms e) := by
  cases e with
  | producer ts =>
    exact .word (.inl (ident_literal 'P' "roducer".toList (by decide) (by decide) (by decide))) (by simp)
      (.mark (writable_aliases ts))
  | consumer ts =>
    exact .word (.inl (ident_literal 'C' "onsumer".toList (by decide) (by decide) (by decide))) (by simp)
      (.mark (writable_aliases ts))
  | selfKey p =>
    exact .word (.inl (ident_literal 'S' "elfKey".toList (by decide) (by decide) (by decide))) (by simp)
      (.mark (writable_path (path_words h) (by simp) writable_semicolon))
  | assignedKey p =>
    exact .word (.inl (ident_literal 'A' "ssignedKey".toList (by decide) (by decide) (by decide)))
      (by simp) (.mark (writable_path (path_words h) (by simp) writable_semicolon))

theorem writable_decl {d : Decl} (h : d.Shape) : Writable (declSyms d) := by
  have hcls : Writable [.mark .cls] := .mark .nil
  cases d with
  | config es =>
    refine .word (.inr ⟨"config".toList, ident_literal 'c' "onfig".toList (by decide) (by decide)
      (by decide), .inr (by decide)⟩) (by simp) (.mark ?_)
    exact (Writable.flatMap (fun e he => writable_entry (h e he))).append hcls
  | plain r => exact writable_path (path_words h.1.1) (by simp) writable_semicolon
  | announce r bs =>
    exact writable_path (path_words h.1.1) (by simp)
      (.mark ((Writable.flatMap (fun b hb => writable_ref (h.2.2.2 b hb))).append hcls))
  | request r e as =>
    obtain ⟨h1, h2, _, h3⟩ := h
    exact writable_path (path_words h1.1) (by simp) (.mark (writable_path (path_words h2) (by simp)
      (.mark ((Writable.flatMap (fun a ha => writable_action (h3 a ha))).append hcls))))
  | beacons rs =>
    refine .word (.inr ⟨"beacons".toList, ident_literal 'b' "eacons".toList (by decide) (by decide)
      (by decide), .inl (by decide)⟩) (by simp) (.mark ?_)
    exact (Writable.flatMap (fun b hb => writable_ref (h.2 b hb))).append hcls
  | event r bs =>
    obtain ⟨h1, _, _, h2⟩ := h
    refine writable_path ?_ (by simp)
      (.mark ((Writable.flatMap (fun b hb => writable_broadcast (h2 b hb))).append hcls))
    cases r with
    | nil => exact absurd rfl h1.1
    | cons w ws =>
      intro x hx
      simp only [atPath] at hx
      rcases List.mem_cons.1 hx with hx | hx
      · exact .inr ⟨w, h1.2 w List.mem_cons_self, .inl hx⟩
      · exact .inl (h1.2 x (List.mem_cons_of_mem _ hx))

theorem writable_decls {ds : List Decl} (h : ∀ d ∈ ds, d.Shape) : Writable (ds.flatMap declSyms) :=
  Writable.flatMap (fun d hd => writable_decl (h d hd))

end Verif.Flow.Syntax
