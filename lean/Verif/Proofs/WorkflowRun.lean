import Verif.Proofs.WorkflowLexer
set_option autoImplicit false
/-!
The parser on the tokens of one declaration.
-/
namespace Verif.Flow.Syntax

open Verif Verif.Flow
open Verif.Prot (Name isSpace isDigit isAlnum)
open Verif.Prot.Syntax (IdChar Ident)

abbrev toks (ts : List Sym) : List Tok := ts.map Sym.tok

/-- Names appended to a reference one by one. -/
def joins (r : Ref) (p : Path) : Ref := p.foldl joinDot r

theorem joins_ne {r : Ref} (hr : r ≠ []) : ∀ (p : Path), p ≠ [] →
    joins r p = r ++ '.' :: dotted p
  | [], h => absurd rfl h
  | [w], _ => by
    have : r.isEmpty = false := by simpa using hr
    simp [joins, joinDot, this, dotted]
  | w :: w2 :: ws, _ => by
    have he : r.isEmpty = false := by simpa using hr
    have ih := joins_ne (r := joinDot r w) (by simp [joinDot, he]) (w2 :: ws) (by simp)
    have : joins r (w :: w2 :: ws) = joins (joinDot r w) (w2 :: ws) := rfl
    rw [this, ih]
    simp [joinDot, he, dotted]

theorem ident_ne {w : Name} (h : Ident w) : w ≠ [] := by
  obtain ⟨_, _, rfl, _⟩ := h
  simp

theorem joins_nil {p : Path} (h : PathShape p) : joins [] p = dotted p := by
  obtain ⟨hne, hw⟩ := h
  match p, hne with
  | [w], _ => rfl
  | w :: w2 :: ws, _ =>
    have : joins [] (w :: w2 :: ws) = joins w (w2 :: ws) := rfl
    rw [this, joins_ne (ident_ne (hw w List.mem_cons_self)) _ (by simp)]
    rfl

theorem dotted_ne {p : Path} (h : PathShape p) : dotted p ≠ [] := by
  obtain ⟨hne, hw⟩ := h
  match p, hne with
  | [w], _ => exact ident_ne (hw w List.mem_cons_self)
  | w :: w2 :: ws, _ => simp [dotted]

theorem dotted_isEmpty {p : Path} (h : PathShape p) : (dotted p).isEmpty = false := by
  simpa using dotted_ne h

theorem run_cons (p : PState) (t : Tok) (k : List Tok) :
    run p (t :: k) = (onTok p t 1).bind (fun p2 => run p2 k) := by
  rw [run]
  cases onTok p t 1 <;> rfl

theorem onTok_opened (e : Entity) (st : Store) (pr : Prot.Store) (t : Tok) (n : Nat) :
    onTok ⟨some e, st, pr⟩ t n = feed ⟨some e, st, pr⟩ e t := rfl

/-- Names read by an entity that collects them: `put` builds the entity. -/
theorem run_path (put : Ref → List Expect → Entity) (E : List Expect) (st : Store) (pr : Prot.Store)
    (hw : ∀ r ex w, ex.contains .word = true →
      feed ⟨some (put r ex), st, pr⟩ (put r ex) (.word w) = some ⟨some (put (joinDot r w) E), st, pr⟩)
    (hd : ∀ r, feed ⟨some (put r E), st, pr⟩ (put r E) .pathDelimiter =
      some ⟨some (put r [.word]), st, pr⟩) :
    ∀ (p : Path) (r : Ref) (ex : List Expect) (k : List Tok), p ≠ [] → ex.contains .word = true →
    run ⟨some (put r ex), st, pr⟩ (toks (pathSyms p) ++ k) =
      run ⟨some (put (joins r p) E), st, pr⟩ k
  | [], _, _, _, h, _ => absurd rfl h
  | [w], r, ex, k, _, hex => by
    simp only [toks, pathSyms, List.map_cons, List.map_nil, List.cons_append, List.nil_append,
      run_cons, onTok_opened, Sym.tok, hw r ex w hex, Option.bind_some]
    rfl
  | w :: w2 :: ws, r, ex, k, _, hex => by
    have ih := run_path put E st pr hw hd (w2 :: ws) (joinDot r w) [.word] k (by simp) rfl
    simp only [toks, pathSyms, List.map_cons, List.cons_append, run_cons, onTok_opened, Sym.tok,
      Mark.tok, hw r ex w hex, hd, Option.bind_some]
    exact ih

/-! ### Beacons -/

theorem run_ref (bs : List Broadcast) (ex : List Expect) (st : Store) (pr : Prot.Store) (p : Path)
    (hp : PathShape p) (hex : ex.contains .arrow = true) (k : List Tok) :
    run ⟨some (.beacons ⟨bs, ex, none, false⟩), st, pr⟩ (toks (refSyms p) ++ k) =
      run ⟨some (.beacons ⟨bs ++ [⟨dotted p, false⟩], [.arrow, .cls], none, false⟩), st, pr⟩ k := by
  simp only [refSyms, toks, List.map_cons, List.map_append, List.map_nil, List.cons_append,
    List.nil_append,
    List.append_assoc, run_cons, onTok_opened, Sym.tok, Mark.tok, feed, Beacons.next, hex, if_true,
    keep, Option.bind_some, Bool.false_eq_true, if_false]
  have h := run_path (fun r ex => .beacons ⟨bs, ex, some r, false⟩) [.word, .pathDelimiter, .semicolon]
    st pr (by intros; rfl) (by intros; rfl) p [] [.word, .pathDelimiter] (Tok.semicolon :: k) hp.1 rfl
  simp only [toks] at h
  rw [h, joins_nil hp]
  simp only [run_cons, onTok_opened, feed, Beacons.next, dotted_isEmpty hp]
  rfl

theorem run_refs (st : Store) (pr : Prot.Store) : ∀ (ps : List Path) (bs : List Broadcast)
    (ex : List Expect) (k : List Tok), (∀ p ∈ ps, PathShape p) → ex.contains .arrow = true →
    ps ≠ [] →
    run ⟨some (.beacons ⟨bs, ex, none, false⟩), st, pr⟩ (toks (ps.flatMap refSyms) ++ k) =
      run ⟨some (.beacons ⟨bs ++ ps.map (fun p => ⟨dotted p, false⟩), [.arrow, .cls], none, false⟩),
        st, pr⟩ k
  | [], _, _, _, _, _, h => absurd rfl h
  | [p], bs, ex, k, hs, hex, _ => by
    simp only [List.flatMap_cons, List.flatMap_nil, List.append_nil, List.map_cons, List.map_nil]
    exact run_ref bs ex st pr p (hs p List.mem_cons_self) hex k
  | p :: p2 :: ps, bs, ex, k, hs, hex, _ => by
    have ih := run_refs st pr (p2 :: ps) (bs ++ [⟨dotted p, false⟩]) [.arrow, .cls] k
      (fun q hq => hs q (List.mem_cons_of_mem _ hq)) rfl (by simp)
    rw [List.flatMap_cons, toks, List.map_append, List.append_assoc,
      run_ref bs ex st pr p (hs p List.mem_cons_self) hex, ih]
    simp

/-- The store and protocol after a declaration, if it is accepted. -/
def go (r : Option (Store × Prot.Store)) (k : List Tok) : Option PState :=
  r.bind (fun x => run ⟨none, x.1, x.2⟩ k)

theorem run_beacons (st : Store) (pr : Prot.Store) (ps : List Path) (k : List Tok)
    (h : (Decl.beacons ps).Shape) :
    run ⟨none, st, pr⟩ (toks (declSyms (.beacons ps)) ++ k) =
      go (if ps.all (fun p => defined pr (dotted p)) then
        (st.addBeacons (ps.map (fun p => ⟨dotted p, false⟩))).map (fun s => (s, pr)) else none) k := by
  obtain ⟨hne, hs⟩ := h
  have h1 : run ⟨none, st, pr⟩ (toks (declSyms (.beacons ps)) ++ k) =
      run ⟨some (.beacons ⟨[], [.arrow], none, false⟩), st, pr⟩
        (toks (ps.flatMap refSyms) ++ (Tok.cls :: k)) := by
    simp only [declSyms, toks, List.map_cons, List.map_append, List.cons_append, List.append_assoc]
    rfl
  rw [h1, run_refs st pr ps [] [.arrow] _ hs rfl hne]
  have hemp : (ps.map (fun p => (⟨dotted p, false⟩ : Broadcast))).isEmpty = false := by
    cases ps
    · exact absurd rfl hne
    · rfl
  have hall : (ps.map (fun p => (⟨dotted p, false⟩ : Broadcast))).all
      (fun x => defined pr x.reference) = ps.all (fun p => defined pr (dotted p)) := by
    rw [List.all_map]; rfl
  have hc : ([Expect.arrow, .cls] : List Expect).contains .cls = true := rfl
  simp only [List.nil_append, run_cons, onTok_opened, feed, Beacons.next, Beacons.close, hemp, hall,
    hc, if_true, Bool.false_eq_true, if_false]
  cases ps.all (fun p => defined pr (dotted p)) with
  | false => rfl
  | true =>
    simp only [if_true, keep, go]
    cases st.addBeacons (ps.map (fun p => ⟨dotted p, false⟩)) <;> rfl

/-! ### Events -/

theorem run_eventBroadcast (rf : Option Ref) (bs : List Broadcast) (ex : List Expect) (st : Store)
    (pr : Prot.Store) (b : BroadcastD) (hp : PathShape b.ref) (hex : ex.contains .arrow = true)
    (k : List Tok) :
    run ⟨some (.event ⟨rf, bs, ex, .nothing, false⟩), st, pr⟩ (toks (broadcastSyms b) ++ k) =
      run ⟨some (.event ⟨rf, bs ++ [broadcastOf b], [.arrow, .cls], .nothing, false⟩), st, pr⟩ k := by
  simp only [broadcastSyms, toks, List.map_cons, List.map_append, List.map_nil, List.cons_append,
    List.nil_append,
    List.append_assoc, run_cons, onTok_opened, Sym.tok, Mark.tok, feed, Event.next, hex, if_true,
    keep, Option.bind_some, Bool.false_eq_true, if_false]
  have h := run_path (fun r ex => .event ⟨rf, bs, ex, .broadcast ⟨r, false⟩, false⟩)
    [.word, .pathDelimiter, .semicolon, .question]
    st pr (by intros; rfl) (by intros; rfl) b.ref [] [.word, .pathDelimiter]
    ((optSyms b.optional).map Sym.tok ++ (Tok.semicolon :: k)) hp.1 rfl
  simp only [toks] at h
  rw [h, joins_nil hp]
  have he := dotted_isEmpty hp
  obtain ⟨ref, opt⟩ := b
  simp only at he
  cases opt
  · simp only [optSyms, Bool.false_eq_true, if_false, List.map_nil, List.nil_append,
      run_cons, onTok_opened, feed, Event.next, he]
    rfl
  · simp only [optSyms, if_true, List.map_cons, List.map_nil, List.nil_append, List.cons_append,
      run_cons, onTok_opened, feed, Sym.tok, Mark.tok, Event.next, he, Bool.not_false]
    have h1 : ([Expect.word, .pathDelimiter, .semicolon, .question] : List Expect).contains .question
      = true := rfl
    simp only [h1, if_true, keep, Bool.false_eq_true, if_false, Option.bind_some, onTok_opened, feed,
      Event.next, he]
    rfl

theorem run_eventBroadcasts (rf : Option Ref) (st : Store) (pr : Prot.Store) :
    ∀ (ds : List BroadcastD) (bs : List Broadcast)
    (ex : List Expect) (k : List Tok), (∀ p ∈ ds, PathShape p.ref) → ex.contains .arrow = true →
    ds ≠ [] →
    run ⟨some (.event ⟨rf, bs, ex, .nothing, false⟩), st, pr⟩ (toks (ds.flatMap broadcastSyms) ++ k) =
      run ⟨some (.event ⟨rf, bs ++ ds.map broadcastOf, [.arrow, .cls], .nothing, false⟩), st, pr⟩ k
  | [], _, _, _, _, _, h => absurd rfl h
  | [p], bs, ex, k, hs, hex, _ => by
    simp only [List.flatMap_cons, List.flatMap_nil, List.append_nil, List.map_cons, List.map_nil]
    exact run_eventBroadcast rf bs ex st pr p (hs p List.mem_cons_self) hex k
  | p :: p2 :: ps, bs, ex, k, hs, hex, _ => by
    have ih := run_eventBroadcasts rf st pr (p2 :: ps) (bs ++ [broadcastOf p]) [.arrow, .cls] k
      (fun q hq => hs q (List.mem_cons_of_mem _ hq)) rfl (by simp)
    rw [List.flatMap_cons, toks, List.map_append, List.append_assoc,
      run_eventBroadcast rf bs ex st pr p (hs p List.mem_cons_self) hex, ih]
    simp

theorem isAlnum_limited {c : Char} (h : isLimited c = true) : isAlnum c = false := by
  simp only [isLimited, Bool.or_eq_true, beq_iff_eq] at h
  rcases h with rfl | rfl <;> rfl

theorem open_event (w : Name) (hb : w ≠ "beacons".toList) :
    openEntity ('@' :: w) = some (.event (Event.new w)) := by
  have h1 : ('@' :: w) ≠ "&config".toList := by
    intro h
    have e : "&config".toList = '&' :: "config".toList := by decide
    rw [e] at h
    exact absurd (List.cons.inj h).1 (by decide)
  have h2 : ('@' :: w).all isAlnum = false := by
    rw [List.all_cons, isAlnum_limited rfl]; rfl
  have h3 : ('@' :: w) ≠ "@beacons".toList := by
    intro h
    have e : "@beacons".toList = '@' :: "beacons".toList := by decide
    rw [e] at h
    exact hb (List.cons.inj h).2
  unfold openEntity
  rw [if_neg h1, h2, if_neg h3]
  rfl

/-- The event of a declaration. -/
def eventEntity (r : Path) (bs : List BroadcastD) : Event :=
  ⟨some (dotted r), bs.map broadcastOf, [], .nothing, true⟩

theorem run_event (st : Store) (pr : Prot.Store) (r : Path) (bs : List BroadcastD) (k : List Tok)
    (h : (Decl.event r bs).Shape) :
    run ⟨none, st, pr⟩ (toks (declSyms (.event r bs)) ++ k) =
      go (if (isDefaultEvent (dotted r) || defined pr (dotted r)) &&
          bs.all (fun b => defined pr (dotted b.ref)) then
        (st.addEvent (eventEntity r bs)).map (fun s => (s, pr)) else none) k := by
  obtain ⟨hr, hb, hne, hs⟩ := h
  have hE : ∀ (ex : List Expect) (rf : Ref), ex.contains .opn = true → rf.isEmpty = false →
      run ⟨some (.event ⟨none, [], ex, .reference rf, false⟩), st, pr⟩
        (Tok.opn :: (toks (bs.flatMap broadcastSyms) ++ (Tok.cls :: k))) =
      run ⟨some (.event ⟨some rf, bs.map broadcastOf, [.arrow, .cls], .nothing, false⟩), st, pr⟩
        (Tok.cls :: k) := by
    intro ex rf h1 h2
    simp only [run_cons, onTok_opened, feed, Event.next, h1, h2, if_true, if_false,
      Bool.false_eq_true, keep, Option.bind_some]
    rw [run_eventBroadcasts (some rf) st pr bs [] [.arrow] _ hs rfl hne, run_cons]
    rfl
  have h1 : run ⟨none, st, pr⟩ (toks (declSyms (.event r bs)) ++ k) =
      run ⟨some (.event ⟨some (dotted r), bs.map broadcastOf, [.arrow, .cls], .nothing, false⟩), st, pr⟩
        (Tok.cls :: k) := by
    have hsplit : toks (declSyms (.event r bs)) ++ k = toks (pathSyms (atPath r)) ++
        (Tok.opn :: (toks (bs.flatMap broadcastSyms) ++ (Tok.cls :: k))) := by
      simp [declSyms, toks, Sym.tok, Mark.tok]
    rw [hsplit]
    have hshape := hr
    obtain ⟨hrne, hrw⟩ := hr
    match r, hrne with
    | [w], _ =>
      have hb' : w ≠ "beacons".toList := fun e => hb (by simp [e])
      have : toks (pathSyms (atPath [w])) ++
        (Tok.opn :: (toks (bs.flatMap broadcastSyms) ++ (Tok.cls :: k))) =
          Tok.word ('@' :: w) :: (Tok.opn :: (toks (bs.flatMap broadcastSyms) ++ (Tok.cls :: k))) := rfl
      rw [this, run_cons]
      have ho : onTok ⟨none, st, pr⟩ (.word ('@' :: w)) 1 =
          some ⟨some (.event (Event.new w)), st, pr⟩ := by
        simp only [onTok, open_event w hb']
        rfl
      rw [ho, Option.bind_some]
      exact hE _ w rfl (by simpa using ident_ne (hrw w List.mem_cons_self))
    | w :: w2 :: ws, _ =>
      have hb' : w ≠ "beacons".toList := fun e => hb (by simp [e])
      have : toks (pathSyms (atPath (w :: w2 :: ws))) ++
        (Tok.opn :: (toks (bs.flatMap broadcastSyms) ++ (Tok.cls :: k))) =
          Tok.word ('@' :: w) :: Tok.pathDelimiter :: (toks (pathSyms (w2 :: ws)) ++
            (Tok.opn :: (toks (bs.flatMap broadcastSyms) ++ (Tok.cls :: k)))) := rfl
      rw [this, run_cons]
      have ho : onTok ⟨none, st, pr⟩ (.word ('@' :: w)) 1 =
          some ⟨some (.event (Event.new w)), st, pr⟩ := by
        simp only [onTok, open_event w hb']
        rfl
      rw [ho, Option.bind_some, run_cons]
      have hd : onTok ⟨some (.event (Event.new w)), st, pr⟩ .pathDelimiter 1 =
          some ⟨some (.event ⟨none, [], [.word], .reference w, false⟩), st, pr⟩ := rfl
      rw [hd, Option.bind_some]
      have hp := run_path (fun r ex => .event ⟨none, [], ex, .reference r, false⟩)
        [.word, .pathDelimiter, .opn, .semicolon] st pr (by intros; rfl) (by intros; rfl)
        (w2 :: ws) w [.word] (Tok.opn :: (toks (bs.flatMap broadcastSyms) ++ (Tok.cls :: k)))
        (by simp) rfl
      rw [hp, joins_ne (ident_ne (hrw w List.mem_cons_self)) _ (by simp)]
      exact hE _ _ rfl (by simp)
  rw [h1, run_cons]
  have hemp : (bs.map broadcastOf).isEmpty = false := by
    cases bs
    · exact absurd rfl hne
    · rfl
  have hall : (bs.map broadcastOf).all (fun x => defined pr x.reference) =
      bs.all (fun b => defined pr (dotted b.ref)) := by
    rw [List.all_map]; rfl
  have hc : ([Expect.arrow, .cls] : List Expect).contains .cls = true := rfl
  simp only [onTok_opened, feed, Event.next, Event.close, hemp, hall, hc, if_true,
    Bool.false_eq_true, if_false, Option.isNone_some]
  cases isDefaultEvent (dotted r) <;> cases defined pr (dotted r) <;>
    cases bs.all (fun b => defined pr (dotted b.ref)) <;>
    simp [go, keep, eventEntity] <;>
    (cases st.addEvent _ <;> rfl)

end Verif.Flow.Syntax
