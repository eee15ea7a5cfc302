import Verif.Proofs.WorkflowRun
set_option autoImplicit false
/-!
The parser on the tokens of a request and of the config.
-/
namespace Verif.Flow.Syntax

open Verif Verif.Flow
open Verif.Prot (Name isSpace isDigit isAlnum)
open Verif.Prot.Syntax (IdChar Ident)

theorem open_request {w : Name} (hw : Ident w) (hu : ∀ c ∈ w, c ≠ '_') :
    openEntity w = some (.request (Request.new w)) := by
  obtain ⟨d, ds, rfl, hd, hall⟩ := hw
  have h1 : (d :: ds) ≠ "&config".toList := by
    intro h
    have e : "&config".toList = '&' :: "config".toList := by decide
    rw [e] at h
    have hl := (idChar_class (hall d List.mem_cons_self)).2.2.2.2.2
    rw [(List.cons.inj h).1] at hl
    exact absurd hl (by decide)
  have h2 : (d :: ds).all isAlnum = true := by
    rw [List.all_eq_true]
    intro c hc
    rcases hall c hc with h | h
    · exact h
    · exact absurd h (hu c hc)
  unfold openEntity
  rw [if_neg h1, h2]
  rfl

/-- Expectations behind the reference of a request with several names. -/
def headExpect : List Expect := [.word, .pathDelimiter, .semicolon, .exclamation, .opn]

theorem run_requestHead (st : Store) (pr : Prot.Store) (r : Path) (k : List Tok)
    (h : RequestShape r) : ∃ ex : List Expect, ex.contains .exclamation = true ∧
      (2 ≤ r.length → ex = headExpect) ∧
      run ⟨none, st, pr⟩ (toks (pathSyms r) ++ k) =
        run ⟨some (.request ⟨none, none, [], [], ex, .request (dotted r), false⟩), st, pr⟩ k := by
  obtain ⟨⟨hne, hw⟩, hu⟩ := h
  match r, hne with
  | [w], _ =>
    have ho : onTok ⟨none, st, pr⟩ (.word w) 1 = some ⟨some (.request (Request.new w)), st, pr⟩ := by
      simp only [onTok, open_request (hw w List.mem_cons_self) (hu w rfl)]
      rfl
    refine ⟨[.word, .pathDelimiter, .exclamation], rfl, by simp, ?_⟩
    have : toks (pathSyms [w]) ++ k = Tok.word w :: k := rfl
    rw [this, run_cons, ho, Option.bind_some]
    rfl
  | w :: w2 :: ws, _ =>
    have ho : onTok ⟨none, st, pr⟩ (.word w) 1 = some ⟨some (.request (Request.new w)), st, pr⟩ := by
      simp only [onTok, open_request (hw w List.mem_cons_self) (hu w rfl)]
      rfl
    refine ⟨headExpect, rfl, fun _ => rfl, ?_⟩
    have : toks (pathSyms (w :: w2 :: ws)) ++ k =
      Tok.word w :: Tok.pathDelimiter :: (toks (pathSyms (w2 :: ws)) ++ k) := rfl
    rw [this, run_cons, ho, Option.bind_some, run_cons]
    have hd : onTok ⟨some (.request (Request.new w)), st, pr⟩ .pathDelimiter 1 =
        some ⟨some (.request ⟨none, none, [], [], [.word], .request w, false⟩), st, pr⟩ := rfl
    rw [hd, Option.bind_some]
    have hp := run_path (fun r ex => .request ⟨none, none, [], [], ex, .request r, false⟩)
      headExpect st pr (by intros; rfl) (by intros; rfl) (w2 :: ws) w [.word] k (by simp) rfl
    rw [hp, joins_ne (ident_ne (hw w List.mem_cons_self)) _ (by simp)]
    rfl

/-- Close a request and put it into the store. -/
def closeRequest (st : Store) (pr : Prot.Store) (r : Request) : Option (Store × Prot.Store) :=
  (r.close pr).bind (fun r => (st.addRequest r).map (fun s => (s, pr)))

theorem close_closed {r r2 : Request} {pr : Prot.Store} (h : r.close pr = some r2) :
    r2.closed = true := by
  unfold Request.close at h
  repeat' split at h
  all_goals first
    | (simp only [reduceCtorEq] at h; done)
    | (simp only [Option.some.injEq] at h; rw [← h])

/-- A token that closes a request. -/
theorem run_close (st : Store) (pr : Prot.Store) (r r1 : Request) (t : Tok) (k : List Tok)
    (h : r.next pr t = r1.close pr) :
    run ⟨some (.request r), st, pr⟩ (t :: k) = go (closeRequest st pr r1) k := by
  simp only [run_cons, onTok_opened, feed, h, closeRequest, go]
  cases hc : r1.close pr with
  | none => rfl
  | some r2 =>
    simp only [keep, close_closed hc, if_true, Option.bind_some]
    cases st.addRequest r2 <;> rfl

/-- A request before it is closed. -/
def openRequest (r : Path) (e : Option Path) (as : List Action) (bs : List Path) : Request :=
  ⟨some (dotted r), e.map dotted, as, bs.map dotted, [], .nothing, false⟩

/-- Closing looks only at reference, error, actions and broadcasts. -/
theorem close_congr {r r2 : Request} (pr : Prot.Store) (h1 : r.request = r2.request)
    (h2 : r.error = r2.error) (h3 : r.actions = r2.actions) (h4 : r.broadcasts = r2.broadcasts) :
    r.close pr = r2.close pr := by
  simp only [Request.close, h1, h2, h3, h4]

theorem run_plain (st : Store) (pr : Prot.Store) (r : Path) (k : List Tok)
    (h : (Decl.plain r).Shape) :
    run ⟨none, st, pr⟩ (toks (declSyms (.plain r)) ++ k) =
      go (closeRequest st pr (openRequest r none [] [])) k := by
  obtain ⟨hr, hl⟩ := h
  obtain ⟨ex, _, hex, hrun⟩ := run_requestHead st pr r (Tok.semicolon :: k) hr
  have hs : toks (declSyms (.plain r)) ++ k = toks (pathSyms r) ++ Tok.semicolon :: k := by
    simp [declSyms, toks, Sym.tok, Mark.tok]
  rw [hs, hrun, hex hl]
  apply run_close
  have hc : headExpect.contains .semicolon = true := rfl
  simp only [Request.next, hc, if_true, Request.onSemicolon, dotted_isEmpty hr.1, Bool.false_eq_true,
    if_false]
  exact close_congr pr rfl rfl rfl rfl

theorem run_announceRef (rq : Option Ref) (bs : List Ref) (ex : List Expect) (st : Store)
    (pr : Prot.Store) (p : Path)
    (hp : PathShape p) (hex : ex.contains .arrow = true) (k : List Tok) :
    run ⟨some (.request ⟨rq, none, [], bs, ex, .nothing, false⟩), st, pr⟩ (toks (refSyms p) ++ k) =
      run ⟨some (.request ⟨rq, none, [], bs ++ [dotted p], [.arrow, .cls], .nothing, false⟩), st, pr⟩
        k := by
  have hs : toks (refSyms p) ++ k = Tok.arrow :: (toks (pathSyms p) ++ Tok.semicolon :: k) := by
    simp [refSyms, toks, Sym.tok, Mark.tok]
  rw [hs, run_cons]
  have h1 : onTok ⟨some (.request ⟨rq, none, [], bs, ex, .nothing, false⟩), st, pr⟩ .arrow 1 =
      some ⟨some (.request ⟨rq, none, [], bs, [.word, .pathDelimiter], .broadcast [], false⟩), st, pr⟩ := by
    simp only [onTok_opened, feed, Request.next, hex, if_true]
    rfl
  rw [h1, Option.bind_some]
  have h := run_path (fun r ex => .request ⟨rq, none, [], bs, ex, .broadcast r, false⟩)
    [.word, .pathDelimiter, .semicolon] st pr (by intros; rfl) (by intros; rfl) p []
    [.word, .pathDelimiter] (Tok.semicolon :: k) hp.1 rfl
  rw [h, joins_nil hp, run_cons]
  rfl

theorem run_announceRefs (rq : Option Ref) (st : Store) (pr : Prot.Store) :
    ∀ (ps : List Path) (bs : List Ref)
    (ex : List Expect) (k : List Tok), (∀ p ∈ ps, PathShape p) → ex.contains .arrow = true →
    ps ≠ [] →
    run ⟨some (.request ⟨rq, none, [], bs, ex, .nothing, false⟩), st, pr⟩
      (toks (ps.flatMap refSyms) ++ k) =
      run ⟨some (.request ⟨rq, none, [], bs ++ ps.map dotted, [.arrow, .cls], .nothing, false⟩),
        st, pr⟩ k
  | [], _, _, _, _, _, h => absurd rfl h
  | [p], bs, ex, k, hs, hex, _ => by
    simp only [List.flatMap_cons, List.flatMap_nil, List.append_nil, List.map_cons, List.map_nil]
    exact run_announceRef rq bs ex st pr p (hs p List.mem_cons_self) hex k
  | p :: p2 :: ps, bs, ex, k, hs, hex, _ => by
    have ih := run_announceRefs rq st pr (p2 :: ps) (bs ++ [dotted p]) [.arrow, .cls] k
      (fun q hq => hs q (List.mem_cons_of_mem _ hq)) rfl (by simp)
    rw [List.flatMap_cons, toks, List.map_append, List.append_assoc,
      run_announceRef rq bs ex st pr p (hs p List.mem_cons_self) hex, ih]
    simp

theorem run_announce (st : Store) (pr : Prot.Store) (r : Path) (bs : List Path) (k : List Tok)
    (h : (Decl.announce r bs).Shape) :
    run ⟨none, st, pr⟩ (toks (declSyms (.announce r bs)) ++ k) =
      go (closeRequest st pr (openRequest r none [] bs)) k := by
  obtain ⟨hr, hl, hne, hb⟩ := h
  have hs : toks (declSyms (.announce r bs)) ++ k = toks (pathSyms r) ++
      Tok.opn :: (toks (bs.flatMap refSyms) ++ Tok.cls :: k) := by
    simp [declSyms, toks, Sym.tok, Mark.tok]
  obtain ⟨ex, _, hex, hrun⟩ := run_requestHead st pr r
    (Tok.opn :: (toks (bs.flatMap refSyms) ++ Tok.cls :: k)) hr
  rw [hs, hrun, hex hl, run_cons]
  have h1 : onTok ⟨some (.request ⟨none, none, [], [], headExpect, .request (dotted r), false⟩),
      st, pr⟩ .opn 1 =
      some ⟨some (.request ⟨some (dotted r), none, [], [], [.arrow], .nothing, false⟩), st, pr⟩ := by
    have hc : headExpect.contains .opn = true := rfl
    simp only [onTok_opened, feed, Request.next, hc, if_true, dotted_isEmpty hr.1, Bool.false_eq_true,
      if_false]
    rfl
  rw [h1, Option.bind_some, run_announceRefs _ st pr bs [] [.arrow] _ hb rfl hne]
  apply run_close
  have hc : ([Expect.arrow, .cls] : List Expect).contains .cls = true := rfl
  simp only [Request.next, hc, if_true]
  exact close_congr pr rfl rfl rfl rfl

/-! ### Actions -/

/-- The action of a declaration. -/
def actionEntity (a : ActionD) : Action :=
  ⟨a.conclusion, some (dotted a.response), a.broadcasts.map broadcastOf, [], false⟩

/-- The actions read so far, with the pending one. -/
def flush (A : List Action) : ReqPending → Option (List Action)
  | .nothing => some A
  | .action b => if b.valid then some (A ++ [b]) else none
  | _ => none

theorem run_openBracket (rq er : Option Ref) (A acts : List Action) (pend : ReqPending)
    (ex : List Expect) (st : Store) (pr : Prot.Store) (k : List Tok)
    (hf : flush A pend = some acts) (hex : ex.contains .openBracket = true) :
    run ⟨some (.request ⟨rq, er, A, [], ex, pend, false⟩), st, pr⟩ (Tok.openBracket :: k) =
      run ⟨some (.request ⟨rq, er, acts, [], [.word], .action Action.new, false⟩), st, pr⟩ k := by
  rw [run_cons]
  have h : onTok ⟨some (.request ⟨rq, er, A, [], ex, pend, false⟩), st, pr⟩ .openBracket 1 =
      some ⟨some (.request ⟨rq, er, acts, [], [.word], .action Action.new, false⟩), st, pr⟩ := by
    simp only [onTok_opened, feed, Request.next, hex, if_true]
    cases pend with
    | nothing =>
      simp only [flush, Option.some.injEq] at hf
      subst hf
      rfl
    | action b =>
      simp only [flush] at hf
      split at hf
      · rename_i hv
        simp only [Option.some.injEq] at hf
        subst hf
        simp only [hv, if_true]
        rfl
      · simp at hf
    | _ => simp [flush] at hf
  rw [h, Option.bind_some]

/-- Whether no reference of a list of broadcasts is in `seen` or occurs twice. -/
def fresh (seen : List Ref) : List BroadcastD → Bool
  | [] => true
  | b :: bs => !seen.contains (dotted b.ref) && fresh (seen ++ [dotted b.ref]) bs

theorem run_actionBroadcasts (rq er : Option Ref) (acts : List Action) (c : Name) (resp : Ref)
    (st : Store) (pr : Prot.Store) : ∀ (ds : List BroadcastD) (bs : List Broadcast)
    (ex : List Expect) (k : List Tok), (∀ b ∈ ds, PathShape b.ref) → ex.contains .arrow = true →
    ds ≠ [] →
    run ⟨some (.request ⟨rq, er, acts, [], ex, .action ⟨some c, some resp, bs, [], false⟩, false⟩),
        st, pr⟩ (toks (ds.flatMap broadcastSyms) ++ k) =
      if fresh (bs.map Broadcast.reference) ds then
        run ⟨some (.request ⟨rq, er, acts, [], [.cls, .openBracket, .arrow],
          .action ⟨some c, some resp, bs ++ ds.map broadcastOf, [], false⟩, false⟩), st, pr⟩ k
      else none := by
  have one : ∀ (b : BroadcastD) (bs : List Broadcast) (ex : List Expect) (k : List Tok),
      PathShape b.ref → ex.contains .arrow = true →
      run ⟨some (.request ⟨rq, er, acts, [], ex, .action ⟨some c, some resp, bs, [], false⟩, false⟩),
        st, pr⟩ (toks (broadcastSyms b) ++ k) =
      if (bs.map Broadcast.reference).contains (dotted b.ref) then none
      else run ⟨some (.request ⟨rq, er, acts, [], [.cls, .openBracket, .arrow],
          .action ⟨some c, some resp, bs ++ [broadcastOf b], [], false⟩, false⟩), st, pr⟩ k := by
    intro b bs ex k hp hex
    have hs : toks (broadcastSyms b) ++ k = Tok.arrow :: (toks (pathSyms b.ref) ++
        (toks (optSyms b.optional) ++ Tok.semicolon :: k)) := by
      simp [broadcastSyms, toks, Sym.tok, Mark.tok]
    rw [hs, run_cons]
    have h1 : onTok ⟨some (.request ⟨rq, er, acts, [], ex,
        .action ⟨some c, some resp, bs, [], false⟩, false⟩), st, pr⟩ .arrow 1 =
        some ⟨some (.request ⟨rq, er, acts, [], [.word],
          .action ⟨some c, some resp, bs, [], false⟩, false⟩), st, pr⟩ := by
      simp only [onTok_opened, feed, Request.next, hex, if_true]
      rfl
    rw [h1, Option.bind_some]
    have h := run_path (fun r ex => .request ⟨rq, er, acts, [], ex,
        .action ⟨some c, some resp, bs, r, false⟩, false⟩)
      [.pathDelimiter, .word, .semicolon, .question] st pr (by intros; rfl) (by intros; rfl) b.ref []
      [.word] (toks (optSyms b.optional) ++ Tok.semicolon :: k) hp.1 rfl
    rw [h, joins_nil hp]
    have h2 : ∀ (ex : List Expect) (opt : Bool), ex.contains .semicolon = true →
        run ⟨some (.request ⟨rq, er, acts, [], ex,
          .action ⟨some c, some resp, bs, dotted b.ref, opt⟩, false⟩), st, pr⟩ (Tok.semicolon :: k) =
        if (bs.map Broadcast.reference).contains (dotted b.ref) then none
        else run ⟨some (.request ⟨rq, er, acts, [], [.cls, .openBracket, .arrow],
          .action ⟨some c, some resp, bs ++ [⟨dotted b.ref, opt⟩], [], false⟩, false⟩), st, pr⟩ k := by
      intro ex opt hex2
      have hany : bs.any (fun x => x.reference == dotted b.ref) =
          (bs.map Broadcast.reference).contains (dotted b.ref) := by
        rw [List.contains_eq_any_beq, List.any_map]
        congr 1
        funext x
        simp only [Function.comp]
        rw [Bool.eq_iff_iff]
        simp only [beq_iff_eq]
        exact eq_comm
      simp only [run_cons, onTok_opened, feed, Request.next, hex2, if_true, Request.onSemicolon,
        dotted_isEmpty hp, Bool.false_eq_true, if_false, hany]
      cases (bs.map Broadcast.reference).contains (dotted b.ref) <;> rfl
    cases hopt : b.optional with
    | false =>
      have : toks (optSyms false) ++ Tok.semicolon :: k = Tok.semicolon :: k := rfl
      rw [this, h2 _ _ rfl]
      simp [broadcastOf, hopt]
    | true =>
      have : toks (optSyms true) ++ Tok.semicolon :: k = Tok.question :: Tok.semicolon :: k := rfl
      rw [this, run_cons]
      have h3 : onTok ⟨some (.request ⟨rq, er, acts, [], [.pathDelimiter, .word, .semicolon, .question],
          .action ⟨some c, some resp, bs, dotted b.ref, false⟩, false⟩), st, pr⟩ .question 1 =
          some ⟨some (.request ⟨rq, er, acts, [], [.semicolon],
            .action ⟨some c, some resp, bs, dotted b.ref, true⟩, false⟩), st, pr⟩ := rfl
      rw [h3, Option.bind_some, h2 _ _ rfl]
      simp [broadcastOf, hopt]
  intro ds
  induction ds with
  | nil => intro _ _ _ _ _ h; exact absurd rfl h
  | cons b ds ih =>
    intro bs ex k hs hex _
    rw [List.flatMap_cons, toks, List.map_append, List.append_assoc,
      one b bs ex _ (hs b List.mem_cons_self) hex]
    simp only [fresh]
    by_cases hc : (bs.map Broadcast.reference).contains (dotted b.ref) = true
    · simp only [hc, if_true, Bool.not_true, Bool.false_and, Bool.false_eq_true, if_false]
    · rw [Bool.not_eq_true] at hc
      simp only [hc, Bool.false_eq_true, if_false, Bool.not_false, Bool.true_and]
      cases ds with
      | nil => simp [fresh]
      | cons b2 ds =>
        have := ih (bs ++ [broadcastOf b]) [.cls, .openBracket, .arrow] k
          (fun x hx => hs x (List.mem_cons_of_mem _ hx)) rfl (by simp)
        rw [this]
        simp [broadcastOf]

/-- One action: the actions read so far grow by it. -/
theorem run_action (rq er : Option Ref) (a : ActionD) (ha : a.Shape) (A acts : List Action)
    (pend : ReqPending) (ex : List Expect) (st : Store) (pr : Prot.Store) (k : List Tok)
    (hf : flush A pend = some acts) (hex : ex.contains .openBracket = true) :
    ∃ A2 pend2 ex2, flush A2 pend2 = some (acts ++ [actionEntity a]) ∧
      ex2.contains Expect.openBracket = true ∧ ex2.contains Expect.cls = true ∧
      run ⟨some (.request ⟨rq, er, A, [], ex, pend, false⟩), st, pr⟩ (toks (actionSyms a) ++ k) =
        if fresh [] a.broadcasts then
          run ⟨some (.request ⟨rq, er, A2, [], ex2, pend2, false⟩), st, pr⟩ k
        else none := by
  obtain ⟨hcon, hresp, hbs, hnone⟩ := ha
  obtain ⟨con, resp, bs⟩ := a
  simp only at hcon hresp hbs hnone
  let tail : List Tok := toks (if bs = [] then [.mark .semicolon] else bs.flatMap broadcastSyms)
  have hs : toks (actionSyms ⟨con, resp, bs⟩) ++ k = Tok.openBracket :: (toks (conclusionSyms con) ++
      (toks (pathSyms resp) ++ (Tok.closeBracket :: (tail ++ k)))) := by
    simp only [actionSyms, toks, tail, List.map_cons, List.map_append, List.cons_append,
      List.append_assoc]
    rfl
  have h1 : run ⟨some (.request ⟨rq, er, A, [], ex, pend, false⟩), st, pr⟩
      (toks (actionSyms ⟨con, resp, bs⟩) ++ k) =
      run ⟨some (.request ⟨rq, er, acts, [], [.arrow, .semicolon],
        .action ⟨con, some (dotted resp), [], [], false⟩, false⟩), st, pr⟩ (tail ++ k) := by
    rw [hs, run_openBracket rq er A acts pend ex st pr _ hf hex]
    have hclose : ∀ (ex : List Expect), ex.contains .closeBracket = true →
        run ⟨some (.request ⟨rq, er, acts, [], ex, .action ⟨con, none, [], dotted resp, false⟩, false⟩),
          st, pr⟩ (Tok.closeBracket :: (tail ++ k)) =
        run ⟨some (.request ⟨rq, er, acts, [], [.arrow, .semicolon],
          .action ⟨con, some (dotted resp), [], [], false⟩, false⟩), st, pr⟩ (tail ++ k) := by
      intro ex hx
      simp only [run_cons, onTok_opened, feed, Request.next, hx, if_true, dotted_isEmpty hresp,
        Bool.false_eq_true, if_false]
      rfl
    cases con with
    | none =>
      have hp := run_path (fun r ex => .request ⟨rq, er, acts, [], ex,
          .action ⟨none, none, [], r, false⟩, false⟩)
        [.pathDelimiter, .word, .arrow, .closeBracket] st pr (by intros; rfl) (by intros; rfl) resp []
        [.word] (Tok.closeBracket :: (tail ++ k)) hresp.1 rfl
      have hn : toks (conclusionSyms none) = [] := rfl
      rw [hn, List.nil_append, Action.new, hp, joins_nil hresp]
      exact hclose _ rfl
    | some w =>
      have hw := hcon w rfl
      have hn : toks (conclusionSyms (some w)) ++
          (toks (pathSyms resp) ++ (Tok.closeBracket :: (tail ++ k))) =
          Tok.word w :: Tok.arrow :: (toks (pathSyms resp) ++ (Tok.closeBracket :: (tail ++ k))) := rfl
      have hwe : w.isEmpty = false := by simpa using ident_ne hw
      rw [hn, run_cons]
      have h2 : onTok ⟨some (.request ⟨rq, er, acts, [], [.word], .action Action.new, false⟩), st, pr⟩
          (.word w) 1 = some ⟨some (.request ⟨rq, er, acts, [], [.pathDelimiter, .word, .arrow,
            .closeBracket], .action ⟨none, none, [], w, false⟩, false⟩), st, pr⟩ := rfl
      rw [h2, Option.bind_some, run_cons]
      have h3 : onTok ⟨some (.request ⟨rq, er, acts, [], [.pathDelimiter, .word, .arrow,
            .closeBracket], .action ⟨none, none, [], w, false⟩, false⟩), st, pr⟩ .arrow 1 =
          some ⟨some (.request ⟨rq, er, acts, [], [.word],
            .action ⟨some w, none, [], [], false⟩, false⟩), st, pr⟩ := by
        have hc : ([Expect.pathDelimiter, .word, .arrow, .closeBracket] : List Expect).contains .arrow
          = true := rfl
        simp only [onTok_opened, feed, Request.next, hc, if_true, hwe, Option.isNone_none,
          Bool.not_false, Bool.and_self]
        rfl
      rw [h3, Option.bind_some]
      have hp := run_path (fun r ex => .request ⟨rq, er, acts, [], ex,
          .action ⟨some w, none, [], r, false⟩, false⟩)
        [.pathDelimiter, .word, .closeBracket] st pr (by intros; rfl) (by intros; rfl) resp []
        [.word] (Tok.closeBracket :: (tail ++ k)) hresp.1 rfl
      rw [hp, joins_nil hresp]
      exact hclose _ rfl
  rw [h1]
  by_cases hb : bs = []
  · subst hb
    refine ⟨acts ++ [actionEntity ⟨con, resp, []⟩], .nothing, [.cls, .openBracket], rfl, rfl, rfl, ?_⟩
    rfl
  · cases con with
    | none => exact absurd (hnone rfl) hb
    | some w =>
      have ht : tail = toks (bs.flatMap broadcastSyms) := by simp only [tail, if_neg hb]
      refine ⟨acts, .action (actionEntity ⟨some w, resp, bs⟩), [.cls, .openBracket, .arrow], rfl, rfl,
        rfl, ?_⟩
      rw [ht, run_actionBroadcasts rq er acts w (dotted resp) st pr bs [] [.arrow, .semicolon] k hbs rfl
        hb]
      rfl

theorem run_actions (r e : Path) (st : Store) (pr : Prot.Store) (k : List Tok) :
    ∀ (as : List ActionD) (A acts : List Action) (pend : ReqPending) (ex : List Expect),
    (∀ a ∈ as, a.Shape) → flush A pend = some acts → ex.contains .openBracket = true →
    (as = [] → ex.contains .cls = true) →
    run ⟨some (.request ⟨some (dotted r), some (dotted e), A, [], ex, pend, false⟩), st, pr⟩
      (toks (as.flatMap actionSyms) ++ Tok.cls :: k) =
      go (if as.all (fun a => fresh [] a.broadcasts) then
        closeRequest st pr (openRequest r (some e) (acts ++ as.map actionEntity) []) else none) k := by
  intro as
  induction as with
  | nil =>
    intro A acts pend ex _ hf _ hcls
    have hc := hcls rfl
    simp only [List.flatMap_nil, List.map_nil, List.nil_append, List.append_nil, List.all_nil, if_true]
    apply run_close
    simp only [Request.next, hc, if_true]
    cases pend with
    | nothing =>
      simp only [flush, Option.some.injEq] at hf
      subst hf
      exact close_congr pr rfl rfl rfl rfl
    | action b =>
      simp only [flush] at hf
      split at hf
      · rename_i hv
        simp only [Option.some.injEq] at hf
        subst hf
        simp only [hv, if_true]
        exact close_congr pr rfl rfl rfl rfl
      · simp at hf
    | _ => simp [flush] at hf
  | cons a as ih =>
    intro A acts pend ex hs hf hex _
    obtain ⟨A2, pend2, ex2, h1, h2, h3, h4⟩ := run_action (some (dotted r)) (some (dotted e)) a
      (hs a List.mem_cons_self) A acts pend ex st pr
      (toks (as.flatMap actionSyms) ++ Tok.cls :: k) hf hex
    rw [List.flatMap_cons, toks, List.map_append, List.append_assoc, h4]
    cases hfr : fresh [] a.broadcasts with
    | false => simp [hfr, go]
    | true =>
      rw [if_pos rfl, ih A2 _ pend2 ex2 (fun x hx => hs x (List.mem_cons_of_mem _ hx)) h1 h2
        (fun _ => h3)]
      simp [hfr]

theorem run_request (st : Store) (pr : Prot.Store) (r e : Path) (as : List ActionD) (k : List Tok)
    (h : (Decl.request r e as).Shape) :
    run ⟨none, st, pr⟩ (toks (declSyms (.request r e as)) ++ k) =
      go (if as.all (fun a => fresh [] a.broadcasts) then
        closeRequest st pr (openRequest r (some e) (as.map actionEntity) []) else none) k := by
  obtain ⟨hr, he, hne, ha⟩ := h
  have hs : toks (declSyms (.request r e as)) ++ k = toks (pathSyms r) ++
      Tok.exclamation :: (toks (pathSyms e) ++ Tok.opn :: (toks (as.flatMap actionSyms) ++
        Tok.cls :: k)) := by
    simp [declSyms, toks, Sym.tok, Mark.tok]
  obtain ⟨ex, hex, _, hrun⟩ := run_requestHead st pr r
    (Tok.exclamation :: (toks (pathSyms e) ++ Tok.opn :: (toks (as.flatMap actionSyms) ++
        Tok.cls :: k))) hr
  rw [hs, hrun, run_cons]
  have h1 : onTok ⟨some (.request ⟨none, none, [], [], ex, .request (dotted r), false⟩),
      st, pr⟩ .exclamation 1 =
      some ⟨some (.request ⟨some (dotted r), none, [], [], [.word], .error [], false⟩), st, pr⟩ := by
    simp only [onTok_opened, feed, Request.next, hex, if_true]
    rfl
  rw [h1, Option.bind_some]
  have hp := run_path (fun x ex => .request ⟨some (dotted r), none, [], [], ex, .error x, false⟩)
    [.word, .pathDelimiter, .opn] st pr (by intros; rfl) (by intros; rfl) e []
    [.word] (Tok.opn :: (toks (as.flatMap actionSyms) ++ Tok.cls :: k)) he.1 rfl
  rw [hp, joins_nil he, run_cons]
  have h2 : onTok ⟨some (.request ⟨some (dotted r), none, [], [], [.word, .pathDelimiter, .opn],
      .error (dotted e), false⟩), st, pr⟩ .opn 1 =
      some ⟨some (.request ⟨some (dotted r), some (dotted e), [], [], [.openBracket], .nothing, false⟩),
        st, pr⟩ := rfl
  rw [h2, Option.bind_some, run_actions r e st pr k as [] [] .nothing [.openBracket] ha rfl rfl
    (fun h => absurd h hne)]
  simp

/-! ### Config -/

/-- The config while its entries are read. -/
def conf (P C : List Target) (S A : Option Ref) (ex : List Expect) (pend : ConfPending) : Config :=
  ⟨P, C, S, A, false, ex, pend⟩

theorem ofAlias (t : Target) : Target.ofAlias (aliasOf t) = some t := by cases t <;> decide

theorem freshStep {P ts : List Target} {t : Target} (ht : t ∉ P) :
    (ts.Nodup ∧ ∀ x ∈ ts, x ∉ P ++ [t]) ↔ ((t :: ts).Nodup ∧ ∀ x ∈ t :: ts, x ∉ P) := by
  constructor
  · rintro ⟨a, b⟩
    refine ⟨List.nodup_cons.2 ⟨fun h => b t h (by simp), a⟩, fun x hx => ?_⟩
    rcases List.mem_cons.1 hx with h | h
    · exact h ▸ ht
    · exact fun hP => b x h (List.mem_append_left _ hP)
  · rintro ⟨a, b⟩
    refine ⟨(List.nodup_cons.1 a).2, fun x hx hP => ?_⟩
    rcases List.mem_append.1 hP with h | h
    · exact b x (List.mem_cons_of_mem _ hx) h
    · rw [List.mem_singleton.1 h] at hx
      exact (List.nodup_cons.1 a).1 hx

theorem run_producers (C : List Target) (S A : Option Ref) (st : Store) (pr : Prot.Store)
    (k : List Tok) : ∀ (ts P : List Target) (ex : List Expect), ex.contains .word = true →
    (ts = [] → P ≠ [] ∧ ex.contains .semicolon = true) →
    run ⟨some (.config (conf P C S A ex .producer)), st, pr⟩
      (toks (ts.map (fun t => .word (aliasOf t)) ++ [.mark .semicolon]) ++ k) =
    if ts.Nodup ∧ ∀ t ∈ ts, t ∉ P then
      run ⟨some (.config (conf (P ++ ts) C S A [.word] .nothing)), st, pr⟩ k else none
  | [], P, ex, hex, hn => by
    obtain ⟨h1, h2⟩ := hn rfl
    have : P.isEmpty = false := by simpa using h1
    simp only [List.map_nil, List.nil_append, List.map_cons, toks, Sym.tok, Mark.tok,
      List.cons_append, run_cons, onTok_opened, feed, conf, Config.next, h2, if_true,
      Config.onSemicolon, this, Bool.false_eq_true, if_false]
    simp [keep]
  | t :: ts, P, ex, hex, _ => by
    have ih := run_producers C S A st pr k ts (P ++ [t]) [.word, .semicolon] rfl (fun _ => ⟨by simp, rfl⟩)
    simp only [List.map_cons, toks, List.cons_append, Sym.tok, run_cons, onTok_opened, feed,
      conf, Config.next, hex, if_true, Config.onWord, ofAlias]
    by_cases ht : t ∈ P
    · simp [ht]
    · have : P.contains t = false := by simpa using ht
      simp only [this, Bool.false_eq_true, if_false, Option.map_some, keep, Option.bind_some]
      refine ih.trans ?_
      have e := freshStep (ts := ts) ht
      by_cases hcond : ts.Nodup ∧ ∀ x ∈ ts, x ∉ P ++ [t]
      · rw [if_pos hcond, if_pos (e.1 hcond), List.append_assoc]
        rfl
      · rw [if_neg hcond, if_neg (fun h => hcond (e.2 h))]

theorem run_consumers (P : List Target) (S A : Option Ref) (st : Store) (pr : Prot.Store)
    (k : List Tok) : ∀ (ts C : List Target) (ex : List Expect), ex.contains .word = true →
    (ts = [] → C ≠ [] ∧ ex.contains .semicolon = true) →
    run ⟨some (.config (conf P C S A ex .consumer)), st, pr⟩
      (toks (ts.map (fun t => .word (aliasOf t)) ++ [.mark .semicolon]) ++ k) =
    if ts.Nodup ∧ ∀ t ∈ ts, t ∉ C then
      run ⟨some (.config (conf P (C ++ ts) S A [.word] .nothing)), st, pr⟩ k else none
  | [], C, ex, hex, hn => by
    obtain ⟨h1, h2⟩ := hn rfl
    have : C.isEmpty = false := by simpa using h1
    simp only [List.map_nil, List.nil_append, List.map_cons, toks, Sym.tok, Mark.tok,
      List.cons_append, run_cons, onTok_opened, feed, conf, Config.next, h2, if_true,
      Config.onSemicolon, this, Bool.false_eq_true, if_false]
    simp [keep]
  | t :: ts, C, ex, hex, _ => by
    have ih := run_consumers P S A st pr k ts (C ++ [t]) [.word, .semicolon] rfl (fun _ => ⟨by simp, rfl⟩)
    simp only [List.map_cons, toks, List.cons_append, Sym.tok, run_cons, onTok_opened, feed,
      conf, Config.next, hex, if_true, Config.onWord, ofAlias]
    by_cases ht : t ∈ C
    · simp [ht]
    · have : C.contains t = false := by simpa using ht
      simp only [this, Bool.false_eq_true, if_false, Option.map_some, keep, Option.bind_some]
      refine ih.trans ?_
      have e := freshStep (ts := ts) ht
      by_cases hcond : ts.Nodup ∧ ∀ x ∈ ts, x ∉ C ++ [t]
      · rw [if_pos hcond, if_pos (e.1 hcond), List.append_assoc]
        rfl
      · rw [if_neg hcond, if_neg (fun h => hcond (e.2 h))]

/-- What an entry does to the config. -/
def applyEntry (c : Config) : EntryD → Option Config
  | .producer ts => if c.producer.isEmpty ∧ ts.Nodup then some { c with producer := ts } else none
  | .consumer ts => if c.consumer.isEmpty ∧ ts.Nodup then some { c with consumer := ts } else none
  | .selfKey p => if c.selfKey.isNone then some { c with selfKey := some (dotted p) } else none
  | .assignedKey p =>
    if c.assignedKey.isNone then some { c with assignedKey := some (dotted p) } else none

theorem kw_ne : ("Consumer".toList ≠ "Producer".toList) ∧ ("AssignedKey".toList ≠ "Producer".toList) ∧
    ("AssignedKey".toList ≠ "Consumer".toList) ∧ ("SelfKey".toList ≠ "Producer".toList) ∧
    ("SelfKey".toList ≠ "Consumer".toList) ∧ ("SelfKey".toList ≠ "AssignedKey".toList) := by decide

theorem onWord_nothing (c : Config) (h : c.pending = .nothing) (w : Name) : c.onWord w =
    if w = "Producer".toList then
      if !c.producer.isEmpty then none
      else some { c with pending := .producer, expect := [.valueDelimiter] }
    else if w = "Consumer".toList then
      if !c.consumer.isEmpty then none
      else some { c with pending := .consumer, expect := [.valueDelimiter] }
    else if w = "AssignedKey".toList then
      if c.assignedKey.isSome then none
      else some { c with pending := .assignedKey [], expect := [.valueDelimiter] }
    else if w = "SelfKey".toList then
      if c.selfKey.isSome then none
      else some { c with pending := .selfKey [], expect := [.valueDelimiter] }
    else none := by
  unfold Config.onWord
  rw [h]

/-- A keyword. -/
theorem run_keyword (c : Config) (w : Name) (st : Store) (pr : Prot.Store) (k : List Tok)
    (hex : c.expect.contains .word = true) (r : Option Config)
    (h : c.onWord w = r) (hr : ∀ c2, r = some c2 → c2.closed = false) :
    run ⟨some (.config c), st, pr⟩ (Tok.word w :: k) =
      r.bind (fun c => run ⟨some (.config c), st, pr⟩ k) := by
  have hn : c.next pr (.word w) = r.map (fun c => (c, pr)) := by
    unfold Config.next
    simp only [hex, if_true, h]
  rw [run_cons, onTok_opened, feed, hn]
  cases r with
  | none => rfl
  | some c2 => simp only [Option.map_some, keep, hr c2 rfl, Bool.false_eq_true, if_false,
      Option.bind_some]

theorem run_entry (P C : List Target) (S A : Option Ref) (st : Store) (pr : Prot.Store)
    (e : EntryD) (he : e.Shape) (k : List Tok) :
    run ⟨some (.config (conf P C S A [.word] .nothing)), st, pr⟩ (toks (entrySyms e) ++ k) =
      (applyEntry (conf P C S A [.word] .nothing) e).bind
        (fun c => run ⟨some (.config c), st, pr⟩ k) := by
  obtain ⟨n1, n2, n3, n4, n5, n6⟩ := kw_ne
  have hc : ([Expect.word] : List Expect).contains .word = true := rfl
  cases e with
  | producer ts =>
    have hs : toks (entrySyms (.producer ts)) ++ k = Tok.word "Producer".toList :: Tok.valueDelimiter ::
      (toks (ts.map (fun t => .word (aliasOf t)) ++ [.mark .semicolon]) ++ k) := rfl
    rw [hs]
    have hk : (conf P C S A [.word] .nothing).onWord "Producer".toList = if !P.isEmpty then none else
        some (conf P C S A [.valueDelimiter] .producer) := by
      rw [onWord_nothing _ rfl]
      rw [if_pos rfl]
      rfl
    have h1 := fun k => run_keyword (conf P C S A [.word] .nothing) "Producer".toList st pr k rfl _ hk
      (by
        intro c2 h
        split at h
        · simp at h
        · simp only [Option.some.injEq] at h
          rw [← h]
          rfl)
    rw [h1]
    cases P with
    | cons t P => rfl
    | nil =>
      have h2 : ∀ k, run ⟨some (.config (conf [] C S A [.valueDelimiter] .producer)), st, pr⟩
          (Tok.valueDelimiter :: k) =
          run ⟨some (.config (conf [] C S A [.word] .producer)), st, pr⟩ k := fun _ => rfl
      have h3 : (!([] : List Target).isEmpty) = false := rfl
      rw [if_neg (by rw [h3]; simp), Option.bind_some, h2, run_producers C S A st pr k ts [] [.word] rfl (fun h => absurd h he)]
      by_cases hn : ts.Nodup
      · rw [if_pos ⟨hn, by simp⟩, applyEntry, if_pos ⟨rfl, hn⟩]
        rfl
      · rw [if_neg (fun h => hn h.1), applyEntry, if_neg (fun h => hn h.2)]
        rfl
  | consumer ts =>
    have hs : toks (entrySyms (.consumer ts)) ++ k = Tok.word "Consumer".toList :: Tok.valueDelimiter ::
      (toks (ts.map (fun t => .word (aliasOf t)) ++ [.mark .semicolon]) ++ k) := rfl
    rw [hs]
    have hk : (conf P C S A [.word] .nothing).onWord "Consumer".toList = if !C.isEmpty then none else
        some (conf P C S A [.valueDelimiter] .consumer) := by
      rw [onWord_nothing _ rfl]
      rw [if_neg n1, if_pos rfl]
      rfl
    have h1 := fun k => run_keyword (conf P C S A [.word] .nothing) "Consumer".toList st pr k rfl _ hk
      (by
        intro c2 h
        split at h
        · simp at h
        · simp only [Option.some.injEq] at h
          rw [← h]
          rfl)
    rw [h1]
    cases C with
    | cons t C => rfl
    | nil =>
      have h2 : ∀ k, run ⟨some (.config (conf P [] S A [.valueDelimiter] .consumer)), st, pr⟩
          (Tok.valueDelimiter :: k) =
          run ⟨some (.config (conf P [] S A [.word] .consumer)), st, pr⟩ k := fun _ => rfl
      have h3 : (!([] : List Target).isEmpty) = false := rfl
      rw [if_neg (by rw [h3]; simp), Option.bind_some, h2, run_consumers P S A st pr k ts [] [.word] rfl (fun h => absurd h he)]
      by_cases hn : ts.Nodup
      · rw [if_pos ⟨hn, by simp⟩, applyEntry, if_pos ⟨rfl, hn⟩]
        rfl
      · rw [if_neg (fun h => hn h.1), applyEntry, if_neg (fun h => hn h.2)]
        rfl
  | selfKey p =>
    have hs : toks (entrySyms (.selfKey p)) ++ k = Tok.word "SelfKey".toList :: Tok.valueDelimiter ::
      (toks (pathSyms p) ++ Tok.semicolon :: k) := by
      simp [entrySyms, toks, Sym.tok, Mark.tok]
    rw [hs]
    have hk : (conf P C S A [.word] .nothing).onWord "SelfKey".toList = if S.isSome then none else
        some (conf P C S A [.valueDelimiter] (.selfKey [])) := by
      rw [onWord_nothing _ rfl]
      rw [if_neg n4, if_neg n5, if_neg n6, if_pos rfl]
      rfl
    have h1 := fun k => run_keyword (conf P C S A [.word] .nothing) "SelfKey".toList st pr k rfl _ hk
      (by
        intro c2 h
        split at h
        · simp at h
        · simp only [Option.some.injEq] at h
          rw [← h]
          rfl)
    rw [h1]
    cases S with
    | some s => rfl
    | none =>
      have h2 : ∀ k, run ⟨some (.config (conf P C none A [.valueDelimiter] (.selfKey []))), st, pr⟩
          (Tok.valueDelimiter :: k) =
          run ⟨some (.config (conf P C none A [.word] (.selfKey []))), st, pr⟩ k := fun _ => rfl
      simp only [Option.isSome_none, Bool.false_eq_true, if_false, Option.bind_some]
      have hp := run_path (fun r ex => .config (conf P C none A ex (.selfKey r)))
        [.word, .pathDelimiter, .semicolon] st pr
        (by
          intro r ex w hw
          simp only [feed, conf, Config.next, hw, if_true]
          rfl)
        (by intros; rfl) p [] [.word] (Tok.semicolon :: k) he.1 rfl
      rw [h2, hp, joins_nil he]
      rfl
  | assignedKey p =>
    have hs : toks (entrySyms (.assignedKey p)) ++ k =
      Tok.word "AssignedKey".toList :: Tok.valueDelimiter ::
      (toks (pathSyms p) ++ Tok.semicolon :: k) := by
      simp [entrySyms, toks, Sym.tok, Mark.tok]
    rw [hs]
    have hk : (conf P C S A [.word] .nothing).onWord "AssignedKey".toList = if A.isSome then none else
        some (conf P C S A [.valueDelimiter] (.assignedKey [])) := by
      rw [onWord_nothing _ rfl]
      rw [if_neg n2, if_neg n3, if_pos rfl]
      rfl
    have h1 := fun k => run_keyword (conf P C S A [.word] .nothing) "AssignedKey".toList st pr k rfl _ hk
      (by
        intro c2 h
        split at h
        · simp at h
        · simp only [Option.some.injEq] at h
          rw [← h]
          rfl)
    rw [h1]
    cases A with
    | some s => rfl
    | none =>
      have h2 : ∀ k, run ⟨some (.config (conf P C S none [.valueDelimiter] (.assignedKey []))), st, pr⟩
          (Tok.valueDelimiter :: k) =
          run ⟨some (.config (conf P C S none [.word] (.assignedKey []))), st, pr⟩ k := fun _ => rfl
      simp only [Option.isSome_none, Bool.false_eq_true, if_false, Option.bind_some]
      have hp := run_path (fun r ex => .config (conf P C S none ex (.assignedKey r)))
        [.word, .pathDelimiter, .semicolon] st pr
        (by
          intro r ex w hw
          simp only [feed, conf, Config.next, hw, if_true]
          rfl)
        (by intros; rfl) p [] [.word] (Tok.semicolon :: k) he.1 rfl
      rw [h2, hp, joins_nil he]
      rfl

/-- All entries of a config. -/
def applyEntries (c : Config) : List EntryD → Option Config
  | [] => some c
  | e :: es => (applyEntry c e).bind (fun c => applyEntries c es)

/-- A config between entries. -/
def Between (c : Config) : Prop := c.closed = false ∧ c.expect = [.word] ∧ c.pending = .nothing

theorem applyEntry_between {c c2 : Config} {e : EntryD} (h : Between c) (he : applyEntry c e = some c2) :
    Between c2 := by
  obtain ⟨h1, h2, h3⟩ := h
  cases e <;> simp only [applyEntry] at he <;> split at he <;>
    simp only [Option.some.injEq, reduceCtorEq] at he <;> subst he <;> exact ⟨h1, h2, h3⟩

theorem run_entries (st : Store) (pr : Prot.Store) (k : List Tok) : ∀ (es : List EntryD) (c : Config),
    Between c → (∀ e ∈ es, e.Shape) →
    run ⟨some (.config c), st, pr⟩ (toks (es.flatMap entrySyms) ++ k) =
      (applyEntries c es).bind (fun c => run ⟨some (.config c), st, pr⟩ k)
  | [], _, _, _ => rfl
  | e :: es, c, hc, hs => by
    rw [List.flatMap_cons, toks, List.map_append, List.append_assoc]
    have h1 := run_entry c.producer c.consumer c.selfKey c.assignedKey st pr e (hs e List.mem_cons_self)
      (toks (es.flatMap entrySyms) ++ k)
    have hce : conf c.producer c.consumer c.selfKey c.assignedKey [.word] .nothing = c := by
      obtain ⟨a, b, d⟩ := hc
      rw [conf, ← a, ← b, ← d]
    rw [hce] at h1
    rw [h1, applyEntries]
    cases ha : applyEntry c e with
    | none => rfl
    | some c2 =>
      exact run_entries st pr k es c2 (applyEntry_between hc ha)
        (fun x hx => hs x (List.mem_cons_of_mem _ hx))

/-- Close a config and put it into the store. -/
def closeConfig (st : Store) (pr : Prot.Store) (c : Config) : Option (Store × Prot.Store) :=
  (c.close pr).bind (fun x => (st.setConfig x.1).map (fun s => (s, x.2)))

theorem configClose_closed {c c2 : Config} {pr pr2 : Prot.Store} (h : c.close pr = some (c2, pr2)) :
    c2.closed = true := by
  unfold Config.close at h
  split at h
  · simp at h
  · split at h
    · simp at h
    · split at h
      · simp at h
      · split at h
        · simp at h
        · simp only [Option.some.injEq, Prod.mk.injEq] at h
          rw [← h.1]

theorem run_config (st : Store) (pr : Prot.Store) (es : List EntryD) (k : List Tok)
    (h : (Decl.config es).Shape) :
    run ⟨none, st, pr⟩ (toks (declSyms (.config es)) ++ k) =
      go ((applyEntries (conf [] [] none none [.word] .nothing) es).bind (closeConfig st pr)) k := by
  have hs : toks (declSyms (.config es)) ++ k = Tok.word "&config".toList :: Tok.opn ::
      (toks (es.flatMap entrySyms) ++ Tok.cls :: k) := by
    simp [declSyms, toks, Sym.tok, Mark.tok]
  rw [hs]
  have h1 : run ⟨none, st, pr⟩ (Tok.word "&config".toList :: Tok.opn ::
      (toks (es.flatMap entrySyms) ++ Tok.cls :: k)) =
      run ⟨some (.config (conf [] [] none none [.word] .nothing)), st, pr⟩
      (toks (es.flatMap entrySyms) ++ Tok.cls :: k) := by
    rw [run_cons]
    have ho : onTok ⟨none, st, pr⟩ (.word "&config".toList) 1 =
        some ⟨some (.config Config.new), st, pr⟩ := by
      simp only [onTok, openEntity, if_true]
      rfl
    rw [ho, Option.bind_some, run_cons]
    rfl
  rw [h1, run_entries st pr _ es _ ⟨rfl, rfl, rfl⟩ h]
  simp only [go]
  cases applyEntries (conf [] [] none none [.word] .nothing) es with
  | none => rfl
  | some c =>
    simp only [Option.bind_some, run_cons, onTok_opened, feed, Config.next, closeConfig]
    cases hc : c.close pr with
    | none => rfl
    | some x =>
      obtain ⟨c2, pr2⟩ := x
      simp only [keep, configClose_closed hc, if_true, Option.bind_some]
      cases st.setConfig c2 <;> rfl

/-- The result of one declaration. -/
def declResult (st : Store) (pr : Prot.Store) : Decl → Option (Store × Prot.Store)
  | .config es => (applyEntries (conf [] [] none none [.word] .nothing) es).bind (closeConfig st pr)
  | .plain r => closeRequest st pr (openRequest r none [] [])
  | .announce r bs => closeRequest st pr (openRequest r none [] bs)
  | .request r e as =>
    if as.all (fun a => fresh [] a.broadcasts) then
      closeRequest st pr (openRequest r (some e) (as.map actionEntity) []) else none
  | .beacons ps =>
    if ps.all (fun p => defined pr (dotted p)) then
      (st.addBeacons (ps.map (fun p => ⟨dotted p, false⟩))).map (fun s => (s, pr)) else none
  | .event r bs =>
    if (isDefaultEvent (dotted r) || defined pr (dotted r)) &&
        bs.all (fun b => defined pr (dotted b.ref)) then
      (st.addEvent (eventEntity r bs)).map (fun s => (s, pr)) else none

theorem run_decl (st : Store) (pr : Prot.Store) (d : Decl) (k : List Tok) (h : d.Shape) :
    run ⟨none, st, pr⟩ (toks (declSyms d) ++ k) = go (declResult st pr d) k := by
  cases d with
  | config es => exact run_config st pr es k h
  | plain r => exact run_plain st pr r k h
  | announce r bs => exact run_announce st pr r bs k h
  | request r e as => exact run_request st pr r e as k h
  | beacons ps => exact run_beacons st pr ps k h
  | event r bs => exact run_event st pr r bs k h

/-- The result of all declarations. -/
def declsResult (st : Store) (pr : Prot.Store) : List Decl → Option (Store × Prot.Store)
  | [] => some (st, pr)
  | d :: ds => (declResult st pr d).bind (fun x => declsResult x.1 x.2 ds)

theorem run_decls : ∀ (ds : List Decl) (st : Store) (pr : Prot.Store), (∀ d ∈ ds, d.Shape) →
    run ⟨none, st, pr⟩ (toks (ds.flatMap declSyms)) =
      (declsResult st pr ds).map (fun x => ⟨none, x.1, x.2⟩)
  | [], st, pr, _ => rfl
  | d :: ds, st, pr, hs => by
    rw [List.flatMap_cons, toks, List.map_append]
    have := run_decl st pr d (toks (ds.flatMap declSyms)) (hs d List.mem_cons_self)
    rw [toks] at this
    rw [this, declsResult, go]
    cases declResult st pr d with
    | none => rfl
    | some x => exact run_decls ds x.1 x.2 (fun e he => hs e (List.mem_cons_of_mem _ he))

end Verif.Flow.Syntax
