import Verif.Proofs.Puml
set_option autoImplicit false
/-!
The lines of what is rendered for requests, events, beacons and for the whole workflow.
-/
namespace Verif.Puml

open Verif.Prot (Name)
open Verif.Prot.Syntax (IdChar Ident)
open Verif.Flow (Ref Broadcast Event Action Request Store)
open Verif.Flow.Syntax

/-! ### Names -/

theorem tame_ident {w : Name} (h : Ident w) : Tame w := by
  obtain ⟨c, cs, rfl, _, h3⟩ := h
  refine ⟨by simp, fun d hd => ?_⟩
  rcases h3 d hd with h4 | h4
  · refine ⟨?_, ?_, ?_⟩ <;> (intro he; subst he; revert h4; decide)
  · subst h4; decide

theorem tame_dotted : ∀ {p : Path}, PathShape p → Tame (dotted p) := by
  intro p
  induction p with
  | nil => intro h; exact absurd rfl h.1
  | cons w ws ih =>
    intro h
    have hw := tame_ident (h.2 w List.mem_cons_self)
    cases ws with
    | nil => exact hw
    | cons w2 ws =>
      have h2 := ih ⟨by simp, fun x hx => h.2 x (List.mem_cons_of_mem _ hx)⟩
      refine ⟨by simp [dotted], fun c hc => ?_⟩
      simp only [dotted, List.mem_append, List.mem_cons] at hc
      rcases hc with hc | rfl | hc
      · exact hw.2 c hc
      · decide
      · exact h2.2 c hc

theorem tame_flatten {p : Path} (h : PathShape p) : Tame p.flatten := by
  constructor
  · intro he
    cases p with
    | nil => exact h.1 rfl
    | cons w ws =>
      have := (tame_ident (h.2 w List.mem_cons_self)).1
      simp at he
      exact this he.1
  · intro c hc
    obtain ⟨w, hw, hc⟩ := List.mem_flatten.1 hc
    exact (tame_ident (h.2 w hw)).2 c hc

theorem drop_dots : ∀ (a b : Text), (∀ c ∈ a, c ≠ '.') →
    replaceFrom ".".toList [] 0 (a ++ b) = a ++ replaceFrom ".".toList [] 0 b := by
  intro a b
  induction a with
  | nil => intro _; rfl
  | cons c cs ih =>
    intro h
    have hc := h c List.mem_cons_self
    have h2 : (".".toList.isPrefixOf (c :: (cs ++ b))) = false := by
      simp [List.isPrefixOf, Ne.symm hc]
    simp only [List.cons_append, replaceFrom, h2]
    rw [ih fun d hd => h d (List.mem_cons_of_mem _ hd)]
    rfl

theorem replace_dots : ∀ {p : Path}, PathShape p → replace (dotted p) ".".toList [] = p.flatten := by
  intro p
  induction p with
  | nil => intro h; exact absurd rfl h.1
  | cons w ws ih =>
    intro h
    have hw := ident_no_dot (h.2 w List.mem_cons_self)
    cases ws with
    | nil =>
      have := drop_dots w [] hw
      simpa [replace, dotted, replaceFrom] using this
    | cons w2 ws =>
      have h2 := ih ⟨by simp, fun x hx => h.2 x (List.mem_cons_of_mem _ hx)⟩
      unfold replace at h2 ⊢
      rw [dotted, drop_dots _ _ hw, List.flatten_cons, ← h2]
      congr 1

/-! ### Templates -/

theorem no_bracket {r : Text} (h : Tame r) : ∀ c ∈ r, c ≠ '[' := fun c hc => (h.2 c hc).1

/-- Text without brackets in front stays. -/
theorem replace_front {pat rep : Text} (hp : pat.head? = some '[') {a : Text} (ha : a.all (· ≠ '[') = true)
    (b : Text) : replaceFrom pat rep 0 (a ++ b) = a ++ replaceFrom pat rep 0 b :=
  replaceFrom_skip hp a b fun c hc => by simpa using List.all_eq_true.1 ha c hc

theorem request_template {n r e c : Text} (hn : Tame n) (hr : Tame r) (he : Tame e) :
    replace (replace (replace (replace requestTemplate "[[name]]".toList n) "[[request]]".toList r)
      "[[error]]".toList e) "[[conclusions]]".toList c =
    ("group ".toList ++ n) ++ '\n' :: ((tabs 1 ++ ("Consumer -> Producer: ".toList ++ r)) ++ '\n' ::
      ((tabs 1 ++ (("Producer -->x Consumer: <font color=red>".toList ++ e) ++ c)) ++ '\n' :: "end".toList)) := by
  have e0 : requestTemplate = "group ".toList ++ ("[[name]]".toList ++
    ("\n    Consumer -> Producer: ".toList ++ ("[[request]]".toList ++
      ("\n    Producer -->x Consumer: <font color=red>".toList ++ ("[[error]]".toList ++
        ("[[conclusions]]".toList ++ "\nend".toList)))))) := by decide +kernel
  have k1 : ∀ rep b : Text, replaceFrom "[[name]]".toList rep 0 ("[[request]]".toList ++ b) =
      "[[request]]".toList ++ replaceFrom "[[name]]".toList rep 0 b := fun _ _ => rfl
  have k2 : ∀ rep b : Text, replaceFrom "[[name]]".toList rep 0 ("[[error]]".toList ++ b) =
      "[[error]]".toList ++ replaceFrom "[[name]]".toList rep 0 b := fun _ _ => rfl
  have k3 : ∀ rep b : Text, replaceFrom "[[name]]".toList rep 0 ("[[conclusions]]".toList ++ b) =
      "[[conclusions]]".toList ++ replaceFrom "[[name]]".toList rep 0 b := fun _ _ => rfl
  have k4 : ∀ rep b : Text, replaceFrom "[[request]]".toList rep 0 ("[[error]]".toList ++ b) =
      "[[error]]".toList ++ replaceFrom "[[request]]".toList rep 0 b := fun _ _ => rfl
  have k5 : ∀ rep b : Text, replaceFrom "[[request]]".toList rep 0 ("[[conclusions]]".toList ++ b) =
      "[[conclusions]]".toList ++ replaceFrom "[[request]]".toList rep 0 b := fun _ _ => rfl
  have k6 : ∀ rep b : Text, replaceFrom "[[error]]".toList rep 0 ("[[conclusions]]".toList ++ b) =
      "[[conclusions]]".toList ++ replaceFrom "[[error]]".toList rep 0 b := fun _ _ => rfl
  have e1 : replace requestTemplate "[[name]]".toList n = "group ".toList ++ (n ++
    ("\n    Consumer -> Producer: ".toList ++ ("[[request]]".toList ++
      ("\n    Producer -->x Consumer: <font color=red>".toList ++ ("[[error]]".toList ++
        ("[[conclusions]]".toList ++ "\nend".toList)))))) := by
    unfold replace
    rw [e0, replace_front (by decide +kernel) (by decide +kernel), replaceFrom_hit (by decide +kernel),
      replace_front (by decide +kernel) (by decide +kernel), k1, replace_front (by decide +kernel) (by decide +kernel), k2, k3,
      replaceFrom_none (by decide +kernel) _ (by decide +kernel)]
  have e2 : replace (replace requestTemplate "[[name]]".toList n) "[[request]]".toList r =
    "group ".toList ++ (n ++ ("\n    Consumer -> Producer: ".toList ++ (r ++
      ("\n    Producer -->x Consumer: <font color=red>".toList ++ ("[[error]]".toList ++
        ("[[conclusions]]".toList ++ "\nend".toList)))))) := by
    rw [e1]
    unfold replace
    rw [replace_front (by decide +kernel) (by decide +kernel), replaceFrom_skip (by decide +kernel) _ _ (no_bracket hn),
      replace_front (by decide +kernel) (by decide +kernel), replaceFrom_hit (by decide +kernel),
      replace_front (by decide +kernel) (by decide +kernel), k4, k5, replaceFrom_none (by decide +kernel) _ (by decide +kernel)]
  have e3 : replace (replace (replace requestTemplate "[[name]]".toList n) "[[request]]".toList r)
      "[[error]]".toList e = "group ".toList ++ (n ++ ("\n    Consumer -> Producer: ".toList ++ (r ++
      ("\n    Producer -->x Consumer: <font color=red>".toList ++ (e ++
        ("[[conclusions]]".toList ++ "\nend".toList)))))) := by
    rw [e2]
    unfold replace
    rw [replace_front (by decide +kernel) (by decide +kernel), replaceFrom_skip (by decide +kernel) _ _ (no_bracket hn),
      replace_front (by decide +kernel) (by decide +kernel), replaceFrom_skip (by decide +kernel) _ _ (no_bracket hr),
      replace_front (by decide +kernel) (by decide +kernel), replaceFrom_hit (by decide +kernel), k6,
      replaceFrom_none (by decide +kernel) _ (by decide +kernel)]
  rw [e3]
  unfold replace
  rw [replace_front (by decide +kernel) (by decide +kernel), replaceFrom_skip (by decide +kernel) _ _ (no_bracket hn),
    replace_front (by decide +kernel) (by decide +kernel), replaceFrom_skip (by decide +kernel) _ _ (no_bracket hr),
    replace_front (by decide +kernel) (by decide +kernel), replaceFrom_skip (by decide +kernel) _ _ (no_bracket he),
    replaceFrom_hit (by decide +kernel), replaceFrom_none (by decide +kernel) _ (by decide +kernel)]
  rw [show "\n    Consumer -> Producer: ".toList = '\n' :: (tabs 1 ++ "Consumer -> Producer: ".toList) by decide +kernel,
    show "\n    Producer -->x Consumer: <font color=red>".toList =
      '\n' :: (tabs 1 ++ "Producer -->x Consumer: <font color=red>".toList) by decide +kernel,
    show "\nend".toList = '\n' :: "end".toList by decide +kernel]
  simp only [List.append_assoc, List.cons_append]

theorem event_template {r c : Text} (hr : Tame r) :
    replace (replace (replace eventTemplate "[[name]]".toList r) "[[reference]]".toList r)
      "[[broadcasts]]".toList c =
    ("group ".toList ++ r) ++ '\n' :: ((tabs 1 ++ (("Producer -> Producer: ".toList ++ r) ++ c)) ++
      '\n' :: "end".toList) := by
  have e0 : eventTemplate = "group ".toList ++ ("[[name]]".toList ++ ("\n    Producer -> Producer: ".toList ++
    ("[[reference]]".toList ++ ("[[broadcasts]]".toList ++ "\nend".toList)))) := by decide +kernel
  have k1 : ∀ rep b : Text, replaceFrom "[[name]]".toList rep 0 ("[[reference]]".toList ++ b) =
      "[[reference]]".toList ++ replaceFrom "[[name]]".toList rep 0 b := fun _ _ => rfl
  have k2 : ∀ rep b : Text, replaceFrom "[[name]]".toList rep 0 ("[[broadcasts]]".toList ++ b) =
      "[[broadcasts]]".toList ++ replaceFrom "[[name]]".toList rep 0 b := fun _ _ => rfl
  have k3 : ∀ rep b : Text, replaceFrom "[[reference]]".toList rep 0 ("[[broadcasts]]".toList ++ b) =
      "[[broadcasts]]".toList ++ replaceFrom "[[reference]]".toList rep 0 b := fun _ _ => rfl
  have e1 : replace eventTemplate "[[name]]".toList r = "group ".toList ++ (r ++
    ("\n    Producer -> Producer: ".toList ++ ("[[reference]]".toList ++
      ("[[broadcasts]]".toList ++ "\nend".toList)))) := by
    unfold replace
    rw [e0, replace_front (by decide +kernel) (by decide +kernel), replaceFrom_hit (by decide +kernel),
      replace_front (by decide +kernel) (by decide +kernel), k1, k2, replaceFrom_none (by decide +kernel) _ (by decide +kernel)]
  have e2 : replace (replace eventTemplate "[[name]]".toList r) "[[reference]]".toList r =
    "group ".toList ++ (r ++ ("\n    Producer -> Producer: ".toList ++ (r ++
      ("[[broadcasts]]".toList ++ "\nend".toList)))) := by
    rw [e1]
    unfold replace
    rw [replace_front (by decide +kernel) (by decide +kernel), replaceFrom_skip (by decide +kernel) _ _ (no_bracket hr),
      replace_front (by decide +kernel) (by decide +kernel), replaceFrom_hit (by decide +kernel), k3,
      replaceFrom_none (by decide +kernel) _ (by decide +kernel)]
  rw [e2]
  unfold replace
  rw [replace_front (by decide +kernel) (by decide +kernel), replaceFrom_skip (by decide +kernel) _ _ (no_bracket hr),
    replace_front (by decide +kernel) (by decide +kernel), replaceFrom_skip (by decide +kernel) _ _ (no_bracket hr),
    replaceFrom_hit (by decide +kernel), replaceFrom_none (by decide +kernel) _ (by decide +kernel)]
  rw [show "\n    Producer -> Producer: ".toList = '\n' :: (tabs 1 ++ "Producer -> Producer: ".toList) by decide +kernel,
    show "\nend".toList = '\n' :: "end".toList by decide +kernel]
  simp only [List.append_assoc, List.cons_append]

theorem beacon_template (c : Text) : replace beaconTemplate "[[broadcasts]]".toList c =
    "group Beacons".toList ++ '\n' :: ((tabs 1 ++ "Consumer -> Producer: Connected Event".toList) ++ '\n' ::
      ((tabs 1 ++ ("Consumer -> Producer: Disconnected Event".toList ++ c)) ++ '\n' :: "end".toList)) := by
  have e0 : beaconTemplate = ("group Beacons\n    Consumer -> Producer: Connected Event\n" ++
    "    Consumer -> Producer: Disconnected Event").toList ++ ("[[broadcasts]]".toList ++ "\nend".toList) := by
    decide +kernel
  unfold replace
  rw [e0, replace_front (by decide +kernel) (by decide +kernel), replaceFrom_hit (by decide +kernel),
    replaceFrom_none (by decide +kernel) _ (by decide +kernel)]
  rw [show ("group Beacons\n    Consumer -> Producer: Connected Event\n" ++
      "    Consumer -> Producer: Disconnected Event").toList = "group Beacons".toList ++ '\n' ::
      ((tabs 1 ++ "Consumer -> Producer: Connected Event".toList) ++ '\n' ::
        (tabs 1 ++ "Consumer -> Producer: Disconnected Event".toList)) by decide +kernel,
    show "\nend".toList = '\n' :: "end".toList by decide +kernel]
  simp only [List.append_assoc, List.cons_append]

theorem module_template (c : Text) : replace moduleTemplate "[[content]]".toList c =
    (("@startuml".toList ++ '\n' :: ([] ++ '\n' :: ((tabs 1 ++ "collections Consumers as Consumers".toList) ++
      '\n' :: tabs 1))) ++ c) ++ '\n' :: "@enduml".toList := by
  have e0 : moduleTemplate = ("@startuml".toList ++ '\n' :: ([] ++ '\n' ::
      ((tabs 1 ++ "collections Consumers as Consumers".toList) ++ '\n' :: tabs 1))) ++
      ("[[content]]".toList ++ "\n@enduml".toList) := by decide +kernel
  unfold replace
  rw [e0, replace_front (by decide +kernel) (by decide +kernel), replaceFrom_hit (by decide +kernel),
    replaceFrom_none (by decide +kernel) _ (by decide +kernel)]
  rw [show "\n@enduml".toList = '\n' :: "@enduml".toList by decide +kernel]
  simp only [List.append_assoc]

/-! ### Parts -/

theorem line_message (s : Party) (k : Stroke) (r : Party) (p n : Text)
    (h : s.name ++ ' ' :: k.arrow ++ ' ' :: r.name ++ ": ".toList = p) :
    (Item.message s k r n).line = p ++ n := by
  subst h
  rfl

theorem line_case (n : Text) : (Item.case n).line = "== ".toList ++ n ++ " ==".toList := rfl

theorem line_answer (n : Text) : (Item.message .producer .solid .consumer n).line =
    "Producer -> Consumer: ".toList ++ n := line_message _ _ _ _ _ (by decide +kernel)

theorem line_ask (n : Text) : (Item.message .consumer .solid .producer n).line =
    "Consumer -> Producer: ".toList ++ n := line_message _ _ _ _ _ (by decide +kernel)

theorem line_self (n : Text) : (Item.message .producer .solid .producer n).line =
    "Producer -> Producer: ".toList ++ n := line_message _ _ _ _ _ (by decide +kernel)

theorem line_cast (n : Text) : (Item.message .producer .dashed .consumer n).line =
    "Producer --> Consumer: ".toList ++ n := line_message _ _ _ _ _ (by decide +kernel)

theorem line_beacon (n : Text) : (Item.message .consumer .dashed .producer n).line =
    "Consumer --> Producer: ".toList ++ n := line_message _ _ _ _ _ (by decide +kernel)

theorem line_solid (n : Text) : (Item.message .producer .solid .consumers n).line =
    "Producer -> Consumers: ".toList ++ n := line_message _ _ _ _ _ (by decide +kernel)

theorem line_dashed (n : Text) : (Item.message .producer .dashed .consumers n).line =
    "Producer --> Consumers: ".toList ++ n := line_message _ _ _ _ _ (by decide +kernel)

theorem lines_item0 {i : Item} (h : i.Named) : linesOf i.line = [i.line] := by
  simpa [tabs] using lines_plain (Item.plain h) 0

/-- Where there are several answers all have conclusions. -/
def Concluded (as : List ActionD) : Prop := as.length ≠ 1 → ∀ a ∈ as, a.conclusion ≠ none

/-- The text of one action. -/
def actionText (name reference : Ref) (bs : List Broadcast) : Text :=
  "\n== ".toList ++ name ++ " ==\n    Producer -> Consumer: ".toList ++ reference ++
    injectTabs 1 (actionBroadcasts bs)

theorem actionsText_eq : ∀ (xs : List Action) (as : List ActionD) (out : Text),
    xs.map actionView = as.map actionOf → (∀ a ∈ as, a.conclusion ≠ none) →
    actionsText out xs = some (out ++ as.flatMap fun a =>
      actionText (a.conclusion.getD []) (dotted a.response) (a.broadcasts.map broadcastOf)) := by
  intro xs
  induction xs with
  | nil =>
    intro as out h _
    cases as with
    | nil => simp [actionsText]
    | cons a as => simp at h
  | cons x xs ih =>
    intro as out h hc
    cases as with
    | nil => simp at h
    | cons a as =>
      simp only [List.map_cons, List.cons.injEq, actionView, actionOf, Prod.mk.injEq] at h
      obtain ⟨⟨h1, h2, h3⟩, h4⟩ := h
      have hn := hc a List.mem_cons_self
      cases hcn : a.conclusion with
      | none => exact absurd hcn hn
      | some name =>
        rw [hcn] at h1
        simp only [actionsText, h1, h2, h3]
        rw [ih as _ h4 fun b hb => hc b (List.mem_cons_of_mem _ hb)]
        simp [actionText, hcn]

theorem lines_actionBroadcasts {bs : List BroadcastD} (h : ∀ b ∈ bs, PathShape b.ref) :
    Starts (actionBroadcasts (bs.map broadcastOf)) ∧ linesOf (actionBroadcasts (bs.map broadcastOf)) =
      (bs.map fun b => Item.message .producer (strokeOf b.optional) .consumers (dotted b.ref)).map
        Item.line := by
  have e : actionBroadcasts (bs.map broadcastOf) = bs.flatMap fun b =>
      "\nProducer ".toList ++ ((if b.optional then "-->" else "->").toList ++ (" Consumers: ".toList ++
        dotted b.ref)) := by
    unfold actionBroadcasts
    have := foldl_append (fun b : Broadcast => "\nProducer ".toList ++ ((if b.optional then "-->" else "->").toList
      ++ (" Consumers: ".toList ++ b.reference))) (bs.map broadcastOf) []
    rw [List.nil_append, List.flatMap_map] at this
    simp only [List.append_assoc]
    exact this
  rw [e]
  refine lines_messages _ _ bs fun b hb => ⟨?_, tame_dotted (h b hb)⟩
  cases ho : b.optional
  · rw [strokeOf, if_neg (by simp), if_neg (by simp), line_solid, ← List.append_assoc, ← List.append_assoc,
      show ("\nProducer ".toList ++ "->".toList) ++ " Consumers: ".toList =
        '\n' :: "Producer -> Consumers: ".toList by decide +kernel, List.cons_append]
  · rw [strokeOf, if_pos rfl, if_pos rfl, line_dashed, ← List.append_assoc, ← List.append_assoc,
      show ("\nProducer ".toList ++ "-->".toList) ++ " Consumers: ".toList =
        '\n' :: "Producer --> Consumers: ".toList by decide +kernel, List.cons_append]

theorem lines_actionText {a : ActionD} (ha : a.Shape) (hc : a.conclusion ≠ none) :
    Starts (actionText (a.conclusion.getD []) (dotted a.response) (a.broadcasts.map broadcastOf)) ∧
    linesOf (actionText (a.conclusion.getD []) (dotted a.response) (a.broadcasts.map broadcastOf)) =
      (caseItems a).map Item.line := by
  cases hcn : a.conclusion with
  | none => exact absurd hcn hc
  | some name =>
    have hb := lines_actionBroadcasts ha.2.2.1
    have h1 : Item.Named (.case name) := tame_ident (ha.1 name hcn)
    have h2 : Item.Named (.message .producer .solid .consumer (dotted a.response)) := tame_dotted ha.2.1
    have e : actionText name (dotted a.response) (a.broadcasts.map broadcastOf) =
        '\n' :: ((Item.case name).line ++ '\n' :: (tabs 1 ++
          ((Item.message .producer .solid .consumer (dotted a.response)).line ++
            injectTabs 1 (actionBroadcasts (a.broadcasts.map broadcastOf))))) := by
      rw [actionText, line_answer, line_case, show "\n== ".toList = '\n' :: "== ".toList by decide +kernel,
        show " ==\n    Producer -> Consumer: ".toList =
          " ==".toList ++ '\n' :: (tabs 1 ++ "Producer -> Consumer: ".toList) by decide +kernel]
      simp only [List.append_assoc, List.cons_append]
    rw [Option.getD_some, e]
    refine ⟨.inr ⟨_, rfl⟩, ?_⟩
    rw [lines_cons, lines_append, lines_item0 h1, lines_followed (Item.plain h2) 1 1 hb.1, hb.2]
    simp [caseItems, hcn]

theorem conclusions_lines {q : Request} {as : List ActionD} (hq : q.actions.map actionView = as.map actionOf)
    (hne : as ≠ []) (hsh : ∀ a ∈ as, a.Shape) (hc : Concluded as) :
    ∃ c, conclusions q = some c ∧ Starts c ∧ linesOf c = (answerItems as).map Item.line := by
  have hlen : q.actions.length = as.length := by simpa using congrArg List.length hq
  unfold conclusions
  rw [hlen]
  match as, hne with
  | [a], _ =>
    simp only [List.length_singleton, Nat.lt_irrefl, if_false, gt_iff_lt]
    match hqa : q.actions, hq, hlen with
    | [x], hq, _ =>
      simp only [List.map_cons, List.map_nil, List.cons.injEq, and_true, actionView, actionOf,
        Prod.mk.injEq] at hq
      have hn : Item.Named (.message .producer .solid .consumer (dotted a.response)) :=
        tame_dotted (hsh a List.mem_cons_self).2.1
      refine ⟨'\n' :: (Item.message .producer .solid .consumer (dotted a.response)).line, ?_,
        .inr ⟨_, rfl⟩, ?_⟩
      · rw [getResponse, hqa, line_answer]
        dsimp only
        rw [hq.2.1, Option.map_some, show "\nProducer -> Consumer: ".toList =
          '\n' :: "Producer -> Consumer: ".toList by decide +kernel, List.cons_append]
      · rw [lines_cons, lines_item0 hn]
        rfl
  | a :: b :: rest, _ =>
    have hcs : ∀ x ∈ a :: b :: rest, x.conclusion ≠ none := hc (by simp)
    rw [if_pos (by simp), actionsText_eq _ _ _ hq hcs, List.nil_append]
    have := lines_flatMap _ (fun x => (caseItems x).map Item.line) (a :: b :: rest)
      fun x hx => lines_actionText (hsh x hx) (hcs x hx)
    refine ⟨_, rfl, this.1, this.2.trans ?_⟩
    rw [answerItems, List.map_flatMap]
    intro x hx
    simp at hx

theorem request_lines {q : Request} {r e : Path} {as : List ActionD}
    (hq : requestView q = (some (dotted r), some (dotted e), as.map actionOf, []))
    (hr : PathShape r) (he : PathShape e) (hne : as ≠ []) (hsh : ∀ a ∈ as, a.Shape) (hc : Concluded as) :
    ∃ t, renderRequest q = some t ∧ linesOf t = (requestItems r e as).map Item.line := by
  simp only [requestView, Prod.mk.injEq] at hq
  obtain ⟨h1, h2, h3, _⟩ := hq
  obtain ⟨c, hc1, hc2, hc3⟩ := conclusions_lines h3 hne hsh hc
  have n1 : Item.Named (.group r.flatten) := tame_flatten hr
  have n2 : Item.Named (.message .consumer .solid .producer (dotted r)) := tame_dotted hr
  have n3 : Item.Named (.failure (dotted e)) := tame_dotted he
  refine ⟨(Item.group r.flatten).line ++ '\n' ::
    ((tabs 1 ++ (Item.message .consumer .solid .producer (dotted r)).line) ++ '\n' ::
      ((tabs 1 ++ ((Item.failure (dotted e)).line ++ injectTabs 1 c)) ++ '\n' :: Item.close.line)), ?_, ?_⟩
  · simp only [renderRequest, h1, h2, hc1]
    rw [replace_dots hr, request_template (tame_flatten hr) (tame_dotted hr) (tame_dotted he),
      line_ask]
    rfl
  · rw [lines_append, lines_append, lines_append, lines_item0 n1, lines_plain (Item.plain n2),
      lines_followed (Item.plain n3) 1 1 hc2, hc3, lines_item0 (i := .close) trivial]
    simp [requestItems]

theorem event_lines {v : Event} {r : Path} {bs : List BroadcastD}
    (hv : eventView v = (some (dotted r), bs.map broadcastOf)) (hr : PathShape r)
    (hb : ∀ b ∈ bs, PathShape b.ref) :
    ∃ t, renderEvent v = some t ∧ linesOf t = (eventItems r bs).map Item.line := by
  simp only [eventView, Prod.mk.injEq] at hv
  obtain ⟨h1, h2⟩ := hv
  have n1 : Item.Named (.group (dotted r)) := tame_dotted hr
  have n2 : Item.Named (.message .producer .solid .producer (dotted r)) := tame_dotted hr
  have hc : Starts (eventBroadcasts (bs.map broadcastOf)) ∧
      linesOf (eventBroadcasts (bs.map broadcastOf)) =
      (bs.map fun b => Item.message .producer .dashed .consumer (dotted b.ref)).map Item.line := by
    have e : eventBroadcasts (bs.map broadcastOf) = bs.flatMap fun b =>
        "\nProducer --> Consumer: ".toList ++ dotted b.ref := by
      unfold eventBroadcasts
      have := foldl_append (fun b : Broadcast => "\nProducer --> Consumer: ".toList ++ b.reference)
        (bs.map broadcastOf) []
      rw [List.nil_append, List.flatMap_map] at this
      simp only [List.append_assoc]
      exact this
    rw [e]
    refine lines_messages _ _ bs fun b hx => ⟨?_, tame_dotted (hb b hx)⟩
    rw [line_cast, show "\nProducer --> Consumer: ".toList = '\n' :: "Producer --> Consumer: ".toList by decide +kernel,
      List.cons_append]
  refine ⟨(Item.group (dotted r)).line ++ '\n' ::
    ((tabs 1 ++ ((Item.message .producer .solid .producer (dotted r)).line ++
      injectTabs 1 (eventBroadcasts (bs.map broadcastOf)))) ++ '\n' :: Item.close.line), ?_, ?_⟩
  · simp only [renderEvent, h1, h2]
    rw [event_template (tame_dotted hr), line_self]
    rfl
  · rw [lines_append, lines_append, lines_item0 n1, lines_followed (Item.plain n2) 1 1 hc.1, hc.2,
      lines_item0 (i := .close) trivial]
    simp [eventItems]

theorem beacon_lines {rs : List Path} (hr : ∀ r ∈ rs, PathShape r) :
    linesOf (renderBeacons (rs.map fun r => ⟨dotted r, false⟩)) = (beaconItems rs).map Item.line := by
  have hc : Starts (beaconLines (rs.map fun r => ⟨dotted r, false⟩)) ∧
      linesOf (beaconLines (rs.map fun r => ⟨dotted r, false⟩)) =
      (rs.map fun r => Item.message .consumer .dashed .producer (dotted r)).map Item.line := by
    have e : beaconLines (rs.map fun r => ⟨dotted r, false⟩) = rs.flatMap fun r =>
        "\nConsumer --> Producer: ".toList ++ dotted r := by
      unfold beaconLines
      have := foldl_append (fun b : Broadcast => "\nConsumer --> Producer: ".toList ++ b.reference)
        (rs.map fun r => ⟨dotted r, false⟩) []
      rw [List.nil_append, List.flatMap_map] at this
      simp only [List.append_assoc]
      exact this
    rw [e]
    refine lines_messages _ _ rs fun r hx => ⟨?_, tame_dotted (hr r hx)⟩
    rw [line_beacon, show "\nConsumer --> Producer: ".toList = '\n' :: "Consumer --> Producer: ".toList by decide +kernel,
      List.cons_append]
  have p1 : Plain "group Beacons".toList := plain_of (by decide +kernel)
  have p2 : Plain "Consumer -> Producer: Connected Event".toList := plain_of (by decide +kernel)
  have p3 : Plain "Consumer -> Producer: Disconnected Event".toList := plain_of (by decide +kernel)
  have l1 : linesOf "group Beacons".toList = ["group Beacons".toList] := by
    have := lines_plain p1 0
    rwa [show tabs 0 = [] from rfl, List.nil_append] at this
  have l2 : linesOf "end".toList = ["end".toList] := lines_item0 (i := .close) trivial
  unfold renderBeacons
  rw [beacon_template, lines_append, lines_append, lines_append, l1, lines_plain p2,
    lines_followed p3 1 1 hc.1, hc.2, l2]
  rw [beaconItems, List.map_cons, List.map_cons, List.map_cons, List.map_append, List.map_cons, List.map_nil,
    line_ask, line_ask]
  rw [show (Item.group "Beacons".toList).line = "group Beacons".toList by decide +kernel,
    show "Consumer -> Producer: ".toList ++ "Connected Event".toList =
      "Consumer -> Producer: Connected Event".toList by decide +kernel,
    show "Consumer -> Producer: ".toList ++ "Disconnected Event".toList =
      "Consumer -> Producer: Disconnected Event".toList by decide +kernel]
  rfl

/-! ### The whole diagram -/

theorem put_eq (out t : Text) : put out t = out ++ ('\n' :: (injectTabs 1 t ++ ['\n'])) := by
  simp [put]

theorem lines_put (t : Text) : linesOf ('\n' :: (injectTabs 1 t ++ ['\n'])) = linesOf t := by
  rw [lines_cons, lines_append, lines_injectTabs, lines_nil, List.append_nil]

theorem requests_lines : ∀ (ds : List Decl) (qs : List Request) (out : Text), Answered ds →
    (∀ d ∈ ds, d.Shape) → (∀ r e as, Decl.request r e as ∈ ds → Concluded as) →
    qs.map requestView = requestsOf ds →
    ∃ t, putAll renderRequest out qs = some (out ++ t) ∧ Starts t ∧
      linesOf t = (ds.flatMap fun | .request r e as => requestItems r e as | _ => []).map Item.line := by
  intro ds
  induction ds with
  | nil =>
    intro qs out _ _ _ hq
    have : qs = [] := by simpa [requestsOf] using hq
    subst this
    exact ⟨[], by simp [putAll], .inl rfl, by simp [lines_nil]⟩
  | cons d ds ih =>
    intro qs out ha hsh hc hq
    have ha2 : Answered ds := fun x hx => ha x (List.mem_cons_of_mem _ hx)
    have hsh2 := fun x hx => hsh x (List.mem_cons_of_mem _ hx)
    have hc2 := fun r e as hx => hc r e as (List.mem_cons_of_mem _ hx)
    cases d with
    | config es => simpa [requestsOf] using ih qs out ha2 hsh2 hc2 (by simpa [requestsOf] using hq)
    | plain r => exact (ha _ List.mem_cons_self).elim
    | announce r bs => exact (ha _ List.mem_cons_self).elim
    | beacons rs => simpa [requestsOf] using ih qs out ha2 hsh2 hc2 (by simpa [requestsOf] using hq)
    | event r bs => simpa [requestsOf] using ih qs out ha2 hsh2 hc2 (by simpa [requestsOf] using hq)
    | request r e as =>
      cases qs with
      | nil => simp [requestsOf] at hq
      | cons q qs =>
        simp only [requestsOf, List.filterMap_cons, List.map_cons, List.cons.injEq] at hq
        obtain ⟨hr, he, hne, hs⟩ := hsh _ List.mem_cons_self
        obtain ⟨t, ht1, ht2⟩ := request_lines hq.1 hr.1 he hne hs (hc r e as List.mem_cons_self)
        obtain ⟨t2, h1, h2, h3⟩ := ih qs (put out t) ha2 hsh2 hc2 hq.2
        refine ⟨('\n' :: (injectTabs 1 t ++ ['\n'])) ++ t2, ?_, .inr ⟨_, rfl⟩, ?_⟩
        · rw [putAll, ht1]
          dsimp only
          rw [h1, put_eq, List.append_assoc]
        · rw [lines_starts _ h2, lines_put, ht2, h3]
          simp

theorem events_lines : ∀ (ds : List Decl) (vs : List Event) (out : Text), (∀ d ∈ ds, d.Shape) →
    vs.map eventView = eventsOf ds →
    ∃ t, putAll renderEvent out vs = some (out ++ t) ∧ Starts t ∧
      linesOf t = (ds.flatMap fun | .event r bs => eventItems r bs | _ => []).map Item.line := by
  intro ds
  induction ds with
  | nil =>
    intro vs out _ hq
    have : vs = [] := by simpa [eventsOf] using hq
    subst this
    exact ⟨[], by simp [putAll], .inl rfl, by simp [lines_nil]⟩
  | cons d ds ih =>
    intro vs out hsh hq
    have hsh2 := fun x hx => hsh x (List.mem_cons_of_mem _ hx)
    cases d with
    | config es => simpa [eventsOf] using ih vs out hsh2 (by simpa [eventsOf] using hq)
    | plain r => simpa [eventsOf] using ih vs out hsh2 (by simpa [eventsOf] using hq)
    | announce r bs => simpa [eventsOf] using ih vs out hsh2 (by simpa [eventsOf] using hq)
    | beacons rs => simpa [eventsOf] using ih vs out hsh2 (by simpa [eventsOf] using hq)
    | request r e as => simpa [eventsOf] using ih vs out hsh2 (by simpa [eventsOf] using hq)
    | event r bs =>
      cases vs with
      | nil => simp [eventsOf] at hq
      | cons v vs =>
        simp only [eventsOf, List.filterMap_cons, List.map_cons, List.cons.injEq] at hq
        obtain ⟨hr, _, _, hb⟩ := hsh _ List.mem_cons_self
        obtain ⟨t, ht1, ht2⟩ := event_lines hq.1 hr hb
        obtain ⟨t2, h1, h2, h3⟩ := ih vs (put out t) hsh2 hq.2
        refine ⟨('\n' :: (injectTabs 1 t ++ ['\n'])) ++ t2, ?_, .inr ⟨_, rfl⟩, ?_⟩
        · rw [putAll, ht1]
          dsimp only
          rw [h1, put_eq, List.append_assoc]
        · rw [lines_starts _ h2, lines_put, ht2, h3]
          simp

/-- The lines of the diagram of a store that says what the declarations say. -/
theorem render_lines {s : Store} {ds : List Decl} (ha : Answered ds) (hsh : ∀ d ∈ ds, d.Shape)
    (hc : ∀ r e as, Decl.request r e as ∈ ds → Concluded as)
    (h1 : s.requests.map requestView = requestsOf ds) (h2 : s.events.map eventView = eventsOf ds)
    (h3 : s.beacons = beaconsOf ds) :
    ∃ t, render s = some t ∧ linesOf t = (diagram ds).map Item.line := by
  obtain ⟨t1, e1, s1, l1⟩ := requests_lines ds s.requests [] ha hsh hc h1
  obtain ⟨t2, e2, s2, l2⟩ := events_lines ds s.events t1 hsh h2
  rw [List.nil_append] at e1
  have hb : ∀ r ∈ beaconRefs ds, PathShape r := by
    intro r hr
    obtain ⟨d, hd, hr⟩ := List.mem_flatMap.1 hr
    have := hsh d hd
    cases d with
    | beacons rs => exact this.2 r hr
    | _ => cases hr
  have l3 := beacon_lines hb
  refine ⟨_, by rw [render, e1]; dsimp only; rw [e2], ?_⟩
  have hs3 : Starts ('\n' :: (injectTabs 1 (renderBeacons s.beacons) ++ ['\n'])) := .inr ⟨_, rfl⟩
  have hs : Starts (t1 ++ t2 ++ '\n' :: (injectTabs 1 (renderBeacons s.beacons) ++ ['\n'])) :=
    (s1.append s2).append hs3
  have hl : linesOf (t1 ++ t2 ++ '\n' :: (injectTabs 1 (renderBeacons s.beacons) ++ ['\n'])) =
      ((ds.flatMap fun | .request r e as => requestItems r e as | _ => []) ++
      (ds.flatMap fun | .event r bs => eventItems r bs | _ => []) ++
      beaconItems (beaconRefs ds)).map Item.line := by
    rw [lines_starts _ hs3, lines_starts _ s2, lines_put, l1, l2, h3, beaconsOf, l3]
    simp
  have ht : linesOf (tabs 1) = [] := by decide +kernel
  rw [put_eq, module_template, lines_append, lines_starts _ hs, lines_append, lines_append, lines_append,
    hl, ht, lines_nil]
  have p1 := lines_item0 (i := .start) trivial
  have p2 := lines_plain (Item.plain (i := .participants) trivial) 1
  have p3 := lines_item0 (i := .finish) trivial
  rw [show "@startuml".toList = Item.start.line from rfl, show "@enduml".toList = Item.finish.line from rfl,
    show "collections Consumers as Consumers".toList = Item.participants.line from rfl, p1, p2, p3, diagram]
  simp only [List.map_cons, List.map_append, List.map_nil, List.append_assoc, List.nil_append, List.append_nil,
    List.cons_append]
  rfl

/-- A request without error cannot be drawn. -/
theorem renderRequest_none {q : Request} (h : q.error = none) : renderRequest q = none := by
  unfold renderRequest
  cases q.request with
  | none => rfl
  | some r => simp [h]

theorem putAll_none {α : Type} {f : α → Option Text} : ∀ (xs : List α) (out : Text),
    (∃ x ∈ xs, f x = none) → putAll f out xs = none := by
  intro xs
  induction xs with
  | nil => intro out ⟨x, hx, _⟩; cases hx
  | cons y ys ih =>
    intro out ⟨x, hx, hn⟩
    rw [putAll]
    cases hy : f y with
    | none => rfl
    | some t =>
      refine ih _ ?_
      rcases List.mem_cons.1 hx with rfl | hx
      · rw [hy] at hn; cases hn
      · exact ⟨x, hx, hn⟩

theorem render_none {s : Store} {q : Request} (hq : q ∈ s.requests) (h : q.error = none) :
    render s = none := by
  rw [render, putAll_none _ _ ⟨q, hq, renderRequest_none h⟩]

end Verif.Puml
