import Verif.Proofs.PumlShown
import Verif.Props.Workflow
set_option autoImplicit false
/-!
Property theorems about sequence diagrams: C170–C173.
-/
namespace Verif.Props

open Verif Verif.Flow Verif.Flow.Syntax Verif.Puml

/-! ### C170 -/

/-- **C170** If every request of an accepted workflow declares answers the workflow is drawn, and the lines
of the diagram are, in this order: for every request a group with the request, its error and its answers,
each with its conclusion and its broadcasts if there are several; for every event a group with the event and
its broadcasts; a group with the beacons. There are no other lines. -/
theorem C170_diagram {ptext : List Char} {pr : Prot.Store} (hp : Prot.Parses ptext (.accepted pr))
    (hu : Prot.GroupNamesUnique pr) {ds : List Decl} (hsh : ∀ d ∈ ds, d.Shape) {text : List Char}
    (hsp : Spelled (ds.flatMap declSyms) text) {s : Store} {pr2 : Prot.Store}
    (h : Parses pr text (.accepted s pr2)) (ha : Answered ds) :
    ∃ t, Puml.render s = some t ∧ linesOf t = (diagram ds).map Item.line := by
  obtain ⟨h1, h2⟩ := accepted_holds hp hu hsh hsp h
  exact render_lines ha hsh h2 h1.requests h1.events h1.beacons

/-- **C170** A line says one thing only: diagrams with the same lines say the same. -/
theorem C170_readable {xs ys : List Item} (h : xs.map Item.line = ys.map Item.line) : xs = ys := lines_inj h

/-- The diagram of the workflow of `flowRequest`. -/
def flowDiagram : List Char :=
  ("@startuml\n\n    collections Consumers as Consumers\n    \n" ++
    "    group GQ\n" ++
    "        Consumer -> Producer: G.Q\n" ++
    "        Producer -->x Consumer: <font color=red>E    \n" ++
    "        == Y ==\n" ++
    "            Producer -> Consumer: G.R    \n" ++
    "            Producer --> Consumers: B\n" ++
    "        == N ==\n" ++
    "            Producer -> Consumer: G.R    \n" ++
    "    end\n\n" ++
    "    group Beacons\n" ++
    "        Consumer -> Producer: Connected Event\n" ++
    "        Consumer -> Producer: Disconnected Event    \n" ++
    "    end\n\n@enduml").toList

theorem flowStore_drawn : Puml.render flowStore = some flowDiagram := by decide +kernel

theorem flowRequest_answered : Answered [flowRequest] := by
  intro d hd
  rw [List.mem_singleton.1 hd]
  exact trivial

theorem flowRequest_spelled : Spelled ([flowRequest].flatMap declSyms) flowRequestText := by
  have w : ∀ (c : Char) (g : List Char) (d : Char) (rest : List Char) (ts : List Sym), Gap g →
      (Prot.isAlnum c && !Prot.isDigit c) = true → Separates d → ts ≠ [] → Spelled ts (d :: rest) →
      Spelled (.word [c] :: ts) (g ++ ([c] ++ d :: rest)) := by
    intro c g d rest ts hg hc hd hts hs
    refine .word hg (.inl ⟨c, [], rfl, ?_, ?_⟩) hd hts hs
    · simp only [Bool.and_eq_true, Bool.not_eq_true'] at hc
      exact hc.2
    · intro e he
      simp only [Bool.and_eq_true] at hc
      exact .inl (List.mem_singleton.1 he ▸ hc.1)
  have m : ∀ (k : Mark) (rest : List Char) (ts : List Sym), Spelled ts rest →
      Spelled (.mark k :: ts) ([] ++ k.char :: rest) := fun k rest ts hs => .mark .nil hs
  have sm : ∀ k : Mark, Separates k.char := fun k => .inr (.inr ⟨k, rfl⟩)
  exact w 'G' [] _ _ _ .nil (by decide) (sm .dot) (by simp) <| m .dot _ _ <|
    w 'Q' [] _ _ _ .nil (by decide) (sm .exclamation) (by simp) <| m .exclamation _ _ <|
    w 'E' [] _ _ _ .nil (by decide) (sm .opn) (by simp) <| m .opn _ _ <|
    m .openBracket _ _ <| w 'Y' [] _ _ _ .nil (by decide) (sm .arrow) (by simp) <| m .arrow _ _ <|
    w 'G' [] _ _ _ .nil (by decide) (sm .dot) (by simp) <| m .dot _ _ <|
    w 'R' [] _ _ _ .nil (by decide) (sm .closeBracket) (by simp) <| m .closeBracket _ _ <|
    m .arrow _ _ <| w 'B' [] _ _ _ .nil (by decide) (sm .question) (by simp) <| m .question _ _ <|
    m .semicolon _ _ <|
    m .openBracket _ _ <| w 'N' [] _ _ _ .nil (by decide) (sm .arrow) (by simp) <| m .arrow _ _ <|
    w 'G' [] _ _ _ .nil (by decide) (sm .dot) (by simp) <| m .dot _ _ <|
    w 'R' [] _ _ _ .nil (by decide) (sm .closeBracket) (by simp) <| m .closeBracket _ _ <|
    m .semicolon _ _ <| m .cls _ _ <| .nil .nil

theorem flowRequest_all_shape : ∀ d ∈ [flowRequest], d.Shape := by
  intro d hd
  rw [List.mem_singleton.1 hd]
  exact flowRequest_shape

example : ∃ t, Puml.render flowStore = some t ∧ linesOf t = (diagram [flowRequest]).map Item.line :=
  C170_diagram flowProt_parses flowProt_unique flowRequest_all_shape flowRequest_spelled flowRequest_parses
    flowRequest_answered

example : (diagram [flowRequest]).length = 16 := by decide

/-! ### C171 -/

set_option maxRecDepth 20000 in
/-- **C171** violated: a workflow with a request without answers is accepted but cannot be drawn, and
neither can one whose request only announces a broadcast. -/
theorem C171_drawn_violated :
    (∃ s pr2, Parses flowProt "G.Q;".toList (.accepted s pr2) ∧ Puml.render s = none) ∧
    ∃ s pr2, Parses flowProt "G.Q{ > B; }".toList (.accepted s pr2) ∧ Puml.render s = none :=
  ⟨⟨_, _, ⟨20, by rfl⟩, by decide +kernel⟩, ⟨_, _, ⟨40, by rfl⟩, by decide +kernel⟩⟩

/-- **C171** (partial) An accepted workflow can be drawn exactly if all its requests declare answers. The
full property is that every accepted workflow can be drawn. -/
theorem C171_drawn_partial {ptext : List Char} {pr : Prot.Store} (hp : Prot.Parses ptext (.accepted pr))
    (hu : Prot.GroupNamesUnique pr) {ds : List Decl} (hsh : ∀ d ∈ ds, d.Shape) {text : List Char}
    (hsp : Spelled (ds.flatMap declSyms) text) {s : Store} {pr2 : Prot.Store}
    (h : Parses pr text (.accepted s pr2)) : (Puml.render s).isSome = true ↔ Answered ds := by
  obtain ⟨h1, h2⟩ := accepted_holds hp hu hsh hsp h
  exact draws_iff hsh h2 h1

example : (Puml.render flowStore).isSome = true :=
  (C171_drawn_partial flowProt_parses flowProt_unique flowRequest_all_shape flowRequest_spelled
    flowRequest_parses).2 flowRequest_answered

/-! ### C172 -/

/-- A request with one answer and a broadcast. -/
def flowSingle : Decl := .request [['G'], ['Q']] [['E']] [⟨some ['Y'], [['G'], ['R']], [⟨[['B']], false⟩]⟩]

set_option maxRecDepth 20000 in
/-- **C172** violated: the broadcast of a request with a single answer is not in the diagram. The workflow is
that of the declaration `flowSingle`, which mentions `B`. -/
theorem C172_all_shown_violated :
    [['B']] ∈ mentioned flowSingle ∧
    ∃ s pr2 t, Parses flowProt "G.Q!E{(Y>G.R)>B;}".toList (.accepted s pr2) ∧
      s.requests.map requestView = requestsOf [flowSingle] ∧ Puml.render s = some t ∧ ¬ Shown t [['B']] := by
  refine ⟨by simp [mentioned, flowSingle], _, _, _, ⟨40, by rfl⟩, by rfl, by rfl, ?_⟩
  rintro ⟨l, hl, front, c, rfl, hc⟩
  have : ∀ l ∈ linesOf ((Puml.render ⟨[], [⟨some "G.Q".toList, some "E".toList,
      [⟨some ['Y'], some "G.R".toList, [⟨['B'], false⟩], [], false⟩], [], [], .nothing, true⟩], [], none⟩).getD
        []), l.getLast? ≠ some 'B' := by decide +kernel
  refine this _ hl ?_
  simp [dotted, List.getLast?_append]

/-- **C172** (partial) If requests with a single answer broadcast nothing, every message that a declaration
mentions is the last word of a line of the diagram. The full property is this for all workflows that are
drawn. -/
theorem C172_all_shown_partial {ptext : List Char} {pr : Prot.Store} (hp : Prot.Parses ptext (.accepted pr))
    (hu : Prot.GroupNamesUnique pr) {ds : List Decl} (hsh : ∀ d ∈ ds, d.Shape) {text : List Char}
    (hsp : Spelled (ds.flatMap declSyms) text) {s : Store} {pr2 : Prot.Store}
    (h : Parses pr text (.accepted s pr2)) {t : List Char} (ht : Puml.render s = some t)
    (hq : SingleQuiet ds) : ∀ d ∈ ds, ∀ p ∈ mentioned d, Shown t p := by
  intro d hd p hpm
  have ha := (C171_drawn_partial hp hu hsh hsp h).1 (by rw [ht]; rfl)
  obtain ⟨t2, h1, h2⟩ := C170_diagram hp hu hsh hsp h ha
  rw [ht] at h1
  cases h1
  obtain ⟨i, hi, hn⟩ := mentioned_named ha hq hd hpm
  obtain ⟨front, c, h3, h4⟩ := names_line hn
  exact ⟨i.line, h2 ▸ List.mem_map.2 ⟨i, hi, rfl⟩, front, c, h3, h4⟩

example : Shown flowDiagram [['B']] :=
  C172_all_shown_partial flowProt_parses flowProt_unique flowRequest_all_shape flowRequest_spelled
    flowRequest_parses flowStore_drawn (by
      intro r e a h
      simp [flowRequest] at h) _ List.mem_cons_self _ (by simp [mentioned, flowRequest])

/-! ### C173 -/

set_option maxRecDepth 20000 in
/-- **C173** violated: whether a broadcast of an event is optional cannot be seen in the diagram. -/
theorem C173_optional_violated :
    ∃ s s2 t, Parses flowProt "@connected { > B; }".toList (.accepted s flowProt) ∧
      Parses flowProt "@connected { > B?; }".toList (.accepted s2 flowProt) ∧
      s.events.map eventView ≠ s2.events.map eventView ∧
      Puml.render s = some t ∧ Puml.render s2 = some t :=
  ⟨_, _, _, ⟨40, by rfl⟩, ⟨40, by rfl⟩, by decide +kernel, rfl, by decide +kernel⟩

/-- **C173** (partial) With requests it can be seen: there is a dashed arrow to all clients exactly for the
optional broadcasts of requests with several answers, a solid one exactly for the others. The full property
is this for the broadcasts of events, too. -/
theorem C173_optional_partial {ptext : List Char} {pr : Prot.Store} (hp : Prot.Parses ptext (.accepted pr))
    (hu : Prot.GroupNamesUnique pr) {ds : List Decl} (hsh : ∀ d ∈ ds, d.Shape) {text : List Char}
    (hsp : Spelled (ds.flatMap declSyms) text) {s : Store} {pr2 : Prot.Store}
    (h : Parses pr text (.accepted s pr2)) {t : List Char} (ht : Puml.render s = some t) (o : Bool)
    (name : List Char) :
    (if o then "Producer --> Consumers: " else "Producer -> Consumers: ").toList ++ name ∈ linesOf t ↔
      ∃ r e as, Decl.request r e as ∈ ds ∧ as.length ≠ 1 ∧ ∃ a ∈ as, ∃ b ∈ a.broadcasts,
        b.optional = o ∧ name = dotted b.ref := by
  have ha := (C171_drawn_partial hp hu hsh hsp h).1 (by rw [ht]; rfl)
  obtain ⟨t2, h1, h2⟩ := C170_diagram hp hu hsh hsp h ha
  rw [ht] at h1
  cases h1
  have hl : (if o then "Producer --> Consumers: " else "Producer -> Consumers: ").toList ++ name =
      (Item.message .producer (strokeOf o) .consumers name).line := by
    cases o
    · exact (line_solid name).symm
    · exact (line_dashed name).symm
  rw [hl, h2]
  constructor
  · intro hm
    obtain ⟨i, hi, he⟩ := List.mem_map.1 hm
    have := line_inj he
    subst this
    obtain ⟨r, e, as, hd, hn, a, haa, b, hb, h3, h4⟩ := to_consumers hi
    refine ⟨r, e, as, hd, hn, a, haa, b, hb, ?_, h4⟩
    cases ho : b.optional <;> cases o <;> rw [ho] at h3 <;> first | rfl | simp [strokeOf] at h3
  · rintro ⟨r, e, as, hd, hn, a, haa, b, hb, rfl, rfl⟩
    exact List.mem_map.2 ⟨_, request_items hd _ (cases_in hn haa _ (List.mem_cons_of_mem _
      (List.mem_cons_of_mem _ (List.mem_map.2 ⟨b, hb, rfl⟩)))), rfl⟩

example : "Producer --> Consumers: ".toList ++ ['B'] ∈ linesOf flowDiagram :=
  (C173_optional_partial flowProt_parses flowProt_unique flowRequest_all_shape flowRequest_spelled
    flowRequest_parses flowStore_drawn true ['B']).2
    ⟨_, _, _, List.mem_cons_self, by simp, _, List.mem_cons_self, _, List.mem_cons_self, rfl, rfl⟩

end Verif.Props
