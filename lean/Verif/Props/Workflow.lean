import Verif.Proofs.WorkflowText
import Verif.Proofs.WorkflowPlain
set_option autoImplicit false
/-!
Property theorems about the workflow parser and store: C23, C26 and C69–C74.
-/
namespace Verif.Props

open Verif Verif.Flow Verif.Flow.Syntax

/-- A protocol for witnesses. -/
def flowProtText : List Char :=
  "group G { struct Q { str a; } struct R { str a; } }\nstruct E { str a; }\nstruct B { str a; }".toList

/-- What the protocol parser makes of it. -/
def flowProt : Prot.Store where
  sequence := 9
  structs := [
    ⟨2, 1, ['Q'], [⟨3, 2, ['a'], ['s', 't', 'r'], none, [], false, false, [['s', 't', 'r']]⟩], [['G']]⟩,
    ⟨4, 1, ['R'], [⟨5, 4, ['a'], ['s', 't', 'r'], none, [], false, false, [['s', 't', 'r']]⟩], [['G']]⟩,
    ⟨6, 0, ['E'], [⟨7, 6, ['a'], ['s', 't', 'r'], none, [], false, false, [['s', 't', 'r']]⟩], []⟩,
    ⟨8, 0, ['B'], [⟨9, 8, ['a'], ['s', 't', 'r'], none, [], false, false, [['s', 't', 'r']]⟩], []⟩]
  enums := []
  groups := [⟨1, 0, ['G'], [2, 4], [], []⟩]
  cStruct := none
  cGroup := none
  cEnum := none
  cField := none
  path := []

set_option maxRecDepth 20000 in
theorem flowProt_parses : Prot.Parses flowProtText (.accepted flowProt) := ⟨300, by rfl⟩

theorem flowProt_unique : Prot.GroupNamesUnique flowProt := by
  intro g hg h hh _ _
  simp only [flowProt, List.mem_singleton] at hg hh
  rw [hg, hh]

/-! ### C23 -/

/-- **C23** violated: reading a workflow that consists of the letter `A` never ends, and one with an
emoji in a comment panics; with any protocol. -/
theorem C23_parser_terminates_violated (pr : Prot.Store) :
    (¬ ∃ o, Parses pr "A".toList o) ∧ Parses pr "# 😀\nA;".toList .panicked := by
  refine ⟨?_, ⟨1, by rfl⟩⟩
  rintro ⟨o, n, h⟩
  have := never_ends pr n
  rw [show "A".toList = ['A'] from by decide] at h
  rw [h] at this
  exact nomatch this

/-- **C23** (partial) Reading ends, with one outcome, for every text whose last character is not a
letter, `_`, `@` or `&`; so for every text that ends with a line break. No text of ASCII characters
leads to a panic. The full property is that both hold for all texts. -/
theorem C23_parser_terminates_partial (pr : Prot.Store) (text : List Char) :
    ((∀ c, text.getLast? = some c → ¬ ((Prot.isAlnum c = true ∧ Prot.isDigit c = false) ∨ c = '_' ∨
      c = '@' ∨ c = '&')) → ∃ o, Parses pr text o) ∧
    (∀ o o2, Parses pr text o → Parses pr text o2 → o = o2) ∧
    ((∀ c ∈ text, c.toNat < 128) → ¬ Parses pr text .panicked) := by
  refine ⟨fun h => ?_, fun o o2 h h2 => parses_det h h2, fun h => ?_⟩
  · have he : EndsApart text := by
      intro c hc
      have := h c hc
      simp only [not_or, not_and, Bool.not_eq_false] at this
      obtain ⟨h1, h2, h3, h4⟩ := this
      simp only [Bool.or_eq_false_iff, Bool.and_eq_false_iff, Bool.not_eq_false', beq_eq_false_iff_ne]
      refine ⟨⟨⟨?_, h2⟩, h3⟩, h4⟩
      cases ha : Prot.isAlnum c with
      | false => exact .inl rfl
      | true => exact .inr (h1 ha)
    obtain ⟨n, o, hn⟩ := loop_ends text he text.length (PState.init pr) text (Nat.le_refl _) ⟨[], rfl⟩
    exact ⟨o, n, hn⟩
  · rintro ⟨n, hn⟩
    exact ascii_no_panic n _ _ h hn

example (pr : Prot.Store) : ∃ o, Parses pr "A\n".toList o := by
  refine (C23_parser_terminates_partial pr "A\n".toList).1 ?_
  intro c hc
  have : c = '\n' := by
    rw [show "A\n".toList = ['A', '\n'] from by decide] at hc
    exact (Option.some.inj hc).symm
  subst this
  decide

/-! ### C26 -/

/-- **C26** In an accepted workflow every request, event and beacon reference occurs once and no
beacon is a request, whatever the text. (There is one config by construction; that a second one is
refused is part of `C26_repeated_refused`.) -/
theorem C26_declarations_unique {pr pr2 : Prot.Store} {text : List Char} {s : Store}
    (h : Parses pr text (.accepted s pr2)) :
    (s.requests.map Request.request).Nodup ∧ (s.events.map Event.reference).Nodup ∧
    (s.beacons.map Broadcast.reference).Nodup ∧
    ∀ b ∈ s.beacons, ∀ r ∈ s.requests, r.request ≠ some b.reference := by
  obtain ⟨h1, h2⟩ := accepted_once h
  exact ⟨h1.requests.1, h1.events.1, h1.beacons, validate_apart h2⟩

/-- **C26** The operations of the store refuse exactly what is there already, and add otherwise, at
the end and nothing else. (The entities given to the store always have a reference.) -/
theorem C26_repeated_refused (s : Store) :
    (∀ (q : Request) r, q.request = some r →
      (s.addRequest q = none ↔ some r ∈ s.requests.map Request.request) ∧
      ∀ s2, s.addRequest q = some s2 → s2 = ⟨s.events, s.requests ++ [q], s.beacons, s.config⟩) ∧
    (∀ (e : Event) r, e.reference = some r →
      (s.addEvent e = none ↔ some r ∈ s.events.map Event.reference) ∧
      ∀ s2, s.addEvent e = some s2 → s2 = ⟨s.events ++ [e], s.requests, s.beacons, s.config⟩) ∧
    (∀ bs : List Broadcast,
      (s.addBeacons bs = none ↔ ¬ (bs.map Broadcast.reference).Nodup ∨
        ∃ b ∈ bs, b.reference ∈ s.beacons.map Broadcast.reference) ∧
      ∀ s2, s.addBeacons bs = some s2 → s2 = ⟨s.events, s.requests, s.beacons ++ bs, s.config⟩) ∧
    (∀ c, (s.setConfig c = none ↔ s.config ≠ none) ∧
      ∀ s2, s.setConfig c = some s2 → s2 = ⟨s.events, s.requests, s.beacons, some c⟩) := by
  refine ⟨?_, ?_, ?_, ?_⟩
  · intro q r hq
    unfold Store.addRequest
    rw [hq]
    simp only
    by_cases hx : s.requests.any (fun x => x.request == some r) = true
    · simp only [hx, if_true, true_iff]
      refine ⟨?_, fun _ h => nomatch h⟩
      obtain ⟨x, h1, h2⟩ := List.any_eq_true.1 hx
      exact List.mem_map.2 ⟨x, h1, by simpa using h2⟩
    · rw [if_neg hx]
      refine ⟨⟨fun h => (nomatch h), fun h => absurd ?_ hx⟩, fun s2 h => (Option.some.inj h).symm⟩
      obtain ⟨x, h1, h2⟩ := List.mem_map.1 h
      exact List.any_eq_true.2 ⟨x, h1, by simp [h2]⟩
  · intro q r hq
    unfold Store.addEvent
    rw [hq]
    simp only
    by_cases hx : s.events.any (fun x => x.reference == some r) = true
    · simp only [hx, if_true, true_iff]
      refine ⟨?_, fun _ h => nomatch h⟩
      obtain ⟨x, h1, h2⟩ := List.any_eq_true.1 hx
      exact List.mem_map.2 ⟨x, h1, by simpa using h2⟩
    · rw [if_neg hx]
      refine ⟨⟨fun h => (nomatch h), fun h => absurd ?_ hx⟩, fun s2 h => (Option.some.inj h).symm⟩
      obtain ⟨x, h1, h2⟩ := List.mem_map.1 h
      exact List.any_eq_true.2 ⟨x, h1, by simp [h2]⟩
  · intro bs
    refine ⟨?_, fun s2 h => addBeacons_mem bs s s2 h⟩
    induction bs generalizing s with
    | nil => simp [Store.addBeacons]
    | cons b bs ih =>
      rw [Store.addBeacons]
      by_cases hx : s.beacons.any (fun x => x.reference == b.reference) = true
      · simp only [hx, if_true, true_iff]
        right
        obtain ⟨x, h1, h2⟩ := List.any_eq_true.1 hx
        exact ⟨b, List.mem_cons_self, List.mem_map.2 ⟨x, h1, by simpa using h2⟩⟩
      · have hb : b.reference ∉ s.beacons.map Broadcast.reference := by
          intro hm
          obtain ⟨x, h1, h2⟩ := List.mem_map.1 hm
          exact hx (List.any_eq_true.2 ⟨x, h1, by simp [h2]⟩)
        rw [if_neg hx, ih]
        simp only [List.map_cons, List.nodup_cons, List.map_append, List.mem_append, List.mem_cons,
          List.map_nil, List.not_mem_nil, or_false]
        constructor
        · rintro (h | ⟨x, hx, h | h⟩)
          · exact .inl (fun hn => h hn.2)
          · exact .inr ⟨x, .inr hx, h⟩
          · exact .inl (fun hn => hn.1 (List.mem_map.2 ⟨x, hx, h⟩))
        · rintro (h | ⟨x, hx | hx, h⟩)
          · by_cases hd : (bs.map Broadcast.reference).Nodup
            · right
              have : b.reference ∈ bs.map Broadcast.reference := by
                by_cases hm : b.reference ∈ bs.map Broadcast.reference
                · exact hm
                · exact absurd ⟨hm, hd⟩ h
              obtain ⟨x, h1, h2⟩ := List.mem_map.1 this
              exact ⟨x, h1, .inr h2⟩
            · exact .inl hd
          · exact absurd (hx ▸ h) hb
          · exact .inr ⟨x, hx, .inl h⟩
  · intro c
    unfold Store.setConfig
    cases hc : s.config with
    | none =>
      simp only [Option.isSome_none, Bool.false_eq_true, if_false]
      exact ⟨by simp, fun s2 h => (Option.some.inj h).symm⟩
    | some x =>
      simp only [Option.isSome_some, if_true]
      exact ⟨by simp, fun s2 h => nomatch h⟩

set_option maxRecDepth 20000 in
example : Parses flowProt "G.Q;\nG.Q;\n".toList .rejected ∧
    Parses flowProt "G.Q;\n@beacons { > G.Q; }\n".toList .rejected :=
  ⟨⟨100, by rfl⟩, ⟨100, by rfl⟩⟩

/-! ### C70 -/

/-- **C70** A file that writes down declarations in the forms the language admits is accepted exactly
if all references are known where they are used and nothing is declared twice; otherwise it is
rejected. If it is accepted, the workflow says what the declarations say, in their order, and the
protocol is extended exactly by the service structs of the config. -/
theorem C70_parser_exact {ptext : List Char} {pr : Prot.Store} (hp : Prot.Parses ptext (.accepted pr))
    (hu : Prot.GroupNamesUnique pr) {ds : List Decl} (hsh : ∀ d ∈ ds, d.Shape) {text : List Char}
    (hsp : Spelled (ds.flatMap declSyms) text) :
    let K : Path → Prop := fun p => ∃ id, Prot.Leads pr.groups pr 0 p id
    (AllFine K ds ∧ Unique ds → ∃ s pr2, Parses pr text (.accepted s pr2) ∧
      s.requests.map requestView = requestsOf ds ∧ s.events.map eventView = eventsOf ds ∧
      s.beacons = beaconsOf ds ∧ s.config.map configView = (configs ds).head?.map configOf ∧
      ∀ p, (∃ id, Prot.Leads pr2.groups pr2 0 p id) ↔ knownAfterAll K ds p) ∧
    (¬ (AllFine K ds ∧ Unique ds) → Parses pr text .rejected) := by
  intro K
  rcases parse_decls (Prot.sound_accepted hp hu) hsh hsp with ⟨h1, h2, s, pr2, h3, h4, h5⟩ | ⟨h1, h2⟩
  · refine ⟨fun _ => ⟨s, pr2, h3, h4.requests, h4.events, h4.beacons, h4.config, fun p => ?_⟩,
      fun h => absurd ⟨h1, h2⟩ h⟩
    exact iff_of_eq (congrFun h5 p)
  · exact ⟨fun h => absurd h h1, fun _ => h2⟩

/-- A request with two answers, for the witness. -/
def flowRequest : Decl :=
  .request [['G'], ['Q']] [['E']] [⟨some ['Y'], [['G'], ['R']], [⟨[['B']], true⟩]⟩,
    ⟨some ['N'], [['G'], ['R']], []⟩]

/-- The same as a text. -/
def flowRequestText : List Char := "G.Q!E{(Y>G.R)>B?;(N>G.R);}".toList

theorem flow_path (p : Path) (hp : p ≠ [])
    (h : p.all (fun w => w.length == 1 && w.all (fun c => Prot.isAlnum c && !Prot.isDigit c)) = true) :
    PathShape p := by
  refine ⟨hp, fun w hw => ?_⟩
  have := List.all_eq_true.1 h w hw
  rw [Bool.and_eq_true, beq_iff_eq] at this
  match w, this with
  | [c], ⟨_, h2⟩ =>
    simp only [List.all_cons, List.all_nil, Bool.and_true, Bool.and_eq_true, Bool.not_eq_true'] at h2
    exact ⟨c, [], rfl, h2.2, fun d hd => .inl (List.mem_singleton.1 hd ▸ h2.1)⟩

theorem flowRequest_shape : flowRequest.Shape := by
  refine ⟨⟨flow_path _ (by simp) (by decide), ?_⟩, flow_path _ (by simp) (by decide), by simp, ?_⟩
  · intro w hw
    have : w = ['G'] := by simpa using hw.symm
    subst this
    decide
  · intro a ha
    simp only [List.mem_cons, List.not_mem_nil, or_false] at ha
    rcases ha with rfl | rfl
    · refine ⟨?_, flow_path _ (by simp) (by decide), ?_, by simp⟩
      · intro w hw
        exact (flow_path [['Y']] (by simp) (by decide)).2 w (by simpa using hw.symm)
      · intro b hb
        rw [List.mem_singleton.1 hb]
        exact flow_path _ (by simp) (by decide)
    · refine ⟨?_, flow_path _ (by simp) (by decide), by simp, by simp⟩
      intro w hw
      exact (flow_path [['N']] (by simp) (by decide)).2 w (by simpa using hw.symm)

/-- The hypotheses of `C70_parser_exact` hold for a request with two answers. -/
example : (∀ d ∈ [flowRequest], d.Shape) ∧ (∃ text, Spelled ([flowRequest].flatMap declSyms) text) ∧
    AllFine (fun p => ∃ id, Prot.Leads flowProt.groups flowProt 0 p id) [flowRequest] ∧
    Unique [flowRequest] := by
  have hsh : ∀ d ∈ [flowRequest], d.Shape := by
    intro d hd
    rw [List.mem_singleton.1 hd]
    exact flowRequest_shape
  have kE : ∃ id, Prot.Leads flowProt.groups flowProt 0 [['E']] id :=
    ⟨6, .here (.inr ⟨_, List.mem_cons_of_mem _ (List.mem_cons_of_mem _ List.mem_cons_self), rfl, rfl, rfl⟩)⟩
  have kB : ∃ id, Prot.Leads flowProt.groups flowProt 0 [['B']] id :=
    ⟨8, .here (.inr ⟨_, List.mem_cons_of_mem _ (List.mem_cons_of_mem _ (List.mem_cons_of_mem _
      List.mem_cons_self)), rfl, rfl, rfl⟩)⟩
  have kQ : ∃ id, Prot.Leads flowProt.groups flowProt 0 [['G'], ['Q']] id :=
    ⟨2, .into List.mem_cons_self rfl rfl (.here (.inr ⟨_, List.mem_cons_self, rfl, rfl, rfl⟩))⟩
  have kR : ∃ id, Prot.Leads flowProt.groups flowProt 0 [['G'], ['R']] id :=
    ⟨4, .into List.mem_cons_self rfl rfl (.here (.inr ⟨_, List.mem_cons_of_mem _ List.mem_cons_self,
      rfl, rfl, rfl⟩))⟩
  refine ⟨hsh, ⟨_, spelled_plain (writable_decls hsh)⟩, ⟨⟨kQ, kE, ?_, by simp⟩, trivial⟩, ?_⟩
  · intro a ha
    simp only [List.mem_cons, List.not_mem_nil, or_false] at ha
    rcases ha with rfl | rfl
    · exact ⟨kR, fun b hb => by rw [List.mem_singleton.1 hb]; exact kB, by simp⟩
    · exact ⟨kR, by simp, by simp⟩
  · simp [Unique, requestRefs, eventRefs, beaconRefs, configs, flowRequest]

/-- **C70** Every list of declarations in these forms can be written down. -/
theorem C70_writable {ds : List Decl} (hsh : ∀ d ∈ ds, d.Shape) :
    ∃ text, Spelled (ds.flatMap declSyms) text := ⟨_, spelled_plain (writable_decls hsh)⟩

/-- What the parser makes of it. -/
def flowStore : Store :=
  ⟨[], [⟨some "G.Q".toList, some "E".toList,
    [⟨some ['Y'], some "G.R".toList, [⟨['B'], true⟩], [], false⟩,
     ⟨some ['N'], some "G.R".toList, [], [], false⟩], [], [], .nothing, true⟩], [], none⟩

set_option maxRecDepth 20000 in
theorem flowRequest_parses : Parses flowProt flowRequestText (.accepted flowStore flowProt) :=
  ⟨100, by rfl⟩

/-! ### C71 -/

/-- **C71** Whatever the text of an accepted workflow: all references lead to a type of the
protocol that results; an event is called `connected`, `disconnected` or like a type; a request with
answers declares an error; with more than one answer each has a conclusion; a config has a producer,
a consumer, both keys, and all service structs are in the protocol. -/
theorem C71_references_known {ptext : List Char} {pr : Prot.Store}
    (hp : Prot.Parses ptext (.accepted pr)) (hu : Prot.GroupNamesUnique pr) {text : List Char}
    {s : Store} {pr2 : Prot.Store} (h : Parses pr text (.accepted s pr2)) :
    (∀ r ∈ storeNames s, Refers pr2 r) ∧
    (∀ e ∈ s.events, ∃ r, e.reference = some r ∧
      (r = "connected".toList ∨ r = "disconnected".toList ∨ Refers pr2 r)) ∧
    (∀ r ∈ s.requests, r.request ≠ none ∧ (r.actions ≠ [] → r.error ≠ none) ∧
      (∀ a ∈ r.actions, a.response ≠ none ∧ (r.actions.length ≠ 1 → a.conclusion ≠ none))) ∧
    (∀ c, s.config = some c → c.producer ≠ [] ∧ c.consumer ≠ [] ∧ c.selfKey ≠ none ∧
      c.assignedKey ≠ none ∧
      ∀ n ∈ ["SelfKeyResponse".toList, "HashRequest".toList, "HashResponse".toList,
        "BeaconConfirmation".toList, "ConnectConfirmationBeacon".toList],
        ∃ id, Prot.Leads pr2.groups pr2 0 (servicePath n) id) := by
  have hr := accepted_refs (Prot.sound_accepted hp hu) h
  have ho := (accepted_once h).1
  have up : ∀ r, defined pr2 r = true → Refers pr2 r := fun r hd => by
    obtain ⟨id, hid⟩ := (defined_known hr.sound r).1 hd
    exact ⟨splitDot r, id, (dotted_splitDot r).symm, hid⟩
  refine ⟨?_, ?_, ?_, ?_⟩
  · intro r hm
    apply up
    simp only [storeNames, List.mem_append, List.mem_flatMap, List.mem_map] at hm
    rcases hm with ((⟨q, hq, hm⟩ | ⟨e, he, b, hb, rfl⟩) | ⟨b, hb, rfl⟩) | ⟨c, hc, hm⟩
    · obtain ⟨h1, h2, h3, h4, _⟩ := hr.requests q hq
      simp only [requestNames, List.mem_append, List.mem_flatMap, List.mem_map,
        Option.mem_toList] at hm
      rcases hm with ((hm | hm) | hm) | ⟨a, ha, hm | ⟨b, hb, rfl⟩⟩
      · exact h1 r hm
      · exact h2 r hm
      · exact h3 r hm
      · obtain ⟨⟨x, hx, hd⟩, _⟩ := h4 a ha
        rw [hx] at hm
        injection hm with hm
        exact hm ▸ hd
      · exact (h4 a ha).2.1 b hb
    · exact (hr.events e he).2.2 b hb
    · exact hr.beacons b hb
    · obtain ⟨_, _, ⟨k, k1, k2⟩, ⟨j, j1, j2⟩, _⟩ := hr.config c (by simpa using hc)
      simp only [configNames, List.mem_append, Option.mem_toList, k1, j1, Option.some.injEq] at hm
      rcases hm with hm | hm
      · exact hm ▸ k2
      · exact hm ▸ j2
  · intro e he
    have := ho.events.2 e he
    obtain ⟨r, hre⟩ := Option.isSome_iff_exists.1 this
    refine ⟨r, hre, ?_⟩
    rcases (hr.events e he).2.1 r hre with hd | hd
    · simp only [isDefaultEvent, Bool.or_eq_true, decide_eq_true_eq] at hd
      rcases hd with hd | hd
      · exact .inl hd
      · exact .inr (.inl hd)
    · exact .inr (.inr (up r hd))
  · intro r hm
    obtain ⟨_, _, _, h4, h5⟩ := hr.requests r hm
    refine ⟨fun hn => ?_, h5, fun a ha => ⟨?_, (h4 a ha).2.2⟩⟩
    · have := ho.requests.2 r hm
      rw [hn] at this
      exact absurd this (by simp)
    · obtain ⟨⟨x, hx, _⟩, _⟩ := h4 a ha
      rw [hx]
      simp
  · intro c hc
    obtain ⟨h1, h2, ⟨k, k1, _⟩, ⟨j, j1, _⟩, h3⟩ := hr.config c hc
    exact ⟨h1, h2, by rw [k1]; simp, by rw [j1]; simp, h3⟩

example : storeNames flowStore = ["G.Q".toList, "E".toList, "G.R".toList, ['B'], "G.R".toList] ∧
    ∀ r ∈ storeNames flowStore, Refers flowProt r :=
  ⟨by rfl, (C71_references_known flowProt_parses flowProt_unique flowRequest_parses).1⟩

/-! ### C69 -/

set_option maxRecDepth 20000 in
/-- **C69** violated: with a comment in front that contains a letter outside ASCII a valid file is
rejected. -/
theorem C69_comments_violated :
    (∃ s pr2, Parses flowProt "\nG.Q;".toList (.accepted s pr2)) ∧
    Parses flowProt "# é\nG.Q;".toList .rejected :=
  ⟨⟨_, _, ⟨20, by rfl⟩⟩, ⟨20, by rfl⟩⟩

/-- **C69** (partial) A comment up to the end of a line, anywhere in a text, changes nothing, if
comment and the text before it consist of ASCII characters. The full property is this for all
comments and all texts. -/
theorem C69_comments_partial (pr : Prot.Store) (before body after : List Char)
    (hb : ∀ c ∈ before, c.toNat < 128) (hc : ∀ c ∈ body, c ≠ '\n' ∧ c.toNat < 128) (o : Outcome) :
    Parses pr (before ++ '#' :: (body ++ '\n' :: after)) o ↔ Parses pr (before ++ '\n' :: after) o := by
  unfold Parses
  simp only [loop_comment (r := after) hc _ _ _ _ (Differ.comment hb)]

example : Parses flowProt ("G.Q".toList ++ '#' :: ("a;b".toList ++ '\n' :: ";".toList))
    (.accepted ⟨[], [⟨some "G.Q".toList, none, [], [], [], .nothing, true⟩], [], none⟩ flowProt) :=
  (C69_comments_partial flowProt "G.Q".toList "a;b".toList ";".toList (by decide) (by decide) _).2
    ⟨20, by rfl⟩

/-! ### C72 -/

set_option maxRecDepth 20000 in
/-- **C72** violated: a declaration that the file does not finish is dropped without a message, and
so is an entry of a config without `;` at its end. -/
theorem C72_nothing_dropped_violated :
    Parses flowProt "@connected { > B;\n".toList (.accepted Store.new flowProt) ∧
    ∃ s pr2 c, Parses flowProt "&config { Producer: rust; Consumer: rust; SelfKey: B }".toList
      (.accepted s pr2) ∧ s.config = some c ∧ c.selfKey = some (serviceStruct "SelfKeyRequest".toList) := by
  exact ⟨⟨40, by rfl⟩, _, _, _, ⟨40, by rfl⟩, by rfl, by rfl⟩

/-- **C72** (partial) In files written in the forms the language admits nothing is dropped: whatever
is accepted says exactly what the declarations say. The full property is this for all accepted
texts. -/
theorem C72_nothing_dropped_partial {ptext : List Char} {pr : Prot.Store}
    (hp : Prot.Parses ptext (.accepted pr)) (hu : Prot.GroupNamesUnique pr) {ds : List Decl}
    (hsh : ∀ d ∈ ds, d.Shape) {text : List Char} (hsp : Spelled (ds.flatMap declSyms) text) {s : Store}
    {pr2 : Prot.Store} (h : Parses pr text (.accepted s pr2)) :
    s.requests.map requestView = requestsOf ds ∧ s.events.map eventView = eventsOf ds ∧
    s.beacons = beaconsOf ds ∧ s.config.map configView = (configs ds).head?.map configOf := by
  rcases parse_decls (Prot.sound_accepted hp hu) hsh hsp with ⟨_, _, s3, pr3, h3, h4, _⟩ | ⟨_, h2⟩
  · injection parses_det h h3 with h5 h6
    subst h5
    exact ⟨h4.requests, h4.events, h4.beacons, h4.config⟩
  · exact nomatch parses_det h h2

example : requestsOf [flowRequest] = flowStore.requests.map requestView := by rfl

/-! ### C73 -/

set_option maxRecDepth 20000 in
/-- **C73** violated, for every protocol: a request that only names a struct of the root is rejected,
and so is every request whose first name contains an underscore. -/
theorem C73_structs_as_requests_violated (pr : Prot.Store) :
    Parses pr "E;".toList .rejected ∧ Parses pr "my_group.Q;".toList .rejected :=
  ⟨⟨20, by rfl⟩, ⟨20, by rfl⟩⟩

set_option maxRecDepth 20000 in
/-- **C73** violated: the form which the parser's own error messages describe, an answer without
conclusion but with a broadcast, is rejected; with a conclusion it is accepted. -/
theorem C73_documented_form_violated :
    Parses flowProt "G.Q !E { (G.R) > B; }".toList .rejected ∧
    ∃ s pr2, Parses flowProt "G.Q !E { (Y > G.R) > B; }".toList (.accepted s pr2) :=
  ⟨⟨40, by rfl⟩, ⟨_, _, ⟨40, by rfl⟩⟩⟩

/-- **C73** (partial) Every type can be used as a request in the short form if its reference has at
least two names, the first of them without underscore. The full property is this for all types. -/
theorem C73_structs_as_requests_partial {ptext : List Char} {pr : Prot.Store}
    (hp : Prot.Parses ptext (.accepted pr)) (hu : Prot.GroupNamesUnique pr) {g : Prot.Name}
    {rest : Path} (hi : ∀ w ∈ g :: rest, Prot.Syntax.Ident w) (hr : rest ≠ []) (hg : '_' ∉ g)
    (hk : ∃ id, Prot.Leads pr.groups pr 0 (g :: rest) id) :
    ∃ text s, Spelled (pathSyms (g :: rest) ++ [.mark .semicolon]) text ∧
      Parses pr text (.accepted s pr) ∧ s.requests.map Request.request = [some (dotted (g :: rest))] := by
  have hsh : ∀ d ∈ [Decl.plain (g :: rest)], d.Shape := by
    intro d hd
    rw [List.mem_singleton.1 hd]
    refine ⟨⟨⟨by simp, hi⟩, ?_⟩, ?_⟩
    · intro w hw c hc he
      simp only [List.head?_cons, Option.some.injEq] at hw
      exact hg (hw ▸ he ▸ hc)
    · have := List.length_pos_iff.2 hr
      simp only [List.length_cons]
      omega
  obtain ⟨text, hsp⟩ := C70_writable hsh
  have hK : AllFine (Prot.Known pr) [Decl.plain (g :: rest)] := ⟨hk, trivial⟩
  have hU : Unique [Decl.plain (g :: rest)] := by
    simp [Unique, requestRefs, eventRefs, beaconRefs, configs]
  have hS := Prot.sound_accepted hp hu
  have hrun := run_decls [Decl.plain (g :: rest)] Store.new pr hsh
  rcases step_decls [Decl.plain (g :: rest)] [] Store.new pr ⟨rfl, rfl, rfl, rfl⟩ (by simp) hS hsh with
    ⟨_, _, st, pr2, h3, h4, _⟩ | ⟨h1, _⟩
  · have hpr : pr2 = pr := by
      simp only [declsResult, declResult, closeRequest] at h3
      cases hc : (openRequest (g :: rest) none [] []).close pr with
      | none => rw [hc] at h3; simp at h3
      | some q =>
        rw [hc] at h3
        simp only [Option.bind_some] at h3
        cases ha : Store.new.addRequest q with
        | none => rw [ha] at h3; simp at h3
        | some st3 =>
          rw [ha] at h3
          simp at h3
          exact h3.2.symm
    subst hpr
    rcases parse_decls hS hsh hsp with ⟨_, _, s3, pr3, h5, h6, _⟩ | ⟨h5, _⟩
    · obtain ⟨n, hn⟩ := parse_spelled _ _ (PState.init pr2) hsp
      unfold PState.init at hn
      unfold toks at hrun
      rw [hrun, h3] at hn
      have h7 : Parses pr2 text (finish ((some (st, pr2)).map (fun x => ⟨none, x.1, x.2⟩))) := ⟨n, hn⟩
      have h8 := parses_det h7 h5
      rw [Option.map_some, finish] at h8
      refine ⟨text, st, by simpa [declSyms] using hsp, ?_, ?_⟩
      · rw [Option.map_some, finish] at h7
        split at h7
        · exact h7
        · rename_i hv
          simp only [if_neg hv] at h8
          exact nomatch h8
      · rw [List.nil_append] at h4
        have := congrArg (List.map Prod.fst) h4.requests
        rw [List.map_map] at this
        exact this
    · exact absurd ⟨hK, hU⟩ h5
  · exfalso
    apply h1
    refine ⟨hK, ?_⟩
    simp [AllFresh, Fresh, requestRefs]

example : ∃ text s, Spelled (pathSyms [['G'], ['Q']] ++ [.mark .semicolon]) text ∧
    Parses flowProt text (.accepted s flowProt) ∧ s.requests.map Request.request = [some "G.Q".toList] := by
  obtain ⟨text, s, h1, h2, h3⟩ := C73_structs_as_requests_partial (g := ['G']) (rest := [['Q']])
    flowProt_parses flowProt_unique (flow_path [['G'], ['Q']] (by simp) (by decide)).2 (by simp)
    (by decide) ⟨2, .into List.mem_cons_self rfl rfl (.here (.inr ⟨_, List.mem_cons_self, rfl, rfl, rfl⟩))⟩
  exact ⟨text, s, h1, h2, h3⟩

/-! ### C74 -/

set_option maxRecDepth 20000 in
/-- **C74** violated: a conclusion of an accepted workflow need not be a name: two words become a
name with a dot, and behind `&` any character is allowed. -/
theorem C74_conclusions_violated :
    ∃ s pr2, Parses flowProt "G.Q !E { (Y N > G.R) > B; (&+- > G.R); }".toList (.accepted s pr2) ∧
      s.requests.flatMap (fun r => r.actions.map Action.conclusion) =
        [some "Y.N".toList, some "&+-".toList] :=
  ⟨_, _, ⟨40, by rfl⟩, by rfl⟩

/-- **C74** (partial) In files written in the forms the language admits every conclusion is a name.
The full property is this for all accepted workflows. -/
theorem C74_conclusions_partial {ptext : List Char} {pr : Prot.Store}
    (hp : Prot.Parses ptext (.accepted pr)) (hu : Prot.GroupNamesUnique pr) {ds : List Decl}
    (hsh : ∀ d ∈ ds, d.Shape) {text : List Char} (hsp : Spelled (ds.flatMap declSyms) text) {s : Store}
    {pr2 : Prot.Store} (h : Parses pr text (.accepted s pr2)) :
    ∀ r ∈ s.requests, ∀ a ∈ r.actions, ∀ w, a.conclusion = some w → Prot.Syntax.Ident w := by
  rcases parse_decls (Prot.sound_accepted hp hu) hsh hsp with ⟨_, _, s3, pr3, h3, h4, _⟩ | ⟨_, h2⟩
  · have := parses_det h h3
    injection this with h5 h6
    subst h5
    intro r hr a ha w hw
    have hm : requestView r ∈ requestsOf ds := h4.requests ▸ List.mem_map_of_mem hr
    simp only [requestsOf, List.mem_filterMap] at hm
    obtain ⟨d, hd, he⟩ := hm
    have hact : actionView a ∈ r.actions.map actionView := List.mem_map_of_mem ha
    cases d with
    | request q e as =>
      simp only [Option.some.injEq, requestView, Prod.mk.injEq] at he
      rw [← he.2.2.1] at hact
      obtain ⟨b, hb, hbe⟩ := List.mem_map.1 hact
      have hc : b.conclusion = some w := by
        simp only [actionOf, actionView, Prod.mk.injEq] at hbe
        exact hbe.1.trans hw
      exact ((hsh _ hd).2.2.2 b hb).1 w hc
    | plain _ =>
      simp only [Option.some.injEq, requestView, Prod.mk.injEq] at he
      rw [← he.2.2.1] at hact
      simp at hact
    | announce _ _ =>
      simp only [Option.some.injEq, requestView, Prod.mk.injEq] at he
      rw [← he.2.2.1] at hact
      simp at hact
    | _ => simp at he
  · exact nomatch parses_det h h2

end Verif.Props
