import Verif.Proofs.PumlRender
import Verif.Proofs.WorkflowDecls
set_option autoImplicit false
/-!
Lines tell items apart, and which messages are shown.
-/
namespace Verif.Puml

open Verif.Prot (Name)
open Verif.Flow (Ref Broadcast Event Action Request Store Parses)
open Verif.Flow.Syntax

/-- The rest behind a given start. -/
def after (p : Text) (l : Text) : Option Text := if p.isPrefixOf l then some (l.drop p.length) else none

/-- What a line says. -/
def readLine (l : Text) : Option Item :=
  if l = "@startuml".toList then some .start
  else if l = "collections Consumers as Consumers".toList then some .participants
  else if l = "end".toList then some .close
  else if l = "@enduml".toList then some .finish
  else
    (after "group ".toList l).map Item.group <|>
    (after "Producer -->x Consumer: <font color=red>".toList l).map Item.failure <|>
    (after "== ".toList l).map (fun r => Item.case r.dropLast.dropLast.dropLast) <|>
    [Party.consumer, .consumers, .producer].findSome? fun s => [Stroke.solid, .dashed].findSome? fun k =>
      [Party.consumer, .consumers, .producer].findSome? fun r =>
        (after (s.name ++ ' ' :: k.arrow ++ ' ' :: r.name ++ ": ".toList) l).map (Item.message s k r)

theorem readLine_line (i : Item) : readLine i.line = some i := by
  cases i with
  | start => rfl
  | participants => decide +kernel
  | group t => rfl
  | message s k r n =>
    cases s <;> cases k <;> cases r <;> rfl
  | failure n => rfl
  | case n =>
    have : readLine (Item.case n).line = some (.case (n ++ " ==".toList).dropLast.dropLast.dropLast) := rfl
    rw [this, show " ==".toList = [' ', '=', '='] by decide +kernel,
      show n ++ [' ', '=', '='] = ((n ++ [' ']) ++ ['=']) ++ ['='] by simp]
    simp only [List.dropLast_concat]
  | close => rfl
  | finish => rfl

theorem line_inj {i j : Item} (h : i.line = j.line) : i = j := by
  have := readLine_line i
  rw [h, readLine_line j] at this
  exact (Option.some.inj this).symm

theorem lines_inj : ∀ {xs ys : List Item}, xs.map Item.line = ys.map Item.line → xs = ys := by
  intro xs
  induction xs with
  | nil => intro ys h; simpa using h.symm
  | cons x xs ih =>
    intro ys h
    cases ys with
    | nil => simp at h
    | cons y ys =>
      simp only [List.map_cons, List.cons.injEq] at h
      rw [line_inj h.1, ih h.2]

/-! ### From texts -/

theorem fine_mem : ∀ {ds : List Decl} {K : Path → Prop}, AllFine K ds → ∀ d ∈ ds, ∃ K2, d.Fine K2 := by
  intro ds
  induction ds with
  | nil => intro K _ d hd; cases hd
  | cons x xs ih =>
    intro K h d hd
    rcases List.mem_cons.1 hd with rfl | hd
    · exact ⟨K, h.1⟩
    · exact ih h.2 d hd

/-- An accepted text: the store says what the declarations say, and where there is a choice there are
conclusions. -/
theorem accepted_holds {ptext : List Char} {pr : Prot.Store} (hp : Prot.Parses ptext (.accepted pr))
    (hu : Prot.GroupNamesUnique pr) {ds : List Decl} (hsh : ∀ d ∈ ds, d.Shape) {text : List Char}
    (hsp : Spelled (ds.flatMap declSyms) text) {s : Store} {pr2 : Prot.Store}
    (h : Parses pr text (.accepted s pr2)) :
    Holds s ds ∧ ∀ r e as, Decl.request r e as ∈ ds → Concluded as := by
  rcases parse_decls (Prot.sound_accepted hp hu) hsh hsp with ⟨hf, _, s3, pr3, h3, h4, _⟩ | ⟨_, h2⟩
  · injection parses_det h h3 with h5 h6
    subst h5
    refine ⟨h4, fun r e as hm => ?_⟩
    obtain ⟨K, hK⟩ := fine_mem hf _ hm
    exact hK.2.2.2
  · exact nomatch parses_det h h2

theorem draws_iff {s : Store} {ds : List Decl} (hsh : ∀ d ∈ ds, d.Shape)
    (hc : ∀ r e as, Decl.request r e as ∈ ds → Concluded as) (h : Holds s ds) :
    (render s).isSome = true ↔ Answered ds := by
  constructor
  · intro hr d hd
    have none_of : ∀ v, v ∈ requestsOf ds → v.2.1 = none → False := by
      intro v hv hn
      rw [← h.requests] at hv
      obtain ⟨q, hq, rfl⟩ := List.mem_map.1 hv
      rw [render_none hq hn] at hr
      cases hr
    cases d with
    | plain r =>
      exact none_of (some (dotted r), none, [], []) (List.mem_filterMap.2 ⟨_, hd, rfl⟩) rfl
    | announce r bs =>
      exact none_of (some (dotted r), none, [], bs.map dotted) (List.mem_filterMap.2 ⟨_, hd, rfl⟩) rfl
    | config es => trivial
    | request r e as => trivial
    | beacons rs => trivial
    | event r bs => trivial
  · intro ha
    obtain ⟨t, ht, _⟩ := render_lines ha hsh hc h.requests h.events h.beacons
    rw [ht]
    rfl

/-! ### Which messages are shown -/

/-- The item names the message. -/
def Item.Names (p : Path) : Item → Prop
  | .message _ _ _ n => n = dotted p
  | .failure n => n = dotted p
  | _ => False

theorem names_line {p : Path} {i : Item} (h : i.Names p) :
    ∃ front c, i.line = front ++ c :: dotted p ∧ (c = ' ' ∨ c = '>') := by
  cases i with
  | message s k r n =>
    cases h
    refine ⟨s.name ++ ' ' :: k.arrow ++ ' ' :: r.name ++ [':'], ' ', ?_, .inl rfl⟩
    have : (Item.message s k r (dotted p)).line =
      (s.name ++ ' ' :: k.arrow ++ ' ' :: r.name) ++ [':', ' '] ++ dotted p := rfl
    rw [this]
    simp
  | failure n =>
    cases h
    refine ⟨"Producer -->x Consumer: <font color=red".toList, '>', ?_, .inr rfl⟩
    have : (Item.failure (dotted p)).line =
      "Producer -->x Consumer: <font color=red>".toList ++ dotted p := rfl
    rw [this, show "Producer -->x Consumer: <font color=red>".toList =
      "Producer -->x Consumer: <font color=red".toList ++ ['>'] by decide +kernel, List.append_assoc]
    rfl
  | _ => cases h

theorem request_items {ds : List Decl} {r e : Path} {as : List ActionD} (hd : Decl.request r e as ∈ ds) :
    ∀ i ∈ requestItems r e as, i ∈ diagram ds := by
  intro i hi
  unfold diagram
  refine List.mem_cons_of_mem _ (List.mem_cons_of_mem _ (List.mem_append_left _ (List.mem_append_left _
    (List.mem_append_left _ (List.mem_flatMap.2 ⟨_, hd, hi⟩)))))

theorem event_items {ds : List Decl} {r : Path} {bs : List BroadcastD} (hd : Decl.event r bs ∈ ds) :
    ∀ i ∈ eventItems r bs, i ∈ diagram ds := by
  intro i hi
  unfold diagram
  refine List.mem_cons_of_mem _ (List.mem_cons_of_mem _ (List.mem_append_left _ (List.mem_append_left _
    (List.mem_append_right _ (List.mem_flatMap.2 ⟨_, hd, hi⟩)))))

theorem beacon_items {ds : List Decl} : ∀ i ∈ beaconItems (beaconRefs ds), i ∈ diagram ds := by
  intro i hi
  unfold diagram
  exact List.mem_cons_of_mem _ (List.mem_cons_of_mem _ (List.mem_append_left _ (List.mem_append_right _ hi)))

theorem cases_in {r e : Path} {as : List ActionD} (hl : as.length ≠ 1) {a : ActionD} (ha : a ∈ as) :
    ∀ i ∈ caseItems a, i ∈ requestItems r e as := by
  intro i hi
  unfold requestItems
  refine List.mem_cons_of_mem _ (List.mem_cons_of_mem _ (List.mem_cons_of_mem _ (List.mem_append_left _ ?_)))
  rw [answerItems]
  · exact List.mem_flatMap.2 ⟨a, ha, hi⟩
  · intro b hb
    rw [hb] at hl
    exact hl rfl

/-- Every mentioned message is named by an item. -/
theorem mentioned_named {ds : List Decl} (ha : Answered ds) (hq : SingleQuiet ds) {d : Decl} (hd : d ∈ ds)
    {p : Path} (hp : p ∈ mentioned d) : ∃ i ∈ diagram ds, i.Names p := by
  cases d with
  | config es => cases hp
  | plain r => exact (ha _ hd).elim
  | announce r bs => exact (ha _ hd).elim
  | beacons rs =>
    have : p ∈ beaconRefs ds := List.mem_flatMap.2 ⟨_, hd, hp⟩
    refine ⟨.message .consumer .dashed .producer (dotted p), beacon_items _ ?_, rfl⟩
    unfold beaconItems
    exact List.mem_cons_of_mem _ (List.mem_cons_of_mem _ (List.mem_cons_of_mem _
      (List.mem_append_left _ (List.mem_map.2 ⟨p, this, rfl⟩))))
  | event r bs =>
    rcases List.mem_cons.1 hp with rfl | hp
    · exact ⟨_, event_items hd _ (List.mem_cons_of_mem _ List.mem_cons_self), rfl⟩
    · obtain ⟨b, hb, rfl⟩ := List.mem_map.1 hp
      exact ⟨_, event_items hd _ (List.mem_cons_of_mem _ (List.mem_cons_of_mem _
        (List.mem_append_left _ (List.mem_map.2 ⟨b, hb, rfl⟩)))), rfl⟩
  | request r e as =>
    rcases List.mem_cons.1 hp with rfl | hp
    · exact ⟨_, request_items hd _ (List.mem_cons_of_mem _ List.mem_cons_self), rfl⟩
    rcases List.mem_cons.1 hp with rfl | hp
    · exact ⟨_, request_items hd _ (List.mem_cons_of_mem _ (List.mem_cons_of_mem _ List.mem_cons_self)), rfl⟩
    obtain ⟨a, haa, hpa⟩ := List.mem_flatMap.1 hp
    clear hp
    by_cases hl : as.length = 1
    · match as, hl with
      | [b], _ =>
        have : a = b := List.mem_singleton.1 haa
        subst this
        rw [hq r e a hd] at hpa
        have : p = a.response := by simpa using hpa
        subst this
        exact ⟨.message .producer .solid .consumer (dotted a.response), request_items hd _
          (List.mem_cons_of_mem _ (List.mem_cons_of_mem _ (List.mem_cons_of_mem _
            (List.mem_append_left _ List.mem_cons_self)))), rfl⟩
    · rcases List.mem_cons.1 hpa with rfl | hp
      · exact ⟨_, request_items hd _ (cases_in hl haa _ (List.mem_cons_of_mem _ List.mem_cons_self)), rfl⟩
      · obtain ⟨b, hb, rfl⟩ := List.mem_map.1 hp
        exact ⟨_, request_items hd _ (cases_in hl haa _ (List.mem_cons_of_mem _ (List.mem_cons_of_mem _
          (List.mem_map.2 ⟨b, hb, rfl⟩)))), rfl⟩

/-- Messages to all clients come from broadcasts of requests with several answers. -/
theorem to_consumers {ds : List Decl} {k : Stroke} {n : List Char}
    (h : Item.message .producer k .consumers n ∈ diagram ds) :
    ∃ r e as, Decl.request r e as ∈ ds ∧ as.length ≠ 1 ∧ ∃ a ∈ as, ∃ b ∈ a.broadcasts,
      k = strokeOf b.optional ∧ n = dotted b.ref := by
  unfold diagram at h
  simp only [List.mem_cons, List.mem_append, reduceCtorEq, false_or, List.mem_flatMap, or_assoc, or_false,
    List.not_mem_nil] at h
  rcases h with ⟨d, hd, h⟩ | ⟨d, hd, h⟩ | h
  · cases d with
    | request r e as =>
      by_cases hl : as.length = 1
      · match as, hl with
        | [b], _ => simp [requestItems, answerItems] at h
      · simp only [requestItems, List.mem_cons, reduceCtorEq, false_or, Item.message.injEq, List.mem_append,
          List.not_mem_nil, or_false, false_and, and_false] at h
        rw [answerItems] at h
        · obtain ⟨a, ha, h⟩ := List.mem_flatMap.1 h
          simp only [caseItems, List.mem_cons, reduceCtorEq, false_or, Item.message.injEq, List.mem_map,
            false_and, and_false] at h
          obtain ⟨b, hb, _, h1, _, h2⟩ := h
          exact ⟨r, e, as, hd, hl, a, ha, b, hb, h1.symm, h2.symm⟩
        · intro b hb
          rw [hb] at hl
          exact hl rfl
    | _ => cases h
  · cases d with
    | event r bs => simp [eventItems] at h
    | _ => cases h
  · simp [beaconItems] at h

end Verif.Puml
