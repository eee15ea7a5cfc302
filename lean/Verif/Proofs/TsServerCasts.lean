import Verif.Proofs.TsServerServe
set_option autoImplicit false
/-! Broadcasts of the TypeScript server, handlers that go on, reactions to errors. -/
namespace Verif.TsServer

open Verif Verif.Spec

/-! ### Collecting -/

theorem addCast_some {methods : List (Name × Ref × Option Ref)} {resp : Ref} {casts casts' : List Cast}
    {c : Call} (h : addCast methods resp casts c = some casts') :
    ∃ ref only, (c.name, ref, only) ∈ methods ∧ (only = none ∨ only = some resp) ∧
      (∀ x ∈ casts, x.1 ≠ ref) ∧ casts' = casts ++ [(ref, c.uuids, c.body)] := by
  unfold addCast at h
  split at h
  · cases h
  · rename_i n ref only e
    split at h
    · cases h
    · rename_i h1
      split at h
      · cases h
      · rename_i h2
        have hm := List.mem_of_find?_eq_some e
        have hn := List.find?_some e
        simp only [decide_eq_true_eq] at hn
        subst hn
        refine ⟨ref, only, List.mem_reverse.1 hm, ?_, ?_, (Option.some.inj h).symm⟩
        · by_cases ho : only = none
          · exact .inl ho
          · refine .inr (Decidable.of_not_not (fun hr => h1 ⟨ho, hr⟩))
        · intro x hx e2
          apply h2
          simp only [List.any_eq_true, decide_eq_true_eq]
          exact ⟨x, hx, e2⟩

theorem collect_some {methods : List (Name × Ref × Option Ref)} {resp : Ref} :
    ∀ (calls : List Call) {casts casts' : List Cast}, collect methods resp calls casts = some casts' →
      (casts.map Prod.fst).Nodup →
      (casts'.map Prod.fst).Nodup ∧ ∃ new, casts' = casts ++ new ∧ new.length = calls.length ∧
        ∀ i (h1 : i < new.length) (h2 : i < calls.length), (new[i].2 = (calls[i].uuids, calls[i].body)) ∧
          ∃ only, (calls[i].name, new[i].1, only) ∈ methods ∧ (only = none ∨ only = some resp)
  | [], casts, casts', h, hn => by
    cases h
    exact ⟨hn, [], by simp, rfl, fun i h1 => absurd h1 (by simp)⟩
  | c :: cs, casts, casts', h, hn => by
    unfold collect at h
    cases ha : addCast methods resp casts c with
    | none => rw [ha] at h; cases h
    | some mid =>
      rw [ha, Option.bind_some] at h
      obtain ⟨ref, only, h1, h2, h3, rfl⟩ := addCast_some ha
      have hn' : ((casts ++ [(ref, c.uuids, c.body)]).map Prod.fst).Nodup := by
        rw [List.map_append, List.nodup_append]
        refine ⟨hn, by simp, ?_⟩
        intro y hy z hz e
        obtain ⟨x, hx, e1⟩ := List.mem_map.1 hy
        simp only [List.map_cons, List.map_nil, List.mem_singleton] at hz
        exact h3 x hx (by rw [e1, e, hz])
      obtain ⟨h4, new, h5, h6, h7⟩ := collect_some cs h hn'
      refine ⟨h4, (ref, c.uuids, c.body) :: new, by rw [h5]; simp, by simp [h6], ?_⟩
      intro i hi hj
      cases i with
      | zero => exact ⟨rfl, only, h1, h2⟩
      | succ i =>
        simp only [List.getElem_cons_succ]
        exact h7 i (by simpa using hi) (by simpa using hj)

theorem requestMethods_mem {r : Flow.Request} {n : Name} {ref : Ref} {only : Option Ref} :
    (n, ref, only) ∈ requestMethods r ↔
      ∃ a ∈ r.actions, ∃ b ∈ a.broadcast, n = plain ref ∧ b.reference = ref ∧ a.response = only := by
  unfold requestMethods
  rw [List.mem_flatMap]
  constructor
  · rintro ⟨a, ha, h⟩
    obtain ⟨b, hb, e⟩ := List.mem_map.1 h
    injection e with e1 e2
    injection e2 with e2 e3
    exact ⟨a, ha, b, hb, by rw [← e1, ← e2], e2, e3⟩
  · rintro ⟨a, ha, b, hb, rfl, rfl, rfl⟩
    exact ⟨a, ha, List.mem_map.2 ⟨b, hb, rfl⟩⟩

/-- What user code collected for a response. -/
theorem collect_request {r : Flow.Request} (hr : ∀ a ∈ r.actions, a.response ≠ none) {resp : Ref}
    {calls : List Call} {casts : List Cast}
    (h : collect (requestMethods r) resp calls [] = some casts) :
    (casts.map Prod.fst).Nodup ∧
    casts.map (fun x => (x.1.filter (· ≠ '.'), x.2)) = calls.map (fun c => (c.name, c.uuids, c.body)) ∧
    ∀ x ∈ casts, Allows r resp x.1 := by
  obtain ⟨h1, new, h2, h3, h4⟩ := collect_some calls h (by simp)
  rw [List.nil_append] at h2
  subst h2
  refine ⟨h1, ?_, ?_⟩
  · refine List.ext_getElem (by simp [h3]) ?_
    intro i hi hj
    simp only [List.getElem_map]
    have hi' : i < casts.length := by simpa using hi
    have hj' : i < calls.length := by simpa using hj
    obtain ⟨h5, only, h6, _⟩ := h4 i hi' hj'
    obtain ⟨a, _, b, _, h7, _⟩ := requestMethods_mem.1 h6
    rw [h5, h7]
    rfl
  · intro x hx
    obtain ⟨i, hi, rfl⟩ := List.getElem_of_mem hx
    obtain ⟨_, only, h6, h8⟩ := h4 i hi (by omega)
    obtain ⟨a, ha, b, hb, _, h9, h10⟩ := requestMethods_mem.1 h6
    refine ⟨a, ha, ?_, b, hb, h9⟩
    rcases h8 with h8 | h8
    · exact absurd (h10.trans h8) (hr a ha)
    · exact h10.trans h8

/-- What user code collected for an event. -/
theorem collect_event {e : Flow.Event} {resp : Ref} {calls : List Call} {casts : List Cast}
    (h : collect (eventMethods e) resp calls [] = some casts) :
    casts.map (fun x => (x.1.filter (· ≠ '.'), x.2)) = calls.map (fun c => (c.name, c.uuids, c.body)) ∧
    ∀ x ∈ casts, ∃ b ∈ e.broadcasts, b.reference = x.1 := by
  have hm : ∀ {n ref only}, (n, ref, only) ∈ eventMethods e →
      n = plain ref ∧ ∃ b ∈ e.broadcasts, b.reference = ref := by
    intro n ref only h
    obtain ⟨b, hb, e1⟩ := List.mem_map.1 h
    cases e1
    exact ⟨rfl, b, hb, rfl⟩
  obtain ⟨_, new, h2, h3, h4⟩ := collect_some calls h (by simp)
  rw [List.nil_append] at h2
  subst h2
  refine ⟨?_, ?_⟩
  · refine List.ext_getElem (by simp [h3]) ?_
    intro i hi hj
    simp only [List.getElem_map]
    obtain ⟨h5, only, h6, _⟩ := h4 i (by simpa using hi) (by simpa using hj)
    rw [h5, (hm h6).1]
    rfl
  · intro x hx
    obtain ⟨i, hi, rfl⟩ := List.getElem_of_mem hx
    obtain ⟨_, only, h6, _⟩ := h4 i hi (by omega)
    exact (hm h6).2

theorem covers_iff {bs : List Flow.Broadcast} {casts : List Cast} :
    covers bs casts = true ↔ ∀ ref, ⟨ref, false⟩ ∈ bs → ∃ x ∈ casts, x.1 = ref := by
  unfold covers
  simp only [List.all_eq_true, List.mem_filter, List.any_eq_true, decide_eq_true_eq]
  constructor
  · intro h ref hb
    exact h _ ⟨hb, rfl⟩
  · rintro h ⟨ref, o⟩ ⟨hb, ho⟩
    cases o with
    | true => cases ho
    | false => exact h ref hb

theorem complete_iff {r : Flow.Request} {resp : Ref} {casts : List Cast} :
    complete r resp casts = true ↔ ∀ ref, Requires r resp ref → ∃ x ∈ casts, x.1 = ref := by
  unfold complete
  rw [List.all_eq_true]
  constructor
  · rintro h ref ⟨a, ha, hr, hb⟩
    have := h a ha
    simp only [Bool.or_eq_true, decide_eq_true_eq] at this
    rcases this with (h1 | h1) | h1
    · rw [List.isEmpty_iff] at h1
      rw [h1] at hb
      cases hb
    · exact absurd hr h1
    · exact covers_iff.1 h1 ref hb
  · intro h a ha
    simp only [Bool.or_eq_true, decide_eq_true_eq]
    by_cases hr : a.response = some resp
    · exact .inr (covers_iff.2 (fun ref hb => h ref ⟨a, ha, hr, hb⟩))
    · exact .inl (.inr hr)

/-- The method found by its name, if names differ. -/
theorem find_method {methods : List (Name × Ref × Option Ref)} (hn : (methods.map Prod.fst).Nodup)
    {m : Name × Ref × Option Ref} (hm : m ∈ methods) :
    methods.reverse.find? (fun x => x.1 = m.1) = some m := by
  cases h : methods.reverse.find? (fun x => x.1 = m.1) with
  | none =>
    rw [List.find?_eq_none] at h
    have := h m (List.mem_reverse.2 hm)
    simp at this
  | some y =>
    have h1 := List.mem_reverse.1 (List.mem_of_find?_eq_some h)
    have h2 := List.find?_some h
    simp only [decide_eq_true_eq] at h2
    congr 1
    clear h
    induction methods with
    | nil => cases hm
    | cons z zs ih =>
      rw [List.map_cons, List.nodup_cons] at hn
      rcases List.mem_cons.1 hm with e | hm'
      · rcases List.mem_cons.1 h1 with e1 | h1'
        · rw [e, e1]
        · exact absurd (List.mem_map.2 ⟨y, h1', by rw [h2, e]⟩) hn.1
      · rcases List.mem_cons.1 h1 with e1 | h1'
        · exact absurd (List.mem_map.2 ⟨m, hm', by rw [← h2, e1]⟩) hn.1
        · exact ih hn.2 hm' h1'

theorem collect_all {methods : List (Name × Ref × Option Ref)} {resp : Ref} {only : Option Ref}
    (ho : only = none ∨ only = some resp)
    (hn : (methods.map Prod.fst).Nodup) : ∀ (xs ys : List Cast),
      (∀ x ∈ xs, (plain x.1, x.1, only) ∈ methods) → ((ys ++ xs).map Prod.fst).Nodup →
      collect methods resp (xs.map (fun x => ⟨x.2.1, plain x.1, x.2.2⟩)) ys = some (ys ++ xs)
  | [], ys, _, _ => by simp [collect]
  | x :: xs, ys, h, hd => by
    have hm := h x List.mem_cons_self
    have hf := find_method hn hm
    have hnot : ys.any (fun y => y.1 = x.1) = false := by
      rw [List.any_eq_false]
      intro y hy
      simp only [decide_eq_true_eq]
      rw [List.map_append, List.nodup_append] at hd
      exact hd.2.2 _ (List.mem_map.2 ⟨y, hy, rfl⟩) _ (List.mem_map.2 ⟨x, List.mem_cons_self, rfl⟩)
    have ha : addCast methods resp ys ⟨x.2.1, plain x.1, x.2.2⟩ = some (ys ++ [x]) := by
      unfold addCast
      dsimp only at hf ⊢
      rw [hf]
      dsimp only
      rw [if_neg (by rintro ⟨h1, h2⟩; rcases ho with h | h; exact h1 h; exact h2 h), hnot]
      rfl
    rw [List.map_cons]
    unfold collect
    rw [ha, Option.bind_some, collect_all ho hn xs (ys ++ [x]) (fun y hy => h y (List.mem_cons_of_mem _ hy))
      (by simpa using hd)]
    simp

theorem methods_names {r : Flow.Request} : (requestMethods r).map Prod.fst =
    (r.actions.flatMap Flow.Action.broadcast).map (fun b => b.reference.filter (· ≠ '.')) := by
  unfold requestMethods
  rw [List.map_flatMap, List.map_flatMap]
  congr 1
  funext a
  rw [List.map_map]
  rfl

/-! ### What is sent -/

/-- Not a send. -/
def Mute (a : Act) : Prop := ∀ o u q x, a ≠ .send o u q x

theorem mute_changes {v : Uuid} {a : Act} (h : Changes v a) : Mute a := by
  intro o u q x e
  rcases h with h | h | h <;> rw [h] at e <;> cases e

theorem framed_mute {U G : Uuid → Prop} {l : List Act} {s s' : State} (h : Framed Mute U G l s s') :
    ∀ a ∈ l, Mute a := by
  intro a ha
  rcases h.acts a ha with h | ⟨v, h⟩
  · exact h
  · exact mute_changes h

theorem change_tasks {cfg : Cfg} {s : State} (c : Change) : (change cfg s c).tasks = s.tasks := by
  cases c <;> (unfold change; dsimp only; split <;> rfl)

theorem enter_tasks {cfg : Cfg} {env : Env} {a : Act} {s : State} :
    (enter cfg env a s).tasks = s.tasks := by
  unfold enter
  generalize env.during (s.push a) a = cs
  have : ∀ (cs : List Change) (s : State), (cs.foldl (change cfg) s).tasks = s.tasks := by
    intro cs
    induction cs with
    | nil => intro s; rfl
    | cons c cs ih => intro s; rw [List.foldl_cons, ih, change_tasks]
  rw [this]
  rfl

theorem andThen_tasks {p q : Proc} (hp : ∀ s, (p s).2.tasks = s.tasks)
    (hq : ∀ s, (q s).2.tasks = s.tasks) (s : State) : (Proc.andThen p q s).2.tasks = s.tasks := by
  have h := hp s
  unfold Proc.andThen
  split
  · rename_i s' e
    rw [e] at h
    rw [hq, h]
  · exact h

theorem receivingErr_tasks {cfg : Cfg} {env : Env} {opts : Server.Options} {u : Uuid} {k : Bool}
    (s : State) : (receivingErr cfg env opts u k s).2.tasks = s.tasks := by
  unfold receivingErr
  refine andThen_tasks ?_ ?_ s
  · intro s
    split <;> rfl
  · intro s
    split
    · exact enter_tasks
    · rfl

theorem drop_lookup {s : State} {t : Nat} : (s.drop t).tasks.lookup t = none := lookup_filter_self _ _

/-- A failed handler sends nothing and is gone. -/
theorem fail_mute {cfg : Cfg} {env : Env} {opts : Server.Options} {t : Nat} {task : Task} (s : State) :
    (∃ l, (fail cfg env opts t task s).2.past = l ++ s.past ∧ ∀ a ∈ l, Mute a) ∧
    (fail cfg env opts t task s).2.tasks.lookup t = none := by
  unfold fail
  split
  · exact ⟨⟨[], rfl, by simp⟩, drop_lookup⟩
  · obtain ⟨l, h⟩ := frames_receivingErr (P := Mute) (U := No) (G := No) (cfg := cfg) (env := env)
      (opts := opts) (u := task.u) (k := true) (by intro o u q x e; cases e)
      (by intro o u q x e; cases e) (by intro o u q x e; cases e) (s.drop t)
    refine ⟨⟨l, h.past, framed_mute h⟩, ?_⟩
    rw [receivingErr_tasks]
    exact drop_lookup

theorem finish_mute {cfg : Cfg} {env : Env} {opts : Server.Options} {t : Nat} {task : Task}
    (s : State) :
    (∃ l, (finish cfg env opts t task s).2.past = l ++ s.past ∧ ∀ a ∈ l, Mute a) ∧
    (finish cfg env opts t task s).2.tasks.lookup t = none := by
  unfold finish
  split
  · exact ⟨⟨[], rfl, by simp⟩, drop_lookup⟩
  · obtain ⟨l, h⟩ := frame_enter (P := Mute) (U := No) (G := No) (cfg := cfg) (env := env)
      (a := .deferred t) (s := s) (by intro o u q x e; cases e)
    dsimp only
    split
    · obtain ⟨⟨k, h1, h2⟩, h3⟩ := fail_mute (cfg := cfg) (env := env) (opts := opts) (t := t)
        (task := task) (enter cfg env (.deferred t) s)
      refine ⟨⟨k ++ l, by rw [h1, h.past, List.append_assoc], ?_⟩, h3⟩
      intro a ha
      rcases List.mem_append.1 ha with ha | ha
      · exact h2 a ha
      · exact framed_mute h a ha
    · exact ⟨⟨l, h.past, framed_mute h⟩, drop_lookup⟩

theorem fold_send {t : Nat} {o : Out} : ∀ (us : List Uuid) (s : State),
    us.foldl (fun s u => s.push (.send (.cast t) u 0 o)) s =
      { s with past := (us.map (fun u => Act.send (.cast t) u 0 o)).reverse ++ s.past }
  | [], _ => rfl
  | u :: us, s => by
    rw [List.foldl_cons, fold_send us]
    simp [State.push]

theorem castAll_ok {cfg : Cfg} {t : Nat} : ∀ (cs : List Cast) (s : State),
    (∀ x ∈ cs, cfg.packs (.msg x.1 x.2.2) = true) →
      castAll cfg t cs s = (true, { s with past := (deliveries t cs).reverse ++ s.past })
  | [], _, _ => rfl
  | (ref, us, b) :: cs, s, h => by
    unfold castAll
    rw [if_pos (h (ref, us, b) List.mem_cons_self), fold_send,
      castAll_ok cs _ (fun x hx => h x (List.mem_cons_of_mem _ hx))]
    simp [deliveries]

theorem wait_lookup {s : State} {t : Nat} {task task' : Task} {p : Phase}
    (h : s.tasks.lookup t = some task') :
    (s.wait t task p).tasks.lookup t = some { task with phase := p } :=
  lookup_map_self _ _ _ _ h

/-- All broadcasts are delivered, in order. -/
theorem broadcastAll_ok {cfg : Cfg} {env : Env} {opts : Server.Options} {t : Nat} {task : Task}
    {casts : List Cast} (h : ∀ x ∈ casts, cfg.packs (.msg x.1 x.2.2) = true) (s : State) :
    ∃ l, (broadcastAll cfg env opts t task casts s).2.past = l ++ (deliveries t casts).reverse ++ s.past ∧
      ∀ a ∈ l, Mute a := by
  unfold broadcastAll
  split
  · rename_i hc
    rw [List.isEmpty_iff] at hc
    subst hc
    obtain ⟨⟨l, h1, h2⟩, _⟩ := finish_mute (cfg := cfg) (env := env) (opts := opts) (t := t)
      (task := task) s
    exact ⟨l, by simpa [deliveries] using h1, h2⟩
  · rw [castAll_ok casts s h]
    exact ⟨[], rfl, by simp⟩

/-! ### Reactions to errors -/

theorem reacts_receivingErr {cfg : Cfg} {env : Env} {opts : Server.Options} {u : Uuid} (s : State) :
    Reacts opts.onError u s.past (receivingErr cfg env opts u true s).2.past := by
  cases h : opts.onError with
  | log =>
    refine ⟨[], by simp, fun _ => ?_, fun h => (nomatch h), fun h => (nomatch h), fun h => (nomatch h)⟩
    simp [receivingErr, h, Proc.andThen, Proc.skip]
  | disconnect =>
    refine ⟨[], by simp, fun h => (nomatch h), fun _ => ?_, fun h => (nomatch h), fun h => (nomatch h)⟩
    simp [receivingErr, h, Proc.andThen, Proc.skip, Proc.note]
  | emitError =>
    obtain ⟨l, h1, h2⟩ := enter_past cfg env (.error (some u)) s
    refine ⟨l, h2, fun h => (nomatch h), fun h => (nomatch h), fun _ => ?_, fun h => (nomatch h)⟩
    rw [← h1]
    simp [receivingErr, h, Proc.andThen, Proc.skip, callUser]
  | emitErrorAndDisconnect =>
    obtain ⟨l, h1, h2⟩ := enter_past cfg env (.error (some u)) (s.push (.drop u))
    refine ⟨l, h2, fun h => (nomatch h), fun h => (nomatch h), fun h => (nomatch h), fun _ => ?_⟩
    have : (receivingErr cfg env opts u true s).2 =
        enter cfg env (.error (some u)) (s.push (.drop u)) := by
      simp [receivingErr, h, Proc.andThen, Proc.note, callUser]
    rw [this, h1]
    rfl

theorem extract_none {m : Msg} {ref : Ref} (h : ∀ b, ¬ Found m ref b) : m.extract ref = none := by
  cases hx : m.extract ref with
  | none => rfl
  | some k => exact absurd ((extract_iff _ _ _).1 hx) (h k)

theorem andThen_leave {p : Proc} (s : State) :
    (Proc.andThen p (fun s => (.leave, s)) s).2 = (p s).2 := by
  unfold Proc.andThen
  split <;> rename_i h
  · rw [h]
  · rfl

/-- A message that is in no workflow. -/
theorem serve_unknown {cfg : Cfg} {env : Env} {opts : Server.Options} {u : Uuid}
    {s : State} (h : Stage u true true s) {f : Frame} {m : Msg} (hf : f.Ok)
    (hs : f.hdr.signature = cfg.decoder.signature)
    (hm : cfg.decoder.getMsg f.hdr.id f.body = .ok m) (hh : ∀ k, ¬ Found m hashRequest k)
    (hq : ∀ r ∈ cfg.workflow.requests, ∀ ref b, r.request = some ref → ¬ Found m ref b)
    (hb : ∀ x ∈ cfg.workflow.beacons, ∀ b, ¬ Found m x.reference b) :
    Reacts opts.onError u (.got u m f.hdr.sequence :: .chunk u :: s.past)
      (received cfg env opts u f.bytes s).2.past := by
  obtain ⟨c, s1, c1, c2, c3, c4, c5, c6, c7, _⟩ := received_frame (env := env) (opts := opts) h hf hs hm
  have e1 : onMessage cfg env opts u c m f.hdr.sequence s1 = onOther cfg env opts u c m f.hdr.sequence s1 := by
    unfold onMessage
    rw [c4, extract_none hh]
    cases m.extract cfg.selfKey <;> rfl
  have hk : c.key.isNone = false := by
    have := c3 rfl
    cases hk : c.key with
    | none => rw [hk] at this; cases this
    | some k => rfl
  have e2 : onOther cfg env opts u c m f.hdr.sequence s1 = dispatch cfg env opts u m f.hdr.sequence s1 := by
    unfold onOther
    rw [c4, hk, isAssigned_true]
    rfl
  have n1 : cfg.workflow.requests.findSome? (fun r =>
      r.request.bind (fun ref => (m.extract ref).map (fun b => (r, ref, b)))) = none := by
    rw [List.findSome?_eq_none_iff]
    intro r hr
    cases e : r.request with
    | none => rfl
    | some ref =>
      rw [Option.bind_some, extract_none (fun b => hq r hr ref b e)]
      rfl
  have n2 : cfg.workflow.beacons.findSome? (fun x =>
      (m.extract x.reference).map (fun b => (x.reference, b))) = none := by
    rw [List.findSome?_eq_none_iff]
    intro x hx
    rw [extract_none (hb x hx)]
    rfl
  rw [c7, e1, e2]
  unfold dispatch
  rw [n1, n2]
  dsimp only
  rw [andThen_leave, ← c6]
  exact reacts_receivingErr s1

/-! ### Other handlers -/

/-- Handlers are only added. -/
def Adds (p : Proc) : Prop := ∀ s, ∃ l, (p s).2.tasks = s.tasks ++ l

theorem adds_same {p : Proc} (h : ∀ s, (p s).2.tasks = s.tasks) : Adds p :=
  fun s => ⟨[], by rw [h, List.append_nil]⟩

theorem adds_andThen {p q : Proc} (hp : Adds p) (hq : Adds q) : Adds (Proc.andThen p q) := by
  intro s
  obtain ⟨l, hl⟩ := hp s
  unfold Proc.andThen
  split
  · rename_i s' e
    rw [e] at hl
    obtain ⟨k, hk⟩ := hq s'
    exact ⟨l ++ k, by rw [hk, hl, List.append_assoc]⟩
  · exact ⟨l, hl⟩

theorem adds_skip : Adds .skip := adds_same fun _ => rfl

theorem adds_note (a : Act) : Adds (.note a) := adds_same fun _ => rfl

theorem adds_callUser (cfg : Cfg) (env : Env) (a : Act) : Adds (callUser cfg env a) :=
  adds_same fun _ => enter_tasks

theorem adds_receivingErr (cfg : Cfg) (env : Env) (opts : Server.Options) (u : Uuid) (k : Bool) :
    Adds (receivingErr cfg env opts u k) :=
  adds_same receivingErr_tasks

theorem adds_kick (cfg : Cfg) (env : Env) (u : Uuid) : Adds (kick cfg env u) :=
  adds_andThen (adds_note _) (adds_callUser _ _ _)

theorem adds_post (cfg : Cfg) (o : Origin) (u : Uuid) (seq : UInt32) (x : Out) :
    Adds (post cfg o u seq x) := by
  refine adds_same fun s => ?_
  unfold post
  split <;> rfl

theorem adds_start (cfg : Cfg) (env : Env) (task : Task) (a : Nat → Act) :
    Adds (start cfg env task a) := by
  intro s
  exact ⟨_, enter_tasks⟩

theorem adds_dispatch (cfg : Cfg) (env : Env) (opts : Server.Options) (u : Uuid) (m : Msg)
    (seq : UInt32) : Adds (dispatch cfg env opts u m seq) := by
  unfold dispatch
  cases cfg.workflow.requests.findSome? (fun r =>
      r.request.bind (fun ref => (m.extract ref).map (fun b => (r, ref, b)))) with
  | some y => exact adds_start _ _ _ _
  | none =>
    cases cfg.workflow.beacons.findSome? (fun x =>
        (m.extract x.reference).map (fun b => (x.reference, b))) with
    | some y => exact adds_start _ _ _ _
    | none => exact adds_andThen (adds_receivingErr _ _ _ _ _) (adds_same fun _ => rfl)

theorem adds_onOther (cfg : Cfg) (env : Env) (opts : Server.Options) (u : Uuid) (c : Consumer) (m : Msg)
    (seq : UInt32) : Adds (onOther cfg env opts u c m seq) := by
  unfold onOther
  split
  · exact adds_kick _ _ _
  · split
    · exact adds_kick _ _ _
    · split
      · refine adds_andThen ?_ ?_
        · split
          · exact adds_note _
          · exact adds_skip
        · split
          · exact adds_callUser _ _ _
          · exact adds_skip
      · exact adds_dispatch _ _ _ _ _ _

theorem adds_onHash (cfg : Cfg) (env : Env) (u : Uuid) (c : Consumer) (b : Js) (seq : UInt32) :
    Adds (onHash cfg env u c b seq) := by
  unfold onHash
  refine adds_andThen (adds_post _ _ _ _ _) ?_
  split
  · exact adds_same fun _ => rfl
  · exact adds_kick _ _ _

theorem adds_onMessage (cfg : Cfg) (env : Env) (opts : Server.Options) (u : Uuid) (c : Consumer)
    (m : Msg) (seq : UInt32) : Adds (onMessage cfg env opts u c m seq) := by
  unfold onMessage
  have hx : Adds (match m.extract hashRequest with
      | some b => onHash cfg env u c b seq
      | none => onOther cfg env opts u c m seq) := by
    cases m.extract hashRequest with
    | some b => exact adds_onHash _ _ _ _ _ _
    | none => exact adds_onOther _ _ _ _ _ _ _
  cases m.extract cfg.selfKey with
  | none => cases c.hash <;> exact hx
  | some k =>
    cases c.hash with
    | true => exact hx
    | false => exact fun s => adds_post cfg .handshake u seq (.selfKey u) (s.set u _)

theorem adds_onMessages (cfg : Cfg) (env : Env) (opts : Server.Options) (u : Uuid) :
    ∀ ms, Adds (onMessages cfg env opts u ms)
  | [] => adds_skip
  | m :: ms => by
    intro s
    unfold onMessages
    dsimp only
    cases s.find u with
    | none => exact ⟨[], by simp⟩
    | some c =>
      exact adds_andThen (fun s => adds_onMessage cfg env opts u _ m.msg m.header.sequence
        ((s.set u _).push _)) (adds_onMessages cfg env opts u ms) s

theorem adds_received (cfg : Cfg) (env : Env) (opts : Server.Options) (u : Uuid) (bytes : Bytes) :
    Adds (received cfg env opts u bytes) := by
  intro s
  unfold received
  dsimp only
  cases (s.push (.chunk u)).find u with
  | none => exact adds_receivingErr _ _ _ _ _ _
  | some c =>
    dsimp only
    split
    · exact adds_receivingErr _ _ _ _ _ _
    · split
      · exact ⟨[], by simp [State.push]⟩
      · exact ⟨[], by simp [State.push, State.set]⟩
      · exact adds_receivingErr _ _ _ _ _ _
      · exact adds_onMessages _ _ _ _ _ _

end Verif.TsServer
