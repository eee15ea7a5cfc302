import Verif.Proofs.TsServerInv2
set_option autoImplicit false
/-! More lemmas about the TypeScript server: options, types of messages, keys, hanging, frames. -/
namespace Verif.TsServer

open Verif

/-! ### Options -/

theorem receivingErr_options {cfg : Cfg} {env : Env} {o o' : Server.Options} {u : Uuid} {k : Bool}
    (h : o.onError = o'.onError) : receivingErr cfg env o u k = receivingErr cfg env o' u k := by
  unfold receivingErr
  rw [h]

theorem isAssigned_true (c : Consumer) (st : Server.Strategy) : c.isAssigned st = true := rfl

theorem onMessage_options {cfg : Cfg} {env : Env} {o o' : Server.Options}
    (h : o.onError = o'.onError) (u : Uuid) (c : Consumer) (m : Msg) (seq : UInt32) :
    onMessage cfg env o u c m seq = onMessage cfg env o' u c m seq := by
  unfold onMessage onOther dispatch
  simp only [isAssigned_true, receivingErr_options h]
  rfl

theorem onMessages_options {cfg : Cfg} {env : Env} {o o' : Server.Options}
    (h : o.onError = o'.onError) (u : Uuid) : ∀ ms : List (Rust.Income Msg),
    onMessages cfg env o u ms = onMessages cfg env o' u ms
  | [] => rfl
  | m :: ms => by
    funext s
    unfold onMessages
    simp only [onMessage_options h, onMessages_options h u ms]

theorem resume_options {cfg : Cfg} {env : Env} {o o' : Server.Options}
    (h : o.onError = o'.onError) (t : Nat) (task : Task) (x : Settled) :
    resume cfg env o t task x = resume cfg env o' t task x := by
  have hf : ∀ t task, fail cfg env o t task = fail cfg env o' t task := by
    intro t task
    funext s
    unfold fail
    rw [receivingErr_options h]
  have hfi : ∀ t task, finish cfg env o t task = finish cfg env o' t task := by
    intro t task
    funext s
    unfold finish
    rw [hf]
  unfold resume broadcastAll sendAnswer
  simp only [hf, hfi]

theorem step_options {cfg : Cfg} {env : Env} {o o' : Server.Options}
    (h : o.onError = o'.onError) (i : Input) : step cfg env o i = step cfg env o' i := by
  cases i with
  | received u bytes =>
    funext s
    simp only [step]
    unfold received
    simp only [receivingErr_options h, onMessages_options h]
  | settled t x =>
    funext s
    simp only [step, resume_options h]
  | _ => rfl

theorem run_options {cfg : Cfg} {env : Env} {o o' : Server.Options} (h : o.onError = o'.onError) :
    ∀ (is : List Input) (s : State), run cfg env o is s = run cfg env o' is s
  | [], _ => rfl
  | i :: is, s => by
    unfold run
    rw [step_options h]
    split
    · rfl
    · exact run_options h is _

/-! ### Types of messages -/

theorem leads_nest : ∀ (p : List Name) (b : Js) (ns : List Name) (t : Js), Leads (nest p b) ns t →
    p <+: ns ∨ ns <+: p
  | [], _, _, _, _ => .inl List.nil_prefix
  | n :: p, b, [], t, _ => .inr List.nil_prefix
  | n :: p, b, x :: ns, t, h => by
    have h' : Leads (.obj [(n, nest p b)]) (x :: ns) t := h
    cases h' with
    | step h1 h2 =>
      rw [List.lookup_cons] at h1
      by_cases e : x = n
      · subst e
        simp only [beq_self_eq_true] at h1
        cases h1
        rcases leads_nest p b ns t h2 with h3 | h3
        · exact .inl (List.cons_prefix_cons.2 ⟨rfl, h3⟩)
        · exact .inr (List.cons_prefix_cons.2 ⟨rfl, h3⟩)
      · rw [show (x == n) = false by simp [e]] at h1
        cases h1

theorem leads_self : ∀ (p : List Name) (b t : Js), Leads (nest p b) p t → t = b
  | [], b, t, h => by
    have h' : Leads b [] t := h
    cases h'
    rfl
  | n :: p, b, t, h => by
    have h' : Leads (.obj [(n, nest p b)]) (n :: p) t := h
    cases h' with
    | step h1 h2 =>
      simp at h1
      subst h1
      exact leads_self p b t h2

theorem leads_nest_body : ∀ (p : List Name) (ps : List (Name × Js)),
    Leads (nest p (.obj ps)) p (.obj ps)
  | [], _ => .here
  | n :: p, ps => by
    show Leads (.obj [(n, nest p (.obj ps))]) (n :: p) (.obj ps)
    exact .step (v := nest p (.obj ps)) (by simp) (leads_nest_body p ps)

theorem found_names {m : Msg} {ref : Ref} {b : Js} (h : Found m ref b) :
    Leads (nest m.path m.body) (Flow.splitDot ref) b := by
  obtain ⟨ns, w, h1, h2, h3⟩ := h
  rw [spells_unique h1, wraps_unique h2] at h3
  exact h3

theorem found_exact {m : Msg} {ref : Ref} {b : Js} (h : Found m ref b)
    (hp : ∀ ns, Spells ns ref → (m.path <+: ns ∨ ns <+: m.path) → m.path = ns) :
    IsA m ref ∧ b = m.body := by
  have hl := found_names h
  have he := hp _ (spells_splitDot ref) (leads_nest _ _ _ _ hl)
  rw [← he] at hl
  refine ⟨?_, leads_self _ _ _ hl⟩
  unfold IsA
  rw [he]
  exact spells_splitDot ref

theorem found_isA {m : Msg} {ref : Ref} {ps : List (Name × Js)} (h : IsA m ref)
    (hb : m.body = .obj ps) : Found m ref m.body := by
  refine ⟨m.path, nest m.path m.body, h, wraps_nest _ _, ?_⟩
  rw [hb]
  exact leads_nest_body _ _

/-! ### Keys -/

theorem lookup_setProp (n : Name) (v : Js) : ∀ (ps : List (Name × Js)) (f : Name),
    (setProp n v ps).lookup f = if f = n then some v else ps.lookup f
  | [], f => by
    unfold setProp
    rw [List.lookup_cons]
    by_cases e : f = n
    · subst e; simp
    · rw [show (f == n) = false by simp [e], if_neg e]
  | (a, w) :: ps, f => by
    unfold setProp
    by_cases ha : a = n
    · rw [if_pos ha]
      subst ha
      rw [List.lookup_cons, List.lookup_cons]
      by_cases e : f = a
      · subst e; simp
      · rw [show (f == a) = false by simp [e], if_neg e]
    · rw [if_neg ha]
      rw [List.lookup_cons, List.lookup_cons, lookup_setProp n v ps f]
      by_cases e : f = a
      · subst e
        simp [ha]
      · rw [show (f == a) = false by simp [e]]

theorem merge_prop : ∀ (fs : List Name) (ps : List (Name × Js)) (k : Js),
    ∃ qs, merge fs (.obj ps) k = .obj qs ∧ ∀ f, qs.lookup f =
      if f ∈ fs then (match k.prop f with | some v => some v | none => ps.lookup f) else ps.lookup f
  | [], ps, k => ⟨ps, rfl, by simp⟩
  | g :: fs, ps, k => by
    unfold merge
    cases hg : k.prop g with
    | none =>
      obtain ⟨qs, h1, h2⟩ := merge_prop fs ps k
      refine ⟨qs, h1, fun f => ?_⟩
      rw [h2 f]
      by_cases hf : f = g
      · subst hf
        rw [hg]
        simp
      · simp [hf]
    | some v =>
      obtain ⟨qs, h1, h2⟩ := merge_prop fs (setProp g v ps) k
      refine ⟨qs, h1, fun f => ?_⟩
      rw [h2 f, lookup_setProp]
      by_cases hf : f = g
      · subst hf
        rw [hg]
        simp
      · simp only [hf, if_false, List.mem_cons, false_or]

/-! ### How pieces of the server end -/

theorem andThen_end {p q : Proc} {s : State} {e : End} (h : (Proc.andThen p q s).1 = e) :
    ((p s).1 = e ∧ e ≠ .next) ∨ ((p s).1 = .next ∧ (q (p s).2).1 = e) := by
  unfold Proc.andThen at h
  split at h
  · rename_i s' he
    rw [he]
    exact .inr ⟨rfl, h⟩
  · rename_i r hne
    refine .inl ⟨h, ?_⟩
    intro e'
    subst h
    exact hne (p s).2 (Prod.ext e' rfl)

/-- The end is `next` or an exception. -/
def Soft (p : Proc) : Prop := ∀ s, (p s).1 = .next ∨ (p s).1 = .thrown

theorem soft_andThen {p q : Proc} (hp : Soft p) (hq : Soft q) : Soft (Proc.andThen p q) := by
  intro s
  rcases andThen_end (p := p) (q := q) (s := s) rfl with ⟨h1, h2⟩ | ⟨_, h2⟩
  · rw [← h1]; exact hp s
  · rw [← h2]; exact hq _

theorem soft_skip : Soft .skip := fun _ => .inl rfl

theorem soft_note (a : Act) : Soft (.note a) := fun _ => .inl rfl

theorem soft_callUser (cfg : Cfg) (env : Env) (a : Act) : Soft (callUser cfg env a) := by
  intro s
  unfold callUser
  dsimp only
  split
  · exact .inr rfl
  · exact .inl rfl

theorem soft_receivingErr (cfg : Cfg) (env : Env) (opts : Server.Options) (u : Uuid) (k : Bool) :
    Soft (receivingErr cfg env opts u k) := by
  unfold receivingErr
  refine soft_andThen ?_ ?_
  · split
    · exact soft_note _
    · exact soft_skip
  · split
    · exact soft_callUser _ _ _
    · exact soft_skip

theorem soft_kick (cfg : Cfg) (env : Env) (u : Uuid) : Soft (kick cfg env u) :=
  soft_andThen (soft_note _) (soft_callUser _ _ _)

theorem soft_post (cfg : Cfg) (o : Origin) (u : Uuid) (seq : UInt32) (x : Out) :
    Soft (post cfg o u seq x) := by
  intro s
  unfold post
  split
  · exact .inl rfl
  · exact .inr rfl

theorem soft_onHash (cfg : Cfg) (env : Env) (u : Uuid) (c : Consumer) (b : Js) (seq : UInt32) :
    Soft (onHash cfg env u c b seq) := by
  unfold onHash
  refine soft_andThen (soft_post _ _ _ _ _) ?_
  split
  · exact fun _ => .inl rfl
  · exact soft_kick _ _ _

theorem onMessage_end (cfg : Cfg) (env : Env) (opts : Server.Options) (u : Uuid) (c : Consumer)
    (m : Msg) (seq : UInt32) (s : State) : (onMessage cfg env opts u c m seq s).1 ≠ .hung := by
  have hs : ∀ p, Soft p → (p s).1 ≠ .hung := by
    intro p hp e
    rcases hp s with h | h <;> rw [e] at h <;> cases h
  have ho : (onOther cfg env opts u c m seq s).1 ≠ .hung := by
    unfold onOther
    split
    · exact hs _ (soft_kick _ _ _)
    split
    · exact hs _ (soft_kick _ _ _)
    split
    · refine hs _ (soft_andThen ?_ ?_)
      · split
        · exact soft_note _
        · exact soft_skip
      · split
        · exact soft_callUser _ _ _
        · exact soft_skip
    unfold dispatch
    cases cfg.workflow.requests.findSome? (fun r =>
        r.request.bind (fun ref => (m.extract ref).map (fun b => (r, ref, b)))) with
    | some y => exact fun e => (nomatch e)
    | none =>
      dsimp only
      cases cfg.workflow.beacons.findSome? (fun x =>
          (m.extract x.reference).map (fun b => (x.reference, b))) with
      | some y => exact fun e => (nomatch e)
      | none =>
        intro e
        rcases andThen_end e with ⟨h, _⟩ | ⟨_, h⟩
        · rcases soft_receivingErr cfg env opts u true s with h' | h' <;> rw [h] at h' <;> cases h'
        · cases h
  unfold onMessage
  cases h1 : m.extract cfg.selfKey <;> cases h2 : c.hash <;> cases h3 : m.extract hashRequest
  · exact ho
  · exact hs _ (soft_onHash _ _ _ _ _ _)
  · exact ho
  · exact hs _ (soft_onHash _ _ _ _ _ _)
  · exact hs _ (fun _ => soft_post _ _ _ _ _ _)
  · exact hs _ (fun _ => soft_post _ _ _ _ _ _)
  · exact ho
  · exact hs _ (soft_onHash _ _ _ _ _ _)

theorem onMessages_end (cfg : Cfg) (env : Env) (opts : Server.Options) (u : Uuid) :
    ∀ (ms : List (Rust.Income Msg)) (s : State), (onMessages cfg env opts u ms s).1 ≠ .hung
  | [], _ => fun e => (nomatch e)
  | m :: ms, s => by
    unfold onMessages
    dsimp only
    split
    · exact fun e => (nomatch e)
    · intro e
      rcases andThen_end e with ⟨h, _⟩ | ⟨_, h⟩
      · exact onMessage_end _ _ _ _ _ _ _ _ h
      · exact onMessages_end cfg env opts u ms _ h

theorem fail_end (cfg : Cfg) (env : Env) (opts : Server.Options) (t : Nat) (task : Task) :
    Soft (fail cfg env opts t task) := by
  intro s
  unfold fail
  split
  · exact .inl rfl
  · exact soft_receivingErr _ _ _ _ _ _

theorem finish_end (cfg : Cfg) (env : Env) (opts : Server.Options) (t : Nat) (task : Task) :
    Soft (finish cfg env opts t task) := by
  intro s
  unfold finish
  split
  · exact .inl rfl
  · dsimp only
    split
    · exact fail_end _ _ _ _ _ _
    · exact .inl rfl

theorem broadcastAll_end (cfg : Cfg) (env : Env) (opts : Server.Options) (t : Nat) (task : Task)
    (casts : List Cast) : Soft (broadcastAll cfg env opts t task casts) := by
  intro s
  unfold broadcastAll
  split
  · exact finish_end _ _ _ _ _ _
  · split
    · exact .inl rfl
    · exact fail_end _ _ _ _ _ _

theorem sendAnswer_end (cfg : Cfg) (env : Env) (opts : Server.Options) (t : Nat) (task : Task)
    (o : Out) (casts : List Cast) : Soft (sendAnswer cfg env opts t task o casts) := by
  intro s
  unfold sendAnswer
  split
  · exact .inl rfl
  · exact fail_end _ _ _ _ _ _

theorem resume_end (cfg : Cfg) (env : Env) (opts : Server.Options) (t : Nat) (task : Task)
    (x : Settled) : Soft (resume cfg env opts t task x) := by
  unfold resume
  split
  · exact fail_end _ _ _ _ _
  · split
    · exact soft_skip
    · split
      · cases collect (requestMethods _) _ _ [] with
        | none => exact fail_end _ _ _ _ _
        | some casts =>
          dsimp only
          split
          · exact sendAnswer_end _ _ _ _ _ _ _
          · exact fail_end _ _ _ _ _
      · exact sendAnswer_end _ _ _ _ _ _ _
  · exact sendAnswer_end _ _ _ _ _ _ _
  · cases collect (eventMethods _) _ _ [] with
    | none => exact fail_end _ _ _ _ _
    | some casts =>
      dsimp only
      split
      · exact broadcastAll_end _ _ _ _ _ _
      · exact fail_end _ _ _ _ _
  · exact broadcastAll_end _ _ _ _ _ _
  · exact fail_end _ _ _ _ _
  · exact finish_end _ _ _ _ _
  · exact soft_skip

theorem emitEvent_end (cfg : Cfg) (env : Env) (e : Flow.Event) : Soft (emitEvent cfg env e) := by
  intro s
  unfold emitEvent
  dsimp only
  split
  · exact .inr rfl
  · exact .inl rfl

theorem soft_hung {p : Proc} (hp : Soft p) {s : State} (h : (p s).1 = .hung) : False := by
  rcases hp s with e | e <;> rw [h] at e <;> cases e

theorem received_hung {cfg : Cfg} {env : Env} {opts : Server.Options} {u : Uuid} {bytes : Bytes}
    {s : State} : (received cfg env opts u bytes s).1 = .hung ↔
      ∃ c, s.find u = some c ∧ c.discredited = false ∧ ∀ e r, ¬ Ts.Chunk cfg.decoder c.reader bytes e r := by
  unfold received
  dsimp only
  rw [find_push]
  cases hc : s.find u with
  | none =>
    constructor
    · intro h; exact (soft_hung (soft_receivingErr _ _ _ _ _) h).elim
    · rintro ⟨c, h, _⟩; cases h
  | some c =>
    dsimp only
    cases hd : c.discredited with
    | true =>
      constructor
      · intro h; exact (soft_hung (soft_receivingErr _ _ _ _ _) h).elim
      · rintro ⟨c', h, h2, _⟩; cases h; rw [hd] at h2; cases h2
    | false =>
      cases hr : readChunk cfg.decoder c.reader bytes with
      | none =>
        constructor
        · intro _; exact ⟨c, rfl, hd, (readChunk_none _ _ _).1 hr⟩
        · intro _; rfl
      | some y =>
        obtain ⟨e, r⟩ := y
        constructor
        · intro h
          cases e with
          | thrown => cases h
          | returned es =>
            cases es with
            | nil => exact (onMessages_end _ _ _ _ _ _ h).elim
            | cons x es => exact (soft_hung (soft_receivingErr _ _ _ _ _) h).elim
        · rintro ⟨c', h, _, h2⟩
          cases h
          exact absurd ((readChunk_iff _ _ _ _ _).1 hr) (h2 e r)

theorem step_hung {cfg : Cfg} {env : Env} {opts : Server.Options} {i : Input} {s : State} :
    (step cfg env opts i s).1 = .hung ↔ ∃ u bytes c, i = .received u bytes ∧ s.find u = some c ∧
      c.discredited = false ∧ ∀ e r, ¬ Ts.Chunk cfg.decoder c.reader bytes e r := by
  constructor
  · intro h
    cases i with
    | received u bytes =>
      obtain ⟨c, h1⟩ := received_hung.1 h
      exact ⟨u, bytes, c, rfl, h1⟩
    | ready => exact (soft_hung (soft_callUser _ _ _) h).elim
    | shutdown => exact (soft_hung (soft_callUser _ _ _) h).elim
    | serverError => exact (soft_hung (soft_callUser _ _ _) h).elim
    | connected u =>
      simp only [step] at h
      cases hu : s.find u with
      | some c => rw [hu] at h; exact (soft_hung (soft_callUser _ _ _) h).elim
      | none => rw [hu] at h; exact (soft_hung (emitEvent_end _ _ _) h).elim
    | disconnected u =>
      simp only [step] at h
      cases hu : s.find u with
      | none => rw [hu] at h; exact (soft_hung (soft_callUser _ _ _) h).elim
      | some c => rw [hu] at h; exact (soft_hung (emitEvent_end _ _ _) h).elim
    | event ref =>
      simp only [step] at h
      cases he : cfg.workflow.events.find? (fun e => e.reference = some ref && !Flow.isDefaultEvent ref) with
      | none => rw [he] at h; cases h
      | some e => rw [he] at h; exact (soft_hung (emitEvent_end _ _ _) h).elim
    | user c => cases h
    | settled t x =>
      simp only [step] at h
      cases ht : s.tasks.lookup t with
      | none => rw [ht] at h; cases h
      | some task => rw [ht] at h; exact (soft_hung (resume_end _ _ _ _ _ _) h).elim
  · rintro ⟨u, bytes, c, rfl, h⟩
    exact received_hung.2 ⟨c, h⟩

end Verif.TsServer
