import Verif.Proofs.TsServerMore
set_option autoImplicit false
/-! What pieces of the TypeScript server leave as it was. -/
namespace Verif.TsServer

open Verif

/-- What can become of the record of a client that is not served. -/
structure Evolves (v : Uuid) (l : List Act) (c d : Consumer) : Prop where
  reader : d.reader = c.reader
  hash : d.hash = c.hash
  key : c.key.isSome = true → d.key.isSome = true
  discredited : .discredited v ∉ l → d.discredited = c.discredited
  same : (∀ a ∈ l, ¬ Changes v a) → d = c
  kept : c.discredited = true → d.discredited = true

/-- The acts `l` are new; apart from changes by user code they satisfy `P`. Records are changed
otherwise only in `U`, and added or removed only in `G`. -/
structure Framed (P : Act → Prop) (U G : Uuid → Prop) (l : List Act) (s s' : State) : Prop where
  past : s'.past = l ++ s.past
  acts : ∀ a ∈ l, P a ∨ ∃ v, Changes v a
  same : ∀ v, ¬ G v → (s'.find v).isSome = (s.find v).isSome
  still : ∀ v, ¬ U v → ∀ c, s.find v = some c → ∃ d, s'.find v = some d ∧ Evolves v l c d

variable {P : Act → Prop} {U G : Uuid → Prop}

theorem evolves_refl {v : Uuid} {c : Consumer} {l : List Act} : Evolves v l c c :=
  ⟨rfl, rfl, id, fun _ => rfl, fun _ => rfl, id⟩

theorem evolves_trans {v : Uuid} {c d e : Consumer} {l k : List Act} (h1 : Evolves v l c d)
    (h2 : Evolves v k d e) : Evolves v (k ++ l) c e where
  reader := h2.reader.trans h1.reader
  hash := h2.hash.trans h1.hash
  key h := h2.key (h1.key h)
  discredited h := (h2.discredited (fun m => h (List.mem_append_left _ m))).trans
    (h1.discredited (fun m => h (List.mem_append_right _ m)))
  same h := (h2.same (fun a m => h a (List.mem_append_left _ m))).trans
    (h1.same (fun a m => h a (List.mem_append_right _ m)))
  kept h := h2.kept (h1.kept h)

theorem frame_refl {s : State} : Framed P U G [] s s :=
  ⟨rfl, by simp, fun _ _ => rfl, fun _ _ c h => ⟨c, h, evolves_refl⟩⟩

theorem frame_trans {l k : List Act} {s s' s'' : State} (h1 : Framed P U G l s s')
    (h2 : Framed P U G k s' s'') : Framed P U G (k ++ l) s s'' where
  past := by rw [h2.past, h1.past, List.append_assoc]
  acts a h := by
    rcases List.mem_append.1 h with h | h
    · exact h2.acts a h
    · exact h1.acts a h
  same v h := (h2.same v h).trans (h1.same v h)
  still v h c hc := by
    obtain ⟨d, hd, e1⟩ := h1.still v h c hc
    obtain ⟨e, he, e2⟩ := h2.still v h d hd
    exact ⟨e, he, evolves_trans e1 e2⟩

theorem frame_weaken {Q : Act → Prop} {V H : Uuid → Prop} {l : List Act} {s s' : State}
    (h : Framed P U G l s s') (hp : ∀ a, P a → Q a) (hu : ∀ v, U v → V v) (hg : ∀ v, G v → H v) :
    Framed Q V H l s s' where
  past := h.past
  acts a m := (h.acts a m).imp_left (hp a)
  same v n := h.same v (fun x => n (hg v x))
  still v n := h.still v (fun x => n (hu v x))

theorem frame_push {s : State} {a : Act} (h : P a) : Framed P U G [a] s (s.push a) where
  past := rfl
  acts b m := by rw [List.mem_singleton.1 m]; exact .inl h
  same _ _ := rfl
  still _ _ c hc := ⟨c, hc, evolves_refl⟩

theorem find_set_isSome {s : State} {u v : Uuid} {c : Consumer} :
    ((s.set u c).find v).isSome = (s.find v).isSome := by
  by_cases hv : v = u
  · subst hv
    cases h : s.find v with
    | some d => rw [find_set_self h]; rfl
    | none =>
      have h1 : v ∉ s.consumers.map Prod.fst := (lookup_none_iff _ _).1 h
      have h2 : (s.set v c).find v = none := by
        refine (lookup_none_iff _ _).2 ?_
        show v ∉ (s.consumers.map _).map Prod.fst
        rw [keys_map]
        exact h1
      rw [h2]
  · rw [find_set_other hv]

theorem frame_set {s : State} {u : Uuid} {c : Consumer} (h : U u) : Framed P U G [] s (s.set u c) where
  past := rfl
  acts := by simp
  same v _ := find_set_isSome
  still v n d hd := by
    have hv : v ≠ u := by rintro rfl; exact n h
    rw [find_set_other hv]
    exact ⟨d, hd, evolves_refl⟩

/-- The tasks do not matter. -/
theorem frame_tasks {s : State} (ts : List (Nat × Task)) (n : Nat) :
    Framed P U G [] s { s with tasks := ts, next := n } :=
  ⟨rfl, by simp, fun _ _ => rfl, fun _ _ c hc => ⟨c, hc, evolves_refl⟩⟩

theorem frame_change {cfg : Cfg} {s : State} (ch : Change) :
    ∃ l, Framed P U G l s (change cfg s ch) := by
  have base : ∀ (u : Uuid) (c d : Consumer) (a : Act), s.find u = some c → Changes u a →
      (d.reader = c.reader ∧ d.hash = c.hash ∧ (c.key.isSome = true → d.key.isSome = true) ∧
        (a ≠ .discredited u → d.discredited = c.discredited) ∧ (c.discredited = true → d.discredited = true)) →
      Framed P U G [a] s ((s.set u d).push a) := by
    intro u c d a hc ha ⟨h1, h2, h3, h4, h5⟩
    refine ⟨rfl, ?_, fun v _ => ?_, ?_⟩
    · intro b m
      rw [List.mem_singleton.1 m]
      exact .inr ⟨u, ha⟩
    · rw [find_push]; exact find_set_isSome
    · intro v _ e he
      rw [find_push]
      by_cases hv : v = u
      · subst hv
        rw [hc] at he
        cases he
        refine ⟨d, find_set_self hc, h1, h2, h3, ?_, ?_, h5⟩
        · intro n
          exact h4 (fun x => n (by rw [x]; exact List.mem_singleton_self _))
        · intro n
          exact absurd ha (n a (List.mem_singleton_self _))
      · rw [find_set_other hv]
        exact ⟨e, he, evolves_refl⟩
  cases ch with
  | key u k o =>
    unfold change
    dsimp only
    cases hc : s.find u with
    | none => exact ⟨[], frame_refl⟩
    | some c =>
      refine ⟨_, base u c _ _ hc (.inl rfl) ?_⟩
      unfold Consumer.setKey
      split <;> exact ⟨rfl, rfl, fun _ => rfl, fun _ => rfl, id⟩
  | assign u k o =>
    unfold change
    dsimp only
    cases hc : s.find u with
    | none => exact ⟨[], frame_refl⟩
    | some c =>
      refine ⟨_, base u c _ _ hc (.inr (.inl rfl)) ?_⟩
      unfold Consumer.assign
      split <;> exact ⟨rfl, rfl, id, fun _ => rfl, id⟩
  | discredit u =>
    unfold change
    dsimp only
    cases hc : s.find u with
    | none => exact ⟨[], frame_refl⟩
    | some c =>
      exact ⟨_, base u c _ _ hc (.inr (.inr rfl)) ⟨rfl, rfl, id, fun n => absurd rfl n, fun _ => rfl⟩⟩

theorem frame_changes {cfg : Cfg} : ∀ (cs : List Change) (s : State),
    ∃ l, Framed P U G l s (cs.foldl (change cfg) s)
  | [], s => ⟨[], frame_refl⟩
  | c :: cs, s => by
    obtain ⟨l, h1⟩ := frame_change (P := P) (U := U) (G := G) (cfg := cfg) (s := s) c
    obtain ⟨k, h2⟩ := frame_changes cs (change cfg s c)
    exact ⟨_, frame_trans h1 h2⟩

theorem frame_enter {cfg : Cfg} {env : Env} {a : Act} {s : State} (h : P a) :
    ∃ l, Framed P U G l s (enter cfg env a s) := by
  obtain ⟨l, h1⟩ := frame_changes (P := P) (U := U) (G := G) (cfg := cfg)
    (env.during (s.push a) a) (s.push a)
  exact ⟨_, frame_trans (frame_push h) h1⟩

/-- The same for a piece of the server in any state. -/
def Frames (P : Act → Prop) (U G : Uuid → Prop) (p : Proc) : Prop :=
  ∀ s, ∃ l, Framed P U G l s (p s).2

theorem frames_andThen {p q : Proc} (hp : Frames P U G p) (hq : Frames P U G q) :
    Frames P U G (Proc.andThen p q) := by
  intro s
  obtain ⟨l, h1⟩ := hp s
  unfold Proc.andThen
  split
  · rename_i s' e
    rw [e] at h1
    obtain ⟨k, h2⟩ := hq s'
    exact ⟨_, frame_trans h1 h2⟩
  · exact ⟨l, h1⟩

theorem frames_skip : Frames P U G .skip := fun _ => ⟨[], frame_refl⟩

theorem frames_note {a : Act} (h : P a) : Frames P U G (.note a) := fun _ => ⟨_, frame_push h⟩

theorem frames_callUser {cfg : Cfg} {env : Env} {a : Act} (h : P a) :
    Frames P U G (callUser cfg env a) := fun _ => frame_enter h

theorem frames_receivingErr {cfg : Cfg} {env : Env} {opts : Server.Options} {u : Uuid} {k : Bool}
    (h1 : P (.drop u)) (h2 : P (.error (some u))) (h3 : P (.error none)) :
    Frames P U G (receivingErr cfg env opts u k) := by
  unfold receivingErr
  refine frames_andThen ?_ ?_
  · split
    · exact frames_note h1
    · exact frames_skip
  · split
    · refine frames_callUser ?_
      split
      · exact h2
      · exact h3
    · exact frames_skip

/-- Acts about `u` while a message is processed. -/
def Inner (u : Uuid) (a : Act) : Prop := Concerns u a ∧ (∀ v m q, a ≠ .got v m q) ∧ ∀ v, a ≠ .chunk v

theorem frames_onMessage {cfg : Cfg} {env : Env} {opts : Server.Options} {u : Uuid} {c : Consumer}
    {m : Msg} {seq : UInt32} : Frames (Inner u) (· = u) G (onMessage cfg env opts u c m seq) := by
  have hd : Inner u (.drop u) := ⟨rfl, by simp, by simp⟩
  have he : Inner u (.error (some u)) := ⟨rfl, by simp, by simp⟩
  have hn : Inner u (.error none) := ⟨trivial, by simp, by simp⟩
  have hsend : ∀ o, Frames (Inner u) (· = u) G (post cfg .handshake u seq o) := by
    intro o s
    unfold post
    split
    · exact ⟨_, frame_push ⟨rfl, by simp, by simp⟩⟩
    · exact ⟨[], frame_refl⟩
  have hset : ∀ d, Frames (Inner u) (· = u) G (fun s => (.next, s.set u d)) := by
    intro d s
    exact ⟨[], frame_set rfl⟩
  have hk : Frames (Inner u) (· = u) G (kick cfg env u) :=
    frames_andThen (frames_note hd) (frames_callUser he)
  have hkey : ∀ k, Frames (Inner u) (· = u) G (onSelfKey cfg u c k seq) := by
    intro k s
    obtain ⟨l, h⟩ := hsend (.selfKey u) (s.set u (c.setKey cfg.keyFields k true))
    exact ⟨_, frame_trans (frame_set rfl) h⟩
  have hhash : ∀ b, Frames (Inner u) (· = u) G (onHash cfg env u c b seq) := by
    intro b
    unfold onHash
    refine frames_andThen (hsend _) ?_
    split
    · exact hset _
    · exact hk
  have ho : Frames (Inner u) (· = u) G (onOther cfg env opts u c m seq) := by
    unfold onOther
    split
    · exact hk
    split
    · exact hk
    split
    · refine frames_andThen ?_ ?_
      · split
        · exact frames_note hd
        · exact frames_skip
      · split
        · exact frames_callUser he
        · exact frames_skip
    unfold dispatch
    cases cfg.workflow.requests.findSome? (fun r =>
        r.request.bind (fun ref => (m.extract ref).map (fun b => (r, ref, b)))) with
    | some y =>
      intro s
      obtain ⟨l, h⟩ := frame_enter (P := Inner u) (U := (· = u)) (G := G) (cfg := cfg) (env := env)
        (a := .respond s.next u y.2.1 y.2.2 seq)
        (s := { s with tasks := s.tasks ++ [(s.next, ⟨u, seq, .request y.1, .user⟩)], next := s.next + 1 })
        ⟨rfl, by simp, by simp⟩
      exact ⟨_, frame_trans (frame_tasks _ _) h⟩
    | none =>
      dsimp only
      cases cfg.workflow.beacons.findSome? (fun x =>
          (m.extract x.reference).map (fun b => (x.reference, b))) with
      | some y =>
        intro s
        obtain ⟨l, h⟩ := frame_enter (P := Inner u) (U := (· = u)) (G := G) (cfg := cfg) (env := env)
          (a := .beacon s.next u y.1 y.2 seq)
          (s := { s with tasks := s.tasks ++ [(s.next, ⟨u, seq, .beacon, .user⟩)], next := s.next + 1 })
          ⟨rfl, by simp, by simp⟩
        exact ⟨_, frame_trans (frame_tasks _ _) h⟩
      | none =>
        exact frames_andThen (frames_receivingErr hd he hn) (fun s => ⟨[], frame_refl⟩)
  unfold onMessage
  cases h1 : m.extract cfg.selfKey <;> cases h2 : c.hash <;> cases h3 : m.extract hashRequest
  · exact ho
  · exact hhash _
  · exact ho
  · exact hhash _
  · exact hkey _
  · exact hkey _
  · exact ho
  · exact hhash _

theorem frames_onMessages {cfg : Cfg} {env : Env} {opts : Server.Options} {u : Uuid} :
    ∀ ms : List (Rust.Income Msg),
      Frames (Concerns u) (· = u) (fun _ => False) (onMessages cfg env opts u ms)
  | [] => frames_skip
  | m :: ms => by
    intro s
    unfold onMessages
    dsimp only
    cases hf : s.find u with
    | none => exact ⟨[], frame_refl⟩
    | some c =>
      refine frames_andThen ?_ (frames_onMessages ms) s
      intro s
      obtain ⟨l, h⟩ := frames_onMessage (G := fun _ => False) (cfg := cfg) (env := env) (opts := opts)
        (u := u) (c := { c with reader := ⟨c.reader.buffer, ms⟩ }) (m := m.msg)
        (seq := m.header.sequence)
        ((s.set u { c with reader := ⟨c.reader.buffer, ms⟩ }).push (.got u m.msg m.header.sequence))
      exact ⟨_, frame_trans (frame_trans (frame_set rfl)
        (frame_push (a := .got u m.msg m.header.sequence) rfl))
        (frame_weaken h (fun a x => x.1) (fun _ x => x) (fun _ x => x))⟩

theorem frames_received {cfg : Cfg} {env : Env} {opts : Server.Options} {u : Uuid} {bytes : Bytes} :
    Frames (Concerns u) (· = u) (fun _ => False) (received cfg env opts u bytes) := by
  have herr : ∀ k, Frames (Concerns u) (· = u) (fun _ => False) (receivingErr cfg env opts u k) :=
    fun k => frames_receivingErr rfl rfl trivial
  intro s
  unfold received
  dsimp only
  have h0 : Framed (Concerns u) (· = u) (fun _ => False) [.chunk u] s (s.push (.chunk u)) :=
    frame_push rfl
  split
  · obtain ⟨l, h⟩ := herr false (s.push (.chunk u))
    exact ⟨_, frame_trans h0 h⟩
  · split
    · obtain ⟨l, h⟩ := herr true (s.push (.chunk u))
      exact ⟨_, frame_trans h0 h⟩
    · have hs : ∀ d, Framed (Concerns u) (· = u) (fun _ => False) ([] ++ [.chunk u]) s
          ((s.push (.chunk u)).set u d) := fun d => frame_trans h0 (frame_set rfl)
      split
      · exact ⟨_, h0⟩
      · exact ⟨_, hs _⟩
      · obtain ⟨l, h⟩ := herr true ((s.push (.chunk u)).set u _)
        exact ⟨_, frame_trans (hs _) h⟩
      · obtain ⟨l, h⟩ := frames_onMessages (cfg := cfg) (env := env) (opts := opts) (u := u) _
          ((s.push (.chunk u)).set u _)
        exact ⟨_, frame_trans (hs _) h⟩

/-! ### Handlers and other inputs -/

abbrev Any : Act → Prop := fun _ => True
abbrev No : Uuid → Prop := fun _ => False

/-- Acts of a handler that are no answers. -/
structure Lets (P : Act → Prop) (t : Nat) : Prop where
  error : ∀ u, P (.error u)
  drop : ∀ u, P (.drop u)
  deferred : P (.deferred t)
  cast : ∀ u o, P (.send (.cast t) u 0 o)

theorem frames_fail {cfg : Cfg} {env : Env} {opts : Server.Options} {t : Nat} {task : Task} (hP : Lets P t) :
    Frames P No No (fail cfg env opts t task) := by
  intro s
  have h0 : Framed P No No [] s (s.drop t) := frame_tasks (s := s) _ s.next
  unfold fail
  split
  · exact ⟨_, h0⟩
  · obtain ⟨l, h⟩ := frames_receivingErr (P := P) (U := No) (G := No) (cfg := cfg) (env := env)
      (opts := opts) (u := task.u) (k := true) (hP.drop _) (hP.error _) (hP.error _) (s.drop t)
    exact ⟨_, frame_trans h0 h⟩

theorem frames_finish {cfg : Cfg} {env : Env} {opts : Server.Options} {t : Nat} {task : Task} (hP : Lets P t) :
    Frames P No No (finish cfg env opts t task) := by
  intro s
  unfold finish
  split
  · exact ⟨_, frame_tasks (s := s) _ s.next⟩
  · obtain ⟨l, h⟩ := frame_enter (P := P) (U := No) (G := No) (cfg := cfg) (env := env)
      (a := .deferred t) (s := s) hP.deferred
    dsimp only
    split
    · obtain ⟨k, h'⟩ := frames_fail (cfg := cfg) (env := env) (opts := opts) (t := t) (task := task) hP
        (enter cfg env (.deferred t) s)
      exact ⟨_, frame_trans h h'⟩
    · exact ⟨_, frame_trans h (frame_tasks (s := enter cfg env (.deferred t) s) _ _)⟩

theorem frame_casts {t : Nat} {o : Out} (hP : Lets P t) : ∀ (us : List Uuid) (s : State),
    ∃ l, Framed P No No l s (us.foldl (fun s u => s.push (.send (.cast t) u 0 o)) s)
  | [], s => ⟨[], frame_refl⟩
  | u :: us, s => by
    obtain ⟨l, h⟩ := frame_casts hP us (s.push (.send (.cast t) u 0 o))
    exact ⟨_, frame_trans (frame_push (hP.cast u o)) h⟩

theorem frame_castAll {cfg : Cfg} {t : Nat} (hP : Lets P t) : ∀ (cs : List Cast) (s : State),
    ∃ l, Framed P No No l s (castAll cfg t cs s).2
  | [], s => ⟨[], frame_refl⟩
  | (ref, us, b) :: cs, s => by
    unfold castAll
    split
    · obtain ⟨l, h⟩ := frame_casts (t := t) (o := .msg ref b) hP us s
      obtain ⟨k, h'⟩ := frame_castAll (cfg := cfg) (t := t) hP cs
        (us.foldl (fun s u => s.push (.send (.cast t) u 0 (.msg ref b))) s)
      exact ⟨_, frame_trans h h'⟩
    · exact ⟨[], frame_refl⟩

theorem frames_broadcastAll {cfg : Cfg} {env : Env} {opts : Server.Options} {t : Nat} {task : Task}
    {casts : List Cast} (hP : Lets P t) : Frames P No No (broadcastAll cfg env opts t task casts) := by
  intro s
  unfold broadcastAll
  split
  · exact frames_finish hP s
  · obtain ⟨l, h⟩ := frame_castAll (cfg := cfg) (t := t) hP casts s
    split
    · rename_i s' e
      rw [e] at h
      exact ⟨_, frame_trans h (frame_tasks (s := s') _ s'.next)⟩
    · rename_i s' e
      rw [e] at h
      obtain ⟨k, h'⟩ := frames_fail (cfg := cfg) (env := env) (opts := opts) (t := t) (task := task) hP s'
      exact ⟨_, frame_trans h h'⟩

theorem frames_sendAnswer {cfg : Cfg} {env : Env} {opts : Server.Options} {t : Nat} {task : Task}
    {o : Out} {casts : List Cast} (hP : Lets P t) (ho : P (.send (.answer t) task.u task.seq o)) :
    Frames P No No (sendAnswer cfg env opts t task o casts) := by
  intro s
  unfold sendAnswer
  split
  · exact ⟨_, frame_trans (frame_push (a := .send (.answer t) task.u task.seq o) ho)
      (frame_tasks (s := s.push (.send (.answer t) task.u task.seq o)) _ s.next)⟩
  · exact frames_fail hP s

theorem frames_resume {cfg : Cfg} {env : Env} {opts : Server.Options} {t : Nat} {task : Task}
    {x : Settled} (hP : Lets P t) (ho : ∀ o, Decided x o → P (.send (.answer t) task.u task.seq o)) :
    Frames P No No (resume cfg env opts t task x) := by
  unfold resume
  split
  · exact frames_fail hP
  · split
    · exact frames_skip
    · split
      · cases collect (requestMethods _) _ _ [] with
        | none => exact frames_fail hP
        | some casts =>
          dsimp only
          split
          · exact frames_sendAnswer hP (ho _ (.inl ⟨_, _, _, rfl, rfl⟩))
          · exact frames_fail hP
      · exact frames_sendAnswer hP (ho _ (.inl ⟨_, _, _, rfl, rfl⟩))
  · exact frames_sendAnswer hP (ho _ (.inr ⟨rfl, rfl⟩))
  · cases collect (eventMethods _) _ _ [] with
    | none => exact frames_fail hP
    | some casts =>
      dsimp only
      split
      · exact frames_broadcastAll hP
      · exact frames_fail hP
  · exact frames_broadcastAll hP
  · exact frames_fail hP
  · exact frames_finish hP
  · exact frames_skip

theorem frames_emitEvent {cfg : Cfg} {env : Env} {e : Flow.Event} (hP : ∀ t ref, P (.event t ref)) :
    Frames P U G (emitEvent cfg env e) := by
  intro s
  unfold emitEvent
  dsimp only
  split
  · obtain ⟨l, h⟩ := frame_enter (P := P) (U := U) (G := G) (cfg := cfg) (env := env)
      (a := .event s.next (e.reference.getD [])) (s := { s with next := s.next + 1 }) (hP _ _)
    exact ⟨_, frame_trans (frame_tasks (s := s) s.tasks (s.next + 1)) h⟩
  · obtain ⟨l, h⟩ := frame_enter (P := P) (U := U) (G := G) (cfg := cfg) (env := env)
      (a := .event s.next (e.reference.getD []))
      (s := { s with tasks := s.tasks ++ [(s.next, ⟨0, 0, .event e, .user⟩)], next := s.next + 1 }) (hP _ _)
    exact ⟨_, frame_trans (frame_tasks (s := s) _ (s.next + 1)) h⟩

/-- The client whose connection or data an input is about. -/
def Input.client : Input → Option Uuid
  | .connected u => some u
  | .disconnected u => some u
  | .received u _ => some u
  | _ => none

/-- Messages are looked at when data of the client arrives, and answers are sent when user code decided. -/
def From (i : Input) (a : Act) : Prop :=
  (∀ v m q, a = .got v m q → ∃ b, i = .received v b) ∧
  ∀ t v q o, a = .send (.answer t) v q o → ∃ x, i = .settled t x ∧ Decided x o

theorem From.plain {i : Input} {a : Act} (h1 : ∀ v m q, a ≠ .got v m q) (h2 : ∀ t v q o, a ≠ .send (.answer t) v q o) :
    From i a :=
  ⟨fun v m q e => absurd e (h1 v m q), fun t v q o e => absurd e (h2 t v q o)⟩

theorem lets_from (i : Input) (t : Nat) : Lets (From i) t where
  error _ := .plain (by simp) (by simp)
  drop _ := .plain (by simp) (by simp)
  deferred := .plain (by simp) (by simp)
  cast _ _ := .plain (by simp) (by simp)

theorem frames_step {cfg : Cfg} {env : Env} {opts : Server.Options} (i : Input) :
    Frames (From i) (fun v => i.client = some v) (fun v => i = .connected v ∨ i = .disconnected v)
      (step cfg env opts i) := by
  intro s
  cases i with
  | ready => exact frames_callUser (a := .ready) (.plain (by simp) (by simp)) s
  | shutdown => exact frames_callUser (a := .shutdown) (.plain (by simp) (by simp)) s
  | serverError => exact frames_callUser (a := .error none) (.plain (by simp) (by simp)) s
  | connected u =>
    simp only [step]
    cases hu : s.find u with
    | some c => exact frames_callUser (a := .error none) (.plain (by simp) (by simp)) s
    | none =>
      have h0 : Framed (From (.connected u)) (fun v => (Input.connected u).client = some v)
          (fun v => Input.connected u = .connected v ∨ Input.connected u = .disconnected v)
          [.opened u] s
          (({ s with consumers := s.consumers ++ [(u, Consumer.new)] } : State).push (.opened u)) := by
        have hl : ∀ v, v ≠ u → (s.consumers ++ [(u, Consumer.new)]).lookup v = s.consumers.lookup v := by
          intro v hv
          rw [lookup_append_new _ _ _ _ hu, if_neg hv]
        refine ⟨rfl, fun a ha => .inl (by rw [List.mem_singleton.1 ha]; exact .plain (by simp) (by simp)), ?_, ?_⟩
        · intro v n
          show ((s.consumers ++ [(u, Consumer.new)]).lookup v).isSome = _
          rw [hl v (fun e => n (.inl (by rw [e])))]
          rfl
        · intro v n c hc
          refine ⟨c, ?_, evolves_refl⟩
          show (s.consumers ++ [(u, Consumer.new)]).lookup v = _
          rw [hl v (fun e => n (by rw [e]; rfl))]
          exact hc
      obtain ⟨l, h⟩ := frames_emitEvent (cfg := cfg) (env := env)
        (e := defaultEvent cfg "connected".toList) (fun _ _ => From.plain (i := .connected u) (by simp) (by simp)) _
      exact ⟨_, frame_trans h0 h⟩
  | disconnected u =>
    simp only [step]
    cases hu : s.find u with
    | none => exact frames_callUser (a := .error none) (.plain (by simp) (by simp)) s
    | some c =>
      have h0 : Framed (From (.disconnected u)) (fun v => (Input.disconnected u).client = some v)
          (fun v => Input.disconnected u = .connected v ∨ Input.disconnected u = .disconnected v)
          [.closed u] s
          (({ s with consumers := s.consumers.filter (fun p => p.1 ≠ u) } : State).push (.closed u)) := by
        refine ⟨rfl, fun a ha => .inl (by rw [List.mem_singleton.1 ha]; exact .plain (by simp) (by simp)), ?_, ?_⟩
        · intro v n
          show ((s.consumers.filter (fun p => p.1 ≠ u)).lookup v).isSome = _
          rw [lookup_filter_other _ _ _ (fun e => n (.inr (by rw [e])))]
          rfl
        · intro v n c hc
          refine ⟨c, ?_, evolves_refl⟩
          show (s.consumers.filter (fun p => p.1 ≠ u)).lookup v = _
          rw [lookup_filter_other _ _ _ (fun e => n (by rw [e]; rfl))]
          exact hc
      obtain ⟨l, h⟩ := frames_emitEvent (cfg := cfg) (env := env)
        (e := defaultEvent cfg "disconnected".toList) (fun _ _ => From.plain (i := .disconnected u) (by simp) (by simp)) _
      exact ⟨_, frame_trans h0 h⟩
  | received u bytes =>
    obtain ⟨l, h⟩ := frames_received (cfg := cfg) (env := env) (opts := opts) (u := u) (bytes := bytes) s
    refine ⟨l, frame_weaken h (fun a ha => ⟨fun v m q e => ?_, fun t v q o e => ?_⟩) (fun v e => by rw [e]; rfl) (fun _ x => x.elim)⟩
    · subst e
      cases (show v = u from ha)
      exact ⟨_, rfl⟩
    · subst e
      exact ha.elim
  | event ref =>
    simp only [step]
    cases cfg.workflow.events.find? (fun e => e.reference = some ref && !Flow.isDefaultEvent ref) with
    | some e => exact frames_emitEvent (fun _ _ => .plain (by simp) (by simp)) s
    | none => exact frames_skip s
  | user c => exact frame_change c
  | settled t x =>
    simp only [step]
    cases ht : s.tasks.lookup t with
    | none => exact ⟨[], frame_refl⟩
    | some task =>
      obtain ⟨l, h⟩ := frames_resume (cfg := cfg) (env := env) (opts := opts) (t := t) (task := task)
        (x := x) (P := From (.settled t x)) (lets_from _ _) (fun o ho => ⟨by simp, fun t' v q o' e => by cases e; exact ⟨x, rfl, ho⟩⟩) s
      exact ⟨l, frame_weaken h (fun _ x => x) (fun _ x => x.elim) (fun _ x => x.elim)⟩

end Verif.TsServer
