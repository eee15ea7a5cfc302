import Verif.Proofs.TsServerInv
set_option autoImplicit false
/-! The invariant of the TypeScript server, second part: messages, handlers, runs. -/
namespace Verif.TsServer

open Verif

/-! ### Messages -/

/-- A message of `u` was looked at just now. -/
structure Looked (cfg : Cfg) (u : Uuid) (c : Consumer) (m : Msg) (seq : UInt32) (s : State) : Prop where
  inv : Inv cfg none (some u) s
  find : s.find u = some c
  past : ∃ older, s.past = .got u m seq :: older

theorem looked_since {cfg : Cfg} {u : Uuid} {c : Consumer} {m : Msg} {seq : UInt32} {s : State}
    (h : Looked cfg u c m seq s) : .got u m seq ∈ since u s.past := by
  obtain ⟨older, e⟩ := h.past
  rw [e, since_cons (by simp)]
  exact List.mem_cons_self

theorem onSelfKey_inv {cfg : Cfg} {u : Uuid} {c : Consumer} {m : Msg} {seq : UInt32} {s : State}
    {k : Js} (hs : Looked cfg u c m seq s) (hk : Found m cfg.selfKey k) :
    Inv cfg none (some u) (onSelfKey cfg u c k seq s).2 := by
  have h1 : Inv cfg none (some u) (s.set u (c.setKey cfg.keyFields k true)) := by
    refine inv_set hs.inv hs.find ?_
    have hn := hs.inv.known u c hs.find
    refine ⟨hn.online, ?_, ?_, ?_⟩
    · intro e
      refine hn.hash ?_
      unfold Consumer.setKey at e
      split at e <;> exact e
    · intro _
      exact .inl ⟨m, seq, k, looked_since hs, hk⟩
    · intro e
      refine hn.trusted ?_
      unfold Consumer.setKey at e
      split at e <;> exact e
  unfold onSelfKey post
  split
  · refine inv_push h1 trivial ?_ (by simp [taskOf])
    obtain ⟨older, e⟩ := hs.past
    exact ⟨m, older, e, .inl ⟨k, hk, rfl⟩⟩
  · exact h1

theorem right_iff {cfg : Cfg} {b : Js} {ps : List (Name × Js)} (hb : b = .obj ps) :
    rightHash cfg b = true ↔ RightHash cfg b := by
  subst hb
  unfold rightHash RightHash Js.prop
  dsimp only
  constructor
  · intro h
    split at h
    · rename_i p w h1 h2
      simp only [decide_eq_true_eq] at h
      exact ⟨ps, rfl, by rw [h1, h.1], by rw [h2, h.2]⟩
    · cases h
  · rintro ⟨ps', e, h1, h2⟩
    cases e
    rw [h1, h2]
    simp

theorem onHash_inv {cfg : Cfg} {env : Env} {u : Uuid} {c : Consumer} {m : Msg} {seq : UInt32}
    {s : State} {b : Js} (hs : Looked cfg u c m seq s) (he : m.extract hashRequest = some b) :
    Inv cfg none (some u) (onHash cfg env u c b seq s).2 := by
  have hk : Found m hashRequest b := (extract_iff _ _ _).1 he
  obtain ⟨ps, hb⟩ := extract_obj he
  have hr := right_iff (cfg := cfg) hb
  unfold onHash
  generalize rightHash cfg b = right at hr
  unfold Proc.andThen post
  by_cases hp : cfg.packs (.hash !right)
  · rw [if_pos hp]
    have h1 : Inv cfg none (some u) (s.push (.send .handshake u seq (.hash !right))) := by
      refine inv_push hs.inv trivial ?_ (by simp [taskOf])
      obtain ⟨older, e⟩ := hs.past
      exact ⟨m, older, e, .inr ⟨b, !right, hk, rfl, by rw [← hr]; cases right <;> simp⟩⟩
    dsimp only
    cases right with
    | true =>
      refine inv_set h1 (d := c) hs.find ?_
      have hn := h1.known u c hs.find
      refine ⟨hn.online, ?_, hn.key, hn.trusted⟩
      intro _
      obtain ⟨ps', e, h2, h3⟩ := hr.1 rfl
      refine hashShown_mono (by simp) ⟨m, seq, ps', looked_since hs, ?_, h2, h3⟩
      rw [← e]
      exact hk
    | false => exact keeps_kick _ h1
  · rw [if_neg hp]
    exact hs.inv

/-- A new handler. -/
theorem inv_start {cfg : Cfg} {ctx : Option Uuid} {s : State} (hs : Inv cfg none ctx s) {task : Task}
    {a : Act} (hc : Calm a) (hf : Fine cfg s.past a) (ht : taskOf a = some s.next)
    (hk : TaskOk cfg s.next task (a :: s.past)) :
    Inv cfg none ctx (({ s with tasks := s.tasks ++ [(s.next, task)], next := s.next + 1 } : State).push a)
    where
  fine := ⟨hf, hs.fine⟩
  known u c h := known_mono (calm_opened hc u) (calm_closed hc u) (calm_discredited hc u)
    (hs.known u c h)
  gone u h := fun ho => hs.gone u h ((online_mono (calm_opened hc u) (calm_closed hc u)).1 ho)
  distinct := hs.distinct
  fresh b hb t h := by
    show t < s.next + 1
    rcases List.mem_cons.1 hb with e | e
    · rw [e, ht] at h
      cases h
      omega
    · have := hs.fresh b e t h
      omega
  ids p hp := by
    show p.1 < s.next + 1
    rcases List.mem_append.1 hp with e | e
    · have := hs.ids p e
      omega
    · rw [List.mem_singleton.1 e]
      show s.next < s.next + 1
      omega
  once := by
    show ((s.tasks ++ [(s.next, task)]).map Prod.fst).Nodup
    rw [List.map_append, List.nodup_append]
    refine ⟨hs.once, by simp, ?_⟩
    intro y hy z hz e
    obtain ⟨p, hp, e1⟩ := List.mem_map.1 hy
    have := hs.ids p hp
    simp only [List.map_cons, List.map_nil, List.mem_singleton] at hz
    omega
  tasks p hp hx := by
    rcases List.mem_append.1 hp with e | e
    · refine taskOk_mono ?_ (hs.tasks p e hx)
      rw [ht]
      intro e2
      injection e2 with e2
      have := hs.ids p e
      omega
    · rw [List.mem_singleton.1 e]
      exact hk
  during u h := ⟨(hs.during u h).1,
    trusted_mono (calm_opened hc u) (calm_chunk hc u) (hs.during u h).2⟩

theorem fresh_none {cfg : Cfg} {x : Option Nat} {ctx : Option Uuid} {s : State}
    (hs : Inv cfg x ctx s) : ∀ a ∈ s.past, taskOf a ≠ some s.next := fun a ha e =>
  Nat.lt_irrefl _ (hs.fresh a ha _ e)

theorem onOther_inv {cfg : Cfg} {env : Env} {opts : Server.Options} {u : Uuid} {c : Consumer} {m : Msg}
    {seq : UInt32} {s : State} (hs : Looked cfg u c m seq s) :
    Inv cfg none (some u) (onOther cfg env opts u c m seq s).2 := by
  unfold onOther
  by_cases h1 : (!c.hash) = true
  · rw [if_pos h1]; exact keeps_kick _ hs.inv
  rw [if_neg h1]
  by_cases h2 : c.key.isNone = true
  · rw [if_pos h2]; exact keeps_kick _ hs.inv
  rw [if_neg h2]
  split
  · refine keeps_andThen ?_ ?_ _ hs.inv
    · split
      · exact keeps_note trivial (fun _ => trivial) rfl
      · exact keeps_skip
    · split
      · exact keeps_callUser trivial (fun _ => trivial) rfl
      · exact keeps_skip
  have hn := hs.inv.known u c hs.find
  have hh : Handshake cfg u s.past := by
    refine ⟨hn.online, hn.hash (by simpa using h1), hn.key ?_⟩
    cases hk : c.key with
    | none => rw [hk] at h2; simp at h2
    | some _ => rfl
  have ht := (hs.inv.during u rfl).2
  obtain ⟨older, hp⟩ := hs.past
  unfold dispatch
  cases e : cfg.workflow.requests.findSome? (fun r =>
    r.request.bind (fun ref => (m.extract ref).map (fun b => (r, ref, b)))) with
  | some y =>
    obtain ⟨r, ref, b⟩ := y
    obtain ⟨r', hr, e2⟩ := List.exists_of_findSome?_eq_some e
    cases hq : r'.request with
    | none => rw [hq] at e2; cases e2
    | some ref' =>
      rw [hq] at e2
      cases hx : m.extract ref' with
      | none => simp [hx] at e2
      | some b' =>
        simp [hx] at e2
        obtain ⟨rfl, rfl, rfl⟩ := e2
        have hfo := (extract_iff _ _ _).1 hx
        refine enter_inv ?_
        refine inv_start hs.inv trivial ?_ rfl ?_
        · exact ⟨⟨hh, ht, fresh_none hs.inv, m, older, hp, hfo⟩, r', hr, hq⟩
        · refine ⟨⟨hr, ref', b', hq, List.mem_cons_self⟩, ?_, ?_⟩
          · intro v q x hm
            rcases List.mem_cons.1 hm with e3 | e3
            · cases e3
            · exact fresh_none hs.inv _ e3 rfl
          · intro hm
            rcases List.mem_cons.1 hm with e3 | e3
            · cases e3
            · exact fresh_none hs.inv _ e3 rfl
  | none =>
    dsimp only
    cases e : cfg.workflow.beacons.findSome? (fun x =>
      (m.extract x.reference).map (fun b => (x.reference, b))) with
    | some y =>
      obtain ⟨ref, b⟩ := y
      obtain ⟨x, hx, e2⟩ := List.exists_of_findSome?_eq_some e
      cases hy : m.extract x.reference with
      | none => simp [hy] at e2
      | some b' =>
        simp [hy] at e2
        obtain ⟨e3, rfl⟩ := e2
        have hfo := (extract_iff _ _ _).1 hy
        rw [e3] at hfo
        refine enter_inv ?_
        refine inv_start hs.inv trivial ?_ rfl ?_
        · exact ⟨⟨hh, ht, fresh_none hs.inv, m, older, hp, hfo⟩, x, hx, e3⟩
        · refine ⟨⟨ref, b', List.mem_cons_self⟩, ?_, ?_⟩
          · intro v q x hm
            rcases List.mem_cons.1 hm with e3 | e3
            · cases e3
            · exact fresh_none hs.inv _ e3 rfl
          · intro hm
            rcases List.mem_cons.1 hm with e3 | e3
            · cases e3
            · exact fresh_none hs.inv _ e3 rfl
    | none => exact keeps_andThen keeps_receivingErr (fun _ h => h) _ hs.inv

theorem onMessage_inv {cfg : Cfg} {env : Env} {opts : Server.Options} {u : Uuid} {c : Consumer}
    {m : Msg} {seq : UInt32} {s : State} (hs : Looked cfg u c m seq s) :
    Inv cfg none (some u) (onMessage cfg env opts u c m seq s).2 := by
  unfold onMessage
  cases h1 : m.extract cfg.selfKey <;> cases h2 : c.hash <;> cases h3 : m.extract hashRequest
  · exact onOther_inv hs
  · exact onHash_inv hs h3
  · exact onOther_inv hs
  · exact onHash_inv hs h3
  · exact onSelfKey_inv hs ((extract_iff _ _ _).1 h1)
  · exact onSelfKey_inv hs ((extract_iff _ _ _).1 h1)
  · exact onOther_inv hs
  · exact onHash_inv hs h3

theorem known_reader {cfg : Cfg} {u : Uuid} {c : Consumer} {h : List Act} (hk : Known cfg u c h)
    (r : Rust.Reader Msg) : Known cfg u { c with reader := r } h :=
  ⟨hk.online, hk.hash, hk.key, hk.trusted⟩

theorem keeps_onMessages {cfg : Cfg} {env : Env} {opts : Server.Options} {u : Uuid} :
    ∀ ms : List (Rust.Income Msg), Keeps cfg none (some u) (onMessages cfg env opts u ms)
  | [] => keeps_skip
  | m :: ms => by
    intro s hs
    unfold onMessages
    dsimp only
    split
    · exact hs
    · rename_i c hc
      have h0 := hs.during u rfl
      have h1 : Inv cfg none (some u) ((s.set u { c with reader := ⟨c.reader.buffer, ms⟩ }).push
          (.got u m.msg m.header.sequence)) := by
        refine inv_push (inv_set hs hc (known_reader (hs.known u c hc) _)) trivial ?_ (by simp [taskOf])
        exact ⟨(hs.known u c hc).online, h0.2⟩
      have h2 := onMessage_inv (env := env) (opts := opts) (m := m.msg) (seq := m.header.sequence)
        (c := { c with reader := ⟨c.reader.buffer, ms⟩ })
        ⟨h1, find_set_self hc, s.past, rfl⟩
      unfold Proc.andThen
      dsimp only
      split
      · rename_i s' e
        rw [e] at h2
        exact keeps_onMessages ms _ h2
      · exact h2

/-- A piece of data arrives. -/
theorem inv_chunk {cfg : Cfg} {s : State} (hs : Inv cfg none none s) {u : Uuid} :
    Inv cfg none none (s.push (.chunk u)) where
  fine := ⟨trivial, hs.fine⟩
  known v c h := known_mono (by simp) (by simp) (by simp) (hs.known v c h)
  gone v h := fun ho => hs.gone v h ((online_mono (by simp) (by simp)).1 ho)
  distinct := hs.distinct
  fresh b hb t h := by
    rcases List.mem_cons.1 hb with e | e
    · rw [e] at h; cases h
    · exact hs.fresh b e t h
  ids := hs.ids
  once := hs.once
  tasks p hp hx := taskOk_mono (by simp [taskOf]) (hs.tasks p hp hx)
  during u h := by cases h

theorem inv_enter {cfg : Cfg} {x : Option Nat} {s : State} (hs : Inv cfg x none s) {u : Uuid}
    (h1 : (s.find u).isSome = true) (h2 : Trusted u s.past) : Inv cfg x (some u) s :=
  { hs with during := by intro v e; cases e; exact ⟨h1, h2⟩ }

theorem inv_leave {cfg : Cfg} {x : Option Nat} {ctx : Option Uuid} {s : State}
    (hs : Inv cfg x ctx s) : Inv cfg x none s :=
  { hs with during := by intro v e; cases e }

theorem keeps_received {cfg : Cfg} {env : Env} {opts : Server.Options} {u : Uuid} {bytes : Bytes} :
    Keeps cfg none none (received cfg env opts u bytes) := by
  intro s hs
  have h1 := inv_chunk hs (u := u)
  unfold received
  dsimp only
  cases hc : (s.push (.chunk u)).find u with
  | none => exact keeps_receivingErr _ h1
  | some c =>
    have hk := h1.known u c hc
    dsimp only
    split
    · exact keeps_receivingErr _ h1
    · rename_i hd
      have hset : ∀ r, Inv cfg none none ((s.push (.chunk u)).set u { c with reader := r }) :=
        fun r => inv_set h1 hc (known_reader hk r)
      split
      · exact h1
      · exact hset _
      · exact keeps_receivingErr _ (hset _)
      · rename_i r _
        refine inv_leave (keeps_onMessages _ _ (inv_enter (hset r) (u := u) ?_ ?_))
        · rw [find_set_self hc]; rfl
        · refine ⟨[], s.past, rfl, by simp, by simp, ?_⟩
          have := (hs.known u c hc).trusted (by simpa using hd)
          exact this

/-! ### Handlers -/

theorem inv_weaken {cfg : Cfg} {x : Option Nat} {ctx : Option Uuid} {s : State}
    (hs : Inv cfg none ctx s) : Inv cfg x ctx s :=
  { hs with tasks := fun p hp _ => hs.tasks p hp (by simp) }

theorem nodup_filter_keys {α : Type} (l : List (Nat × α)) (q : Nat × α → Bool)
    (h : (l.map Prod.fst).Nodup) : ((l.filter q).map Prod.fst).Nodup :=
  List.Nodup.sublist (List.Sublist.map _ List.filter_sublist) h

theorem inv_drop {cfg : Cfg} {t : Nat} {ctx : Option Uuid} {s : State}
    (hs : Inv cfg (some t) ctx s) : Inv cfg none ctx (s.drop t) where
  fine := hs.fine
  known := hs.known
  gone := hs.gone
  distinct := hs.distinct
  fresh := hs.fresh
  ids p hp := hs.ids p (List.mem_filter.1 hp).1
  once := nodup_filter_keys _ _ hs.once
  tasks p hp _ := by
    have := List.mem_filter.1 hp
    refine hs.tasks p this.1 ?_
    simpa using this.2
  during := hs.during

theorem inv_wait {cfg : Cfg} {t : Nat} {ctx : Option Uuid} {s : State} {task : Task} {ph : Phase}
    (hs : Inv cfg (some t) ctx s) (ht : TaskOk cfg t { task with phase := ph } s.past) :
    Inv cfg none ctx (s.wait t task ph) where
  fine := hs.fine
  known := hs.known
  gone := hs.gone
  distinct := hs.distinct
  fresh := hs.fresh
  ids p hp := by
    obtain ⟨q, hq, e⟩ := List.mem_map.1 hp
    have h1 := hs.ids q hq
    by_cases h : q.1 = t
    · rw [if_pos h] at e
      rw [← e]
      show t < s.next
      omega
    · rw [if_neg h] at e
      rw [← e]
      exact h1
  once := by
    show ((s.tasks.map _).map Prod.fst).Nodup
    rw [keys_map]
    exact hs.once
  tasks p hp _ := by
    obtain ⟨q, hq, e⟩ := List.mem_map.1 hp
    by_cases h : q.1 = t
    · rw [if_pos h] at e
      rw [← e]
      exact ht
    · rw [if_neg h] at e
      rw [← e]
      refine hs.tasks q hq ?_
      simpa using h
  during := hs.during

theorem fail_inv {cfg : Cfg} {env : Env} {opts : Server.Options} {t : Nat} {ctx : Option Uuid}
    {s : State} {task : Task} (hs : Inv cfg (some t) ctx s) :
    Inv cfg none ctx (fail cfg env opts t task s).2 := by
  unfold fail
  split
  · exact inv_drop hs
  · exact keeps_receivingErr _ (inv_drop hs)

/-- The handler has answered, or is for an event. -/
abbrev Answered (cfg : Cfg) (t : Nat) (task : Task) (h : List Act) : Prop :=
  TaskOk cfg t { task with phase := .casting } h

theorem finish_inv {cfg : Cfg} {env : Env} {opts : Server.Options} {t : Nat} {ctx : Option Uuid}
    {s : State} {task : Task} (hs : Inv cfg (some t) ctx s) (hn : t < s.next)
    (ha : Answered cfg t task s.past) : Inv cfg none ctx (finish cfg env opts t task s).2 := by
  unfold finish
  split
  · exact inv_drop hs
  · rename_i hj
    have h1 : Inv cfg (some t) ctx (s.push (.deferred t)) := by
      refine inv_push hs trivial ⟨?_, ha.2.2⟩ (by intro t' e; cases e; exact ⟨rfl, hn⟩)
      rcases ha.2.1 with ⟨e, he⟩ | h
      · exact absurd he (hj e)
      · exact h
    have h2 : Inv cfg (some t) ctx (enter cfg env (.deferred t) s) := enter_inv h1
    dsimp only
    split
    · exact fail_inv h2
    · exact inv_drop h2

theorem answered_cast {cfg : Cfg} {t : Nat} {task : Task} {h : List Act} {u : Uuid} {q : UInt32}
    {o : Out} (ha : Answered cfg t task h) : Answered cfg t task (.send (.cast t) u q o :: h) := by
  obtain ⟨h1, h2, h3⟩ := ha
  refine ⟨?_, ?_, ?_⟩
  · dsimp only at h1 ⊢
    cases hj : task.job with
    | request r =>
      rw [hj] at h1
      obtain ⟨h4, ref, b, h5, h6⟩ := h1
      exact ⟨h4, ref, b, h5, List.mem_cons_of_mem _ h6⟩
    | beacon =>
      rw [hj] at h1
      obtain ⟨ref, b, h6⟩ := h1
      exact ⟨ref, b, List.mem_cons_of_mem _ h6⟩
    | event e =>
      rw [hj] at h1
      obtain ⟨ref, h6⟩ := h1
      exact ⟨ref, List.mem_cons_of_mem _ h6⟩
  · rcases h2 with h2 | ⟨v, q, x, h4⟩
    · exact .inl h2
    · exact .inr ⟨v, q, x, List.mem_cons_of_mem _ h4⟩
  · intro hm
    rcases List.mem_cons.1 hm with e | e
    · cases e
    · exact h3 e

theorem answered_either {cfg : Cfg} {t : Nat} {task : Task} {h : List Act}
    (ha : Answered cfg t task h) :
    (∃ v q x, .send (.answer t) v q x ∈ h) ∨ ∃ ref, .event t ref ∈ h := by
  obtain ⟨h1, h2, _⟩ := ha
  rcases h2 with ⟨e, he⟩ | h2
  · dsimp only at h1 he
    rw [he] at h1
    exact .inr h1
  · exact .inl h2

/-- What the broadcasts keep. -/
structure Casting (cfg : Cfg) (t : Nat) (ctx : Option Uuid) (task : Task) (s : State) : Prop where
  inv : Inv cfg (some t) ctx s
  lt : t < s.next
  answered : Answered cfg t task s.past

theorem casting_push {cfg : Cfg} {t : Nat} {ctx : Option Uuid} {task : Task} {s : State} {u : Uuid}
    {o : Out} (h : Casting cfg t ctx task s) :
    Casting cfg t ctx task (s.push (.send (.cast t) u 0 o)) where
  inv := inv_push h.inv trivial ⟨rfl, answered_either h.answered⟩
    (by intro t' e; cases e; exact ⟨rfl, h.lt⟩)
  lt := h.lt
  answered := answered_cast h.answered

theorem casting_all {cfg : Cfg} {t : Nat} {ctx : Option Uuid} {task : Task} {o : Out} :
    ∀ (us : List Uuid) {s : State}, Casting cfg t ctx task s →
      Casting cfg t ctx task (us.foldl (fun s u => s.push (.send (.cast t) u 0 o)) s)
  | [], _, h => h
  | _ :: us, _, h => casting_all us (casting_push h)

theorem castAll_inv {cfg : Cfg} {t : Nat} {ctx : Option Uuid} {task : Task} :
    ∀ (cs : List Cast) {s : State}, Casting cfg t ctx task s →
      Casting cfg t ctx task (castAll cfg t cs s).2
  | [], _, h => h
  | (ref, us, b) :: cs, s, h => by
    unfold castAll
    split
    · exact castAll_inv cs (casting_all us h)
    · exact h

theorem broadcastAll_inv {cfg : Cfg} {env : Env} {opts : Server.Options} {t : Nat}
    {ctx : Option Uuid} {s : State} {task : Task} {casts : List Cast}
    (h : Casting cfg t ctx task s) : Inv cfg none ctx (broadcastAll cfg env opts t task casts s).2 := by
  unfold broadcastAll
  split
  · exact finish_inv h.inv h.lt h.answered
  · have h1 := castAll_inv casts h
    split
    · rename_i s' e
      rw [e] at h1
      exact inv_wait h1.inv h1.answered
    · rename_i s' e
      rw [e] at h1
      exact fail_inv h1.inv

theorem sendAnswer_inv {cfg : Cfg} {env : Env} {opts : Server.Options} {t : Nat}
    {ctx : Option Uuid} {s : State} {task : Task} {o : Out} {casts : List Cast}
    (hs : Inv cfg (some t) ctx s) (hn : t < s.next) (hk : TaskOk cfg t task s.past)
    (hp : task.phase = .user) (ho : Started cfg t task.u task.seq o s.past) :
    Inv cfg none ctx (sendAnswer cfg env opts t task o casts s).2 := by
  obtain ⟨h1, h2, h3⟩ := hk
  rw [hp] at h2
  unfold sendAnswer
  split
  · refine inv_wait (inv_push hs trivial ⟨ho, h2⟩ (by intro t' e; cases e; exact ⟨rfl, hn⟩)) ?_
    refine ⟨?_, ⟨_, _, _, List.mem_cons_self⟩, ?_⟩
    · dsimp only
      cases hj : task.job with
      | request r =>
        rw [hj] at h1
        obtain ⟨h4, ref, b, h5, h6⟩ := h1
        exact ⟨h4, ref, b, h5, List.mem_cons_of_mem _ h6⟩
      | beacon =>
        rw [hj] at h1
        obtain ⟨ref, b, h6⟩ := h1
        exact ⟨ref, b, List.mem_cons_of_mem _ h6⟩
      | event e =>
        rw [hj] at h1
        obtain ⟨ref, h6⟩ := h1
        exact ⟨ref, List.mem_cons_of_mem _ h6⟩
    · intro hm
      rcases List.mem_cons.1 hm with e | e
      · cases e
      · exact h3 e
  · exact fail_inv hs

theorem expectations_mem {r : Flow.Request} {resp : Ref} (h : resp ∈ expectations r) :
    r.error = some resp ∨ ∃ a ∈ r.actions, a.response = some resp := by
  unfold expectations at h
  rcases List.mem_append.1 h with h | h
  · right
    split at h
    · obtain ⟨a, ha, e⟩ := List.mem_filterMap.1 h
      exact ⟨a, ha, e⟩
    · cases ha : r.actions with
      | nil => simp [ha] at h
      | cons a as =>
        simp [ha] at h
        exact ⟨a, List.mem_cons_self, h⟩
  · left
    simpa using h

theorem resume_inv {cfg : Cfg} {env : Env} {opts : Server.Options} {t : Nat} {ctx : Option Uuid}
    {s : State} {task : Task} {x : Settled} (hs : Inv cfg none ctx s)
    (ht : s.tasks.lookup t = some task) : Inv cfg none ctx (resume cfg env opts t task x s).2 := by
  have hm := lookup_mem ht
  have hn : t < s.next := hs.ids _ hm
  have hk : TaskOk cfg t task s.past := hs.tasks _ hm (by simp)
  have hw : Inv cfg (some t) ctx s := inv_weaken hs
  have hc : ∀ casts, task.phase = .sending casts → Casting cfg t ctx task s := by
    intro casts hp
    refine ⟨hw, hn, hk.1, ?_, hk.2.2⟩
    have := hk.2.1
    rw [hp] at this
    exact .inr this
  unfold resume
  generalize hp : task.phase = ph
  generalize hj : task.job = job
  split
  · exact fail_inv hw
  · rename_i r resp body calls
    split
    · exact hs
    · rename_i hr
      have hst : Started cfg t task.u task.seq (.msg resp body) s.past := by
        have h1 := hk.1
        rw [hj] at h1
        obtain ⟨h4, ref, b, h5, h6⟩ := h1
        exact .inl ⟨r, ref, b, resp, body, h4, h5, h6, rfl,
          expectations_mem (Decidable.of_not_not hr)⟩
      split
      · cases collect (requestMethods r) resp calls [] with
        | none => exact fail_inv hw
        | some casts =>
          dsimp only
          split
          · exact sendAnswer_inv hw hn hk hp hst
          · exact fail_inv hw
      · exact sendAnswer_inv hw hn hk hp hst
  · refine sendAnswer_inv hw hn hk hp ?_
    have h1 := hk.1
    rw [hj] at h1
    obtain ⟨ref, b, h6⟩ := h1
    exact .inr ⟨ref, b, h6, rfl⟩
  · rename_i e calls
    have hcs : Casting cfg t ctx task s := by
      refine ⟨hw, hn, hk.1, ?_, hk.2.2⟩
      exact .inl ⟨e, hj⟩
    cases collect (eventMethods e) [] calls [] with
    | none => exact fail_inv hw
    | some casts =>
      dsimp only
      split
      · exact broadcastAll_inv hcs
      · exact fail_inv hw
  · rename_i casts
    exact broadcastAll_inv (hc casts hp)
  · exact fail_inv hw
  · refine finish_inv hw hn ?_
    rw [Answered, ← hp]
    exact hk
  · exact hs

/-! ### The server -/

theorem inv_number {cfg : Cfg} {ctx : Option Uuid} {s : State} (hs : Inv cfg none ctx s) {a : Act}
    (hc : Calm a) (hf : Fine cfg s.past a) (ht : taskOf a = some s.next) :
    Inv cfg none ctx (({ s with next := s.next + 1 } : State).push a) where
  fine := ⟨hf, hs.fine⟩
  known u c h := known_mono (calm_opened hc u) (calm_closed hc u) (calm_discredited hc u)
    (hs.known u c h)
  gone u h := fun ho => hs.gone u h ((online_mono (calm_opened hc u) (calm_closed hc u)).1 ho)
  distinct := hs.distinct
  fresh b hb t h := by
    show t < s.next + 1
    rcases List.mem_cons.1 hb with e | e
    · rw [e, ht] at h
      cases h
      omega
    · have := hs.fresh b e t h
      omega
  ids p hp := by
    have := hs.ids p hp
    show p.1 < s.next + 1
    omega
  once := hs.once
  tasks p hp hx := by
    refine taskOk_mono ?_ (hs.tasks p hp hx)
    rw [ht]
    intro e2
    injection e2 with e2
    have := hs.ids p hp
    omega
  during u h := ⟨(hs.during u h).1,
    trusted_mono (calm_opened hc u) (calm_chunk hc u) (hs.during u h).2⟩

theorem keeps_emitEvent {cfg : Cfg} {env : Env} {e : Flow.Event} :
    Keeps cfg none none (emitEvent cfg env e) := by
  intro s hs
  unfold emitEvent
  dsimp only
  split
  · exact enter_inv (inv_number hs trivial trivial rfl)
  · refine enter_inv (inv_start hs trivial trivial rfl ⟨⟨_, List.mem_cons_self⟩, ?_, ?_⟩)
    · intro v q x hm
      rcases List.mem_cons.1 hm with e3 | e3
      · cases e3
      · exact fresh_none hs _ e3 rfl
    · intro hm
      rcases List.mem_cons.1 hm with e3 | e3
      · cases e3
      · exact fresh_none hs _ e3 rfl

theorem inv_opened {cfg : Cfg} {s : State} (hs : Inv cfg none none s) {u : Uuid}
    (hu : s.find u = none) :
    Inv cfg none none
      (({ s with consumers := s.consumers ++ [(u, Consumer.new)] } : State).push (.opened u)) where
  fine := ⟨hs.gone u hu, hs.fine⟩
  known v c h := by
    have h' : (s.consumers ++ [(u, Consumer.new)]).lookup v = some c := h
    rw [lookup_append_new _ _ _ _ hu] at h'
    by_cases hv : v = u
    · subst hv
      rw [if_pos rfl] at h'
      cases h'
      refine ⟨⟨List.mem_cons_self, ?_⟩, ?_, ?_, ?_⟩
      · show Act.closed v ∉ since v (.opened v :: s.past)
        rw [since_opened]; simp
      · intro e; cases e
      · intro e; cases e
      · intro _
        show Act.discredited v ∉ since v (.opened v :: s.past)
        rw [since_opened]; simp
    · rw [if_neg hv] at h'
      have hne : Act.opened u ≠ .opened v := by
        intro e; injection e with e; exact hv e.symm
      exact known_mono hne (by simp) (by simp) (hs.known v c h')
  gone v h := by
    have h' : (s.consumers ++ [(u, Consumer.new)]).lookup v = none := h
    rw [lookup_append_new _ _ _ _ hu] at h'
    by_cases hv : v = u
    · subst hv
      rw [if_pos rfl] at h'
      cases h'
    · rw [if_neg hv] at h'
      have hne : Act.opened u ≠ .opened v := by
        intro e; injection e with e; exact hv e.symm
      exact fun ho => hs.gone v h' ((online_mono hne (by simp)).1 ho)
  distinct := by
    show ((s.consumers ++ [(u, Consumer.new)]).map Prod.fst).Nodup
    rw [List.map_append, List.nodup_append]
    refine ⟨hs.distinct, by simp, ?_⟩
    intro y hy z hz e
    simp only [List.map_cons, List.map_nil, List.mem_singleton] at hz
    rw [e, hz] at hy
    exact (lookup_none_iff _ _).1 hu hy
  fresh b hb t h := by
    rcases List.mem_cons.1 hb with e | e
    · rw [e] at h; cases h
    · exact hs.fresh b e t h
  ids := hs.ids
  once := hs.once
  tasks p hp hx := taskOk_mono (by simp [taskOf]) (hs.tasks p hp hx)
  during v h := by cases h

theorem inv_closed {cfg : Cfg} {s : State} (hs : Inv cfg none none s) {u : Uuid} {c : Consumer}
    (hu : s.find u = some c) :
    Inv cfg none none
      (({ s with consumers := s.consumers.filter (fun p => p.1 ≠ u) } : State).push (.closed u)) where
  fine := ⟨(hs.known u c hu).online, hs.fine⟩
  known v d h := by
    have h' : (s.consumers.filter (fun p => p.1 ≠ u)).lookup v = some d := h
    by_cases hv : v = u
    · subst hv
      rw [lookup_filter_self] at h'
      cases h'
    · rw [lookup_filter_other _ _ _ hv] at h'
      have hne : Act.closed u ≠ .closed v := by
        intro e; injection e with e; exact hv e.symm
      exact known_mono (by simp) hne (by simp) (hs.known v d h')
  gone v h := by
    have h' : (s.consumers.filter (fun p => p.1 ≠ u)).lookup v = none := h
    by_cases hv : v = u
    · subst hv
      rintro ⟨_, h2⟩
      refine h2 ?_
      show Act.closed v ∈ since v (.closed v :: s.past)
      rw [since_cons (by simp)]
      exact List.mem_cons_self
    · rw [lookup_filter_other _ _ _ hv] at h'
      have hne : Act.closed u ≠ .closed v := by
        intro e; injection e with e; exact hv e.symm
      exact fun ho => hs.gone v h' ((online_mono (by simp) hne).1 ho)
  distinct := nodup_filter_keys _ _ hs.distinct
  fresh b hb t h := by
    rcases List.mem_cons.1 hb with e | e
    · rw [e] at h; cases h
    · exact hs.fresh b e t h
  ids := hs.ids
  once := hs.once
  tasks p hp hx := taskOk_mono (by simp [taskOf]) (hs.tasks p hp hx)
  during v h := by cases h

theorem step_inv {cfg : Cfg} {env : Env} {opts : Server.Options} (i : Input) :
    Keeps cfg none none (step cfg env opts i) := by
  intro s hs
  cases i with
  | ready => exact keeps_callUser (a := .ready) trivial (fun _ => trivial) rfl _ hs
  | shutdown => exact keeps_callUser (a := .shutdown) trivial (fun _ => trivial) rfl _ hs
  | serverError => exact keeps_callUser (a := .error none) trivial (fun _ => trivial) rfl _ hs
  | connected u =>
    simp only [step]
    cases hu : s.find u with
    | some c => exact keeps_callUser (a := .error none) trivial (fun _ => trivial) rfl _ hs
    | none => exact keeps_emitEvent _ (inv_opened hs hu)
  | disconnected u =>
    simp only [step]
    cases hu : s.find u with
    | none => exact keeps_callUser (a := .error none) trivial (fun _ => trivial) rfl _ hs
    | some c => exact keeps_emitEvent _ (inv_closed hs hu)
  | received u bytes => exact keeps_received _ hs
  | event ref =>
    simp only [step]
    cases cfg.workflow.events.find? (fun e => e.reference = some ref && !Flow.isDefaultEvent ref) with
    | some e => exact keeps_emitEvent _ hs
    | none => exact hs
  | user c => exact change_inv hs c
  | settled t x =>
    simp only [step]
    cases ht : s.tasks.lookup t with
    | none => exact hs
    | some task => exact resume_inv hs ht

theorem run_inv_from {cfg : Cfg} {env : Env} {opts : Server.Options} : ∀ (is : List Input) {s : State},
    Inv cfg none none s → Inv cfg none none (run cfg env opts is s).2
  | [], _, h => h
  | i :: is, s, h => by
    have h1 := step_inv (env := env) (opts := opts) i s h
    unfold run
    split
    · rename_i s' e
      rw [e] at h1
      exact h1
    · rename_i s' _ e
      rw [e] at h1
      exact run_inv_from is h1

theorem run_append {cfg : Cfg} {env : Env} {opts : Server.Options} : ∀ {is js : List Input}
    {s s' : State}, run cfg env opts is s = (false, s') →
      run cfg env opts (is ++ js) s = run cfg env opts js s'
  | [], _, _, _, h => by
    cases h
    rfl
  | i :: is, js, s, s', h => by
    rw [List.cons_append]
    unfold run at h
    conv => lhs; unfold run
    split at h
    · cases h
    · exact run_append h

theorem run_inv (cfg : Cfg) (env : Env) (opts : Server.Options) (is : List Input) :
    Inv cfg none none (run cfg env opts is .new).2 := run_inv_from is inv_new

end Verif.TsServer
