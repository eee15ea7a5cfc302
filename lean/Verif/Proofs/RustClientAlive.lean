import Verif.Proofs.RustClientMore
set_option autoImplicit false
/-! As long as nobody gives up, everyone who waits in a Rust client is owed exactly one answer. -/
namespace Verif.Client

open Verif

variable {P : Type}

/-- What somebody waits for. -/
inductive Kind where
  | sequence
  | uuid
  | response (q : UInt32)

def Phase.kind : Phase P → Option Kind
  | .sequence .waiting => some .sequence
  | .uuid _ .waiting => some .uuid
  | .response q .waiting => some (.response q)
  | _ => none

def AuthPhase.kind : AuthPhase P → Option Kind
  | .key .waiting => some (.response 0)
  | .hash _ .waiting => some (.response 1)
  | _ => none

def waits (calls : List (Nat × Call P)) (auths : List (Nat × AuthPhase P)) : Who → Option Kind
  | .call n => (calls.lookup n).bind (fun c => c.phase.kind)
  | .auth n => (auths.lookup n).bind AuthPhase.kind

def Cmd.owner : Cmd P → Option (Who × Kind)
  | .request w q _ => some (w, .response q)
  | .uuid n => some (.call n, .uuid)
  | .sequence n => some (.call n, .sequence)
  | .accept .. => none

def AuthMsg.owner : AuthMsg → Option (Who × Kind)
  | .getUuid n => some (.call n, .uuid)
  | .setUuid _ => none

/-- Who is owed what. -/
def held (queue : List (Cmd P)) (aq : List AuthMsg) (pend : List (UInt32 × Who)) : List (Who × Kind) :=
  queue.filterMap Cmd.owner ++ (aq.filterMap AuthMsg.owner ++ pend.map (fun p => (p.2, .response p.1)))

structure Cov (l : List (Who × Kind)) (w : Who → Option Kind) (g : Who × Kind → Prop) : Prop where
  once : (l.map Prod.fst).Nodup
  waits : ∀ x ∈ l, w x.1 = some x.2 ∨ g x

/-- The request took too long and nobody waits any more. -/
def Gone (past : List (Act P)) (x : Who × Kind) : Prop :=
  ∃ n q, x = (.call n, .response q) ∧ .ended n .timeout ∈ past

theorem Gone.mono {h h' : List (Act P)} (hs : ∀ x ∈ h, x ∈ h') {x : Who × Kind} (k : Gone h x) : Gone h' x := by
  obtain ⟨n, q, h1, h2⟩ := k
  exact ⟨n, q, h1, hs _ h2⟩

theorem Gone.cons {h : List (Act P)} {x : Who × Kind} (k : Gone h x) (a : Act P) : Gone (a :: h) x :=
  k.mono (fun _ => List.mem_cons_of_mem _)

section
variable {l l' : List (Who × Kind)} {w w' : Who → Option Kind} {g g' : Who × Kind → Prop}

theorem Cov.nil (w : Who → Option Kind) (g : Who × Kind → Prop) : Cov [] w g := ⟨by simp, by simp⟩

theorem Cov.perm (h : Cov l w g) (p : l.Perm l') : Cov l' w g :=
  ⟨(p.map Prod.fst).nodup h.once, fun x hx => h.waits x (p.mem_iff.2 hx)⟩

theorem Cov.sub (h : Cov l w g) (p : l'.Sublist l) : Cov l' w g :=
  ⟨h.once.sublist (p.map Prod.fst), fun x hx => h.waits x (p.subset hx)⟩

theorem Cov.congr (h : Cov l w g) (hg : ∀ x, g x → g' x)
    (p : ∀ x ∈ l, w x.1 = some x.2 → w' x.1 = w x.1 ∨ g' x) : Cov l w' g' := by
  refine ⟨h.once, fun x hx => ?_⟩
  rcases h.waits x hx with k | k
  · rcases p x hx k with p | p
    · exact .inl (by rw [p]; exact k)
    · exact .inr p
  · exact .inr (hg x k)

theorem Cov.mono (h : Cov l w g) (hg : ∀ x, g x → g' x) : Cov l w g' :=
  h.congr hg (fun _ _ _ => .inl rfl)

theorem Cov.free (h : Cov l w g) {a : Who} (ha : w a = none) (hg : ∀ k, ¬ g (a, k))
    {x : Who × Kind} (hx : x ∈ l) : x.1 ≠ a := by
  rintro rfl
  rcases h.waits x hx with k | k
  · rw [k] at ha; cases ha
  · exact hg _ k

theorem Cov.cons (h : Cov l w g) {a : Who} {k : Kind}
    (ha : w a = none) (hg : ∀ k, ¬ g (a, k)) (hk : w' a = some k) (hw : ∀ b, b ≠ a → w' b = w b) :
    Cov ((a, k) :: l) w' g := by
  refine ⟨?_, ?_⟩
  · simp only [List.map_cons, List.nodup_cons]
    refine ⟨fun hm => ?_, h.once⟩
    obtain ⟨x, hx, e⟩ := List.mem_map.1 hm
    exact h.free ha hg hx e
  · intro x hx
    rcases List.mem_cons.1 hx with rfl | hx
    · exact .inl hk
    · rw [hw _ (h.free ha hg hx)]; exact h.waits x hx

theorem Cov.tail {a : Who} {k : Kind}
    (h : Cov ((a, k) :: l) w g) (hw : ∀ b, b ≠ a → w' b = w b) : Cov l w' g := by
  have h1 := h.once
  simp only [List.map_cons, List.nodup_cons] at h1
  refine ⟨h1.2, fun x hx => ?_⟩
  have : x.1 ≠ a := by
    rintro rfl
    exact h1.1 (List.mem_map.2 ⟨x, hx, rfl⟩)
  rw [hw _ this]
  exact h.waits x (List.mem_cons_of_mem _ hx)

end

theorem not_gone {cfg : Cfg P} {s : State P} (hi : Inv cfg s) {n : Nat} {c : Call P}
    (h : s.calls.lookup n = some c) (k : Kind) : ¬ Gone s.past (.call n, k) := by
  rintro ⟨m, q, e, hm⟩
  cases e
  exact (hi.calls _ _ h).2.1 _ hm

theorem not_gone_auth (past : List (Act P)) (n : Nat) (k : Kind) : ¬ Gone past (.auth n, k) := by
  rintro ⟨m, q, e, hm⟩
  cases e

theorem lawful_ended {cfg : Cfg P} {h : List (Act P)} (hl : Lawful cfg h) {n : Nat} {r : Result P}
    (hm : .ended n r ∈ h) : ∃ job body, .called n job body ∈ h := by
  induction h with
  | nil => simp at hm
  | cons a h ih =>
    rcases List.mem_cons.1 hm with rfl | hm
    · obtain ⟨job, body, k, _⟩ := hl.1.2
      exact ⟨job, body, List.mem_cons_of_mem _ k⟩
    · obtain ⟨job, body, k⟩ := ih hl.2 hm
      exact ⟨job, body, List.mem_cons_of_mem _ k⟩

theorem held_snoc (queue : List (Cmd P)) (aq : List AuthMsg) (pend : List (UInt32 × Who)) {c : Cmd P}
    {x : Who × Kind} (hc : c.owner = some x) :
    (x :: held queue aq pend).Perm (held (queue ++ [c]) aq pend) := by
  unfold held
  simp only [List.filterMap_append, List.filterMap_cons, hc, List.filterMap_nil, List.append_assoc,
    List.cons_append, List.nil_append]
  exact List.perm_middle.symm

theorem held_cons (queue : List (Cmd P)) (aq : List AuthMsg) (pend : List (UInt32 × Who)) {c : Cmd P}
    {x : Who × Kind} (hc : c.owner = some x) : held (c :: queue) aq pend = x :: held queue aq pend := by
  simp [held, hc]

theorem held_skip (queue : List (Cmd P)) (aq : List AuthMsg) (pend : List (UInt32 × Who)) {c : Cmd P}
    (hc : c.owner = none) : held (c :: queue) aq pend = held queue aq pend := by
  simp [held, hc]

theorem held_snocSkip (queue : List (Cmd P)) (aq : List AuthMsg) (pend : List (UInt32 × Who)) {c : Cmd P}
    (hc : c.owner = none) : held (queue ++ [c]) aq pend = held queue aq pend := by
  simp [held, hc]

theorem waits_setCall {s : State P} {n : Nat} {c d : Call P} (h : s.calls.lookup n = some d) (w : Who) :
    waits (s.setCall n c).calls s.auths w = if w = .call n then c.phase.kind else waits s.calls s.auths w := by
  cases w with
  | auth m => simp [waits]
  | call m =>
    simp only [waits, State.setCall, lookup_mapSet, Who.call.injEq]
    by_cases e : m = n
    · simp [e, h]
    · simp [e]

theorem waits_dropCall (s : State P) (n : Nat) (w : Who) :
    waits (s.dropCall n).calls s.auths w = if w = .call n then none else waits s.calls s.auths w := by
  cases w with
  | auth m => simp [waits]
  | call m =>
    simp only [waits, State.dropCall, lookup_filterNe, Who.call.injEq]
    by_cases e : m = n
    · simp [e]
    · simp [e]

theorem waits_setAuth {calls : List (Nat × Call P)} {auths : List (Nat × AuthPhase P)} {n : Nat} {p q : AuthPhase P}
    (h : auths.lookup n = some q) (w : Who) :
    waits calls (auths.map (fun x => if x.1 = n then (n, p) else x)) w =
      if w = .auth n then p.kind else waits calls auths w := by
  cases w with
  | call m => simp [waits]
  | auth m =>
    simp only [waits, lookup_mapSet, Who.auth.injEq]
    by_cases e : m = n
    · simp [e, h]
    · simp [e]

theorem waits_dropAuth (calls : List (Nat × Call P)) (auths : List (Nat × AuthPhase P)) (n : Nat) (w : Who) :
    waits calls (auths.filter (fun p => p.1 ≠ n)) w = if w = .auth n then none else waits calls auths w := by
  cases w with
  | call m => simp [waits]
  | auth m =>
    simp only [waits, lookup_filterNe, Who.auth.injEq]
    by_cases e : m = n
    · simp [e]
    · simp [e]

/-! ### Numbers are distinct -/

theorem mem_numbers {h : List (Act P)} {n : Nat} {q : UInt32} (hm : .numbered n q ∈ h) : q ∈ numbers h := by
  induction h with
  | nil => simp at hm
  | cons x h ih =>
    rcases List.mem_cons.1 hm with rfl | hm
    · simp [numbers]
    · have := ih hm
      cases x <;> simp [numbers, this]

theorem numbered_unique {h : List (Act P)} (hl : ∀ (i : Nat) (q : UInt32), (numbers h)[i]? = some q → q.toNat = nth (i + 1))
    (hn : (numbers h).length ≤ 4294967284) {n m : Nat} {q : UInt32}
    (h1 : .numbered n q ∈ h) (h2 : .numbered m q ∈ h) : n = m := by
  induction h with
  | nil => simp at h1
  | cons x h ih =>
    by_cases hx : ∃ k p, x = .numbered k p
    · obtain ⟨k, p, rfl⟩ := hx
      have hl' : ∀ (i : Nat) (q : UInt32), (numbers h)[i]? = some q → q.toNat = nth (i + 1) := by
        intro i q hi
        refine hl i q ?_
        rw [numbers, List.getElem?_append_left (by
          rw [List.getElem?_eq_some_iff] at hi; exact hi.1)]
        exact hi
      have hn' : (numbers h).length + 1 ≤ 4294967284 := by simpa [numbers] using hn
      have hp := hl (numbers h).length p (by simp [numbers])
      have hno : ∀ j, .numbered j p ∉ h := by
        intro j hj
        obtain ⟨i, hi⟩ := List.mem_iff_getElem?.1 (mem_numbers hj)
        have hlt : i < (numbers h).length := by
          rw [List.getElem?_eq_some_iff] at hi; exact hi.1
        have := hl' i p hi
        rw [hp, nth, nth] at this
        omega
      rcases List.mem_cons.1 h1 with e1 | k1
      · cases e1
        rcases List.mem_cons.1 h2 with e2 | k2
        · cases e2; rfl
        · exact absurd k2 (hno _)
      · rcases List.mem_cons.1 h2 with e2 | k2
        · cases e2; exact absurd k1 (hno _)
        · exact ih hl' (by omega) k1 k2
    · have e : numbers (x :: h) = numbers h := by
        cases x <;> first | rfl | exact absurd ⟨_, _, rfl⟩ hx
      rw [e] at hl hn
      refine ih hl hn ?_ ?_
      · rcases List.mem_cons.1 h1 with rfl | k
        · exact absurd ⟨_, _, rfl⟩ hx
        · exact k
      · rcases List.mem_cons.1 h2 with rfl | k
        · exact absurd ⟨_, _, rfl⟩ hx
        · exact k

/-! ### The tasks go on -/

/-- Tasks end with an error only for one of these reasons. -/
def Ends (cfg : Cfg P) : List (Act P) → Prop
  | [] => True
  | a :: h => (a = .apiEnded false → (∃ ok, .messagesEnded ok ∈ h) ∨ Late h) ∧
      (a = .messagesEnded false → .emitted .authError ∈ h ∨
        ∃ n w, .authEnded n (some w) ∈ h ∧ cfg.parseUuid w = none) ∧ Ends cfg h

structure Alive (cfg : Cfg P) (s : State P) : Prop where
  cov : Cov (held s.queue s.authQueue s.pend) (waits s.calls s.auths) (Gone s.past)
  mute : s.msgs = none → ∃ ok, .messagesEnded ok ∈ s.past
  ends : .panicked ∈ s.past ∨ Ends cfg s.past

/-- An act that ends no task with an error. -/
def Act.calm : Act P → Prop
  | .apiEnded ok => ok = true
  | .messagesEnded ok => ok = true
  | _ => True

theorem Ends.cons {cfg : Cfg P} {h : List (Act P)} (k : Ends cfg h) {a : Act P} (ha : a.calm) :
    Ends cfg (a :: h) :=
  ⟨by rintro rfl; simp [Act.calm] at ha, by rintro rfl; simp [Act.calm] at ha, k⟩

theorem Alive.ends_cons {cfg : Cfg P} {s : State P} (h : Alive cfg s) {a : Act P} (ha : a.calm) :
    .panicked ∈ a :: s.past ∨ Ends cfg (a :: s.past) := by
  rcases h.ends with k | k
  · exact .inl (List.mem_cons_of_mem _ k)
  · exact .inr (k.cons ha)

theorem Alive.mute_cons {cfg : Cfg P} {s : State P} (h : Alive cfg s) (a : Act P) (hm : s.msgs = none) :
    ∃ ok, .messagesEnded ok ∈ a :: s.past := by
  obtain ⟨ok, k⟩ := h.mute hm
  exact ⟨ok, List.mem_cons_of_mem _ k⟩

/-- One act is noted. -/
theorem Alive.push {cfg : Cfg P} {s : State P} (h : Alive cfg s) {a : Act P} (ha : a.calm) :
    Alive cfg (s.push a) :=
  ⟨h.cov.mono (fun _ k => k.cons a), h.mute_cons a, h.ends_cons ha⟩

/-- A change that touches nothing of interest. -/
theorem Alive.same {cfg : Cfg P} {s s' : State P} (h : Alive cfg s) (h1 : s'.queue = s.queue)
    (h2 : s'.authQueue = s.authQueue) (h3 : s'.pend = s.pend) (h4 : s'.calls = s.calls)
    (h5 : s'.auths = s.auths) (h6 : s'.msgs = none → s.msgs = none) (h7 : s'.past = s.past) : Alive cfg s' :=
  ⟨by rw [h1, h2, h3, h4, h5, h7]; exact h.cov, by rw [h7]; exact fun k => h.mute (h6 k), by rw [h7]; exact h.ends⟩

theorem held_aq {aq : List AuthMsg} {n : Nat}
    (h : .getUuid n ∈ aq) : (Who.call n, Kind.uuid) ∈ aq.filterMap AuthMsg.owner :=
  List.mem_filterMap.2 ⟨_, h, rfl⟩

theorem aq_owner {aq : List AuthMsg} {x : Who × Kind} (h : x ∈ aq.filterMap AuthMsg.owner) :
    ∃ n, .getUuid n ∈ aq ∧ x = (.call n, .uuid) := by
  obtain ⟨m, h1, h2⟩ := List.mem_filterMap.1 h
  cases m with
  | setUuid r => cases h2
  | getUuid n => cases h2; exact ⟨n, h1, rfl⟩

/-- `client_api_task` ends. -/
theorem Alive.endApi {cfg : Cfg P} {s : State P}
    (h : Cov (s.authQueue.filterMap AuthMsg.owner) (waits s.calls s.auths) (Gone s.past))
    (hm : s.msgs = none → ∃ ok, .messagesEnded ok ∈ s.past)
    (he : .panicked ∈ s.past ∨ Ends cfg s.past) (ok : Bool)
    (hok : ok = false → (∃ o, .messagesEnded o ∈ s.past) ∨ Late s.past) : Alive cfg (endApi ok s) := by
  refine ⟨?_, ?_, ?_⟩
  · have e : held (Client.endApi ok s).queue (Client.endApi ok s).authQueue (Client.endApi ok s).pend =
        s.authQueue.filterMap AuthMsg.owner := by
      simp [held, Client.endApi, State.push, State.pend]
    rw [e]
    refine h.congr (fun _ k => k.cons _) ?_
    intro x hx h2
    left
    obtain ⟨n, h1, rfl⟩ := aq_owner hx
    simp only [waits] at h2 ⊢
    simp only [Client.endApi, State.push]
    rw [lookup_mapVal (f := fun n (c : Call P) => c.orphan (s.authQueue.contains (.getUuid n)))]
    cases e : s.calls.lookup n with
    | none => rfl
    | some c =>
      rw [e] at h2
      have h3 : s.authQueue.contains (.getUuid n) = true := by simpa using h1
      obtain ⟨job, body, ph⟩ := c
      simp only [Option.bind_some, Option.map_some, h3] at h2 ⊢
      cases ph with
      | uuid q r => simp [Call.orphan]
      | sequence r => cases r <;> simp [Phase.kind] at h2
      | response q r => cases r <;> simp [Phase.kind] at h2
  · intro hn
    have : s.msgs = none := by
      simpa [Client.endApi, State.push] using hn
    obtain ⟨o, k⟩ := hm this
    exact ⟨o, List.mem_cons_of_mem _ k⟩
  · rcases he with k | k
    · exact .inl (List.mem_cons_of_mem _ k)
    · refine .inr ⟨fun e => hok ?_, fun e => ?_, k⟩
      · cases e; rfl
      · cases e

/-- `client_messages_task` ends. -/
theorem Alive.endMsgs {cfg : Cfg P} {s : State P}
    (h : Cov (held s.queue s.authQueue s.pend) (waits s.calls s.auths) (Gone s.past))
    (he : .panicked ∈ s.past ∨ Ends cfg s.past) (ok : Bool)
    (hok : ok = false → .emitted .authError ∈ s.past ∨
      ∃ n w, .authEnded n (some w) ∈ s.past ∧ cfg.parseUuid w = none) : Alive cfg (endMsgs ok s) := by
  refine ⟨?_, fun _ => ⟨ok, List.mem_cons_self⟩, ?_⟩
  · have e : held (Client.endMsgs ok s).queue (Client.endMsgs ok s).authQueue (Client.endMsgs ok s).pend =
        s.queue.filterMap Cmd.owner ++ s.pend.map (fun p => (p.2, .response p.1)) := by
      simp [held, Client.endMsgs, State.push, State.pend]
    rw [e]
    have hs : (s.queue.filterMap Cmd.owner ++ s.pend.map (fun p => (p.2, Kind.response p.1))).Sublist
        (held s.queue s.authQueue s.pend) :=
      (List.Sublist.refl _).append (List.sublist_append_right _ _)
    have h' := h.sub hs
    refine h'.congr (fun _ k => k.cons _) ?_
    rintro ⟨w, k⟩ hx _
    left
    cases w with
    | auth n => rfl
    | call n =>
      have hno : AuthMsg.getUuid n ∉ s.authQueue := by
        intro hg
        have h1 := held_aq hg
        have h2 := h.once
        unfold held at h2
        simp only [List.map_append] at h2
        rw [List.nodup_append] at h2
        obtain ⟨_, h3, h4⟩ := h2
        rw [List.nodup_append] at h3
        have m1 : Who.call n ∈ (s.authQueue.filterMap AuthMsg.owner).map Prod.fst :=
          List.mem_map.2 ⟨_, h1, rfl⟩
        rcases List.mem_append.1 hx with hx | hx
        · exact h4 _ (List.mem_map.2 ⟨_, hx, rfl⟩) _ (List.mem_append_left _ m1) rfl
        · exact h3.2.2 _ m1 _ (List.mem_map.2 ⟨_, hx, rfl⟩) rfl
      have h3 : s.authQueue.contains (.getUuid n) = false := by simpa using hno
      simp only [waits, Client.endMsgs, State.push]
      rw [lookup_mapVal (f := fun n (c : Call P) => c.unheard (s.authQueue.contains (.getUuid n)))]
      cases e : s.calls.lookup n with
      | none => rfl
      | some c =>
        obtain ⟨job, body, ph⟩ := c
        simp only [Option.bind_some, Option.map_some, h3]
        cases ph <;> simp [Call.unheard]
  · rcases he with k | k
    · exact .inl (List.mem_cons_of_mem _ k)
    · refine .inr ⟨fun e => ?_, fun e => hok ?_, k⟩
      · cases e
      · cases e; rfl

theorem alive_call {cfg : Cfg P} {s : State P} (hi : Inv cfg s) (h : Alive cfg s) (job : Job) (body : P) :
    Alive cfg (call job body s) := by
  unfold call
  simp only
  split
  · have h1 : Alive cfg (({ s with next := s.next + 1 } : State P).push (.called s.next job body)) :=
      Alive.push (s := { s with next := s.next + 1 }) (h.same rfl rfl rfl rfl rfl id rfl) (by simp [Act.calm])
    exact h1.push (by simp [Act.calm])
  · refine ⟨?_, h.mute_cons _, h.ends_cons (by simp [Act.calm])⟩
    have hn : s.calls.lookup s.next = none := by
      cases e : s.calls.lookup s.next with
      | none => rfl
      | some c => exact absurd (hi.calls _ _ e).1 ((hi.fresh _ (Nat.le_refl _)).1 _ _)
    refine Cov.perm (l := (Who.call s.next, Kind.sequence) :: held s.queue s.authQueue s.pend) ?_
      (held_snoc _ _ _ (c := .sequence s.next) rfl)
    have hg : ∀ k, ¬ Gone s.past (.call s.next, k) := by
      rintro k ⟨m, q, e, hm⟩
      cases e
      obtain ⟨job, body, hc⟩ := lawful_ended hi.lawful hm
      exact (hi.fresh _ (Nat.le_refl _)).1 _ _ hc
    refine (h.cov.cons (a := .call s.next) (by simp [waits, hn]) hg ?_ ?_).mono (fun _ k => k.cons _)
    · simp [waits, State.command, State.push, lookup_snoc, hn, Phase.kind]
    · intro b hb
      cases b with
      | auth m => rfl
      | call m =>
        have : m ≠ s.next := fun e => hb (by rw [e])
        simp only [waits, State.command, State.push, lookup_snoc]
        cases s.calls.lookup m <;> simp [this]

/-- A call that does not wait returns. -/
theorem alive_endCall {cfg : Cfg P} {s : State P} (hi : Inv cfg s) (h : Alive cfg s) {n : Nat} (r : Result P)
    {c : Call P} (hl : s.calls.lookup n = some c) (hk : c.phase.kind = none) : Alive cfg (s.endCall n r) := by
  refine ⟨?_, h.mute_cons _, h.ends_cons (by simp [Act.calm])⟩
  refine h.cov.congr (fun _ k => k.cons _) ?_
  intro x hx _
  have := h.cov.free (a := .call n) (by simp [waits, hl, hk]) (not_gone hi hl) hx
  left
  show waits (s.dropCall n).calls s.auths x.1 = _
  rw [waits_dropCall]
  simp [this]

/-- A call that does not wait asks for something. -/
theorem alive_ask {cfg : Cfg P} {s : State P} (hi : Inv cfg s) (h : Alive cfg s) {n : Nat} {c d : Call P}
    (hl : s.calls.lookup n = some d) (hn : d.phase.kind = none) {k : Kind} (hk : c.phase.kind = some k)
    {x : Cmd P} (hx : x.owner = some (.call n, k)) : Alive cfg ((s.setCall n c).command x) := by
  have hn' : waits s.calls s.auths (.call n) = none := by simp [waits, hl, hn]
  refine ⟨?_, h.mute, h.ends⟩
  refine Cov.perm (l := (Who.call n, k) :: held s.queue s.authQueue s.pend) ?_ (held_snoc _ _ _ hx)
  refine h.cov.cons hn' (not_gone hi hl) ?_ ?_
  · show waits (s.setCall n c).calls s.auths _ = _
    rw [waits_setCall hl]; simp [hk]
  · intro b hb
    show waits (s.setCall n c).calls s.auths _ = _
    rw [waits_setCall hl]; simp [hb]

theorem alive_proceed {cfg : Cfg P} {s : State P} (hi : Inv cfg s) (h : Alive cfg s) (n : Nat) : Alive cfg (proceed cfg n s) := by
  unfold proceed
  split
  · exact h
  · rename_i c hl
    obtain ⟨job, body, ph⟩ := c
    simp only
    split
    · split
      · exact alive_endCall hi h _ hl rfl
      · exact alive_ask hi h hl rfl (k := .uuid) rfl rfl
    · split
      · split
        · exact alive_endCall hi h _ hl rfl
        · exact alive_ask hi h hl rfl (k := .response _) rfl rfl
      · exact alive_endCall hi h _ hl rfl
    · exact alive_endCall hi h _ hl rfl
    · exact alive_endCall hi h _ hl rfl
    · exact alive_endCall hi h _ hl rfl
    · exact alive_endCall hi h _ hl rfl
    · exact h

theorem alive_timeout {cfg : Cfg P} {s : State P} (h : Alive cfg s) (n : Nat) : Alive cfg (timeout n s) := by
  unfold timeout
  split
  · rename_i r body q rp hl
    refine ⟨?_, h.mute_cons _, h.ends_cons (by simp [Act.calm])⟩
    refine h.cov.congr (fun _ k => k.cons _) ?_
    rintro ⟨w, k⟩ hx hw
    show waits (s.dropCall n).calls s.auths w = _ ∨ _
    rw [waits_dropCall]
    by_cases e : w = .call n
    · subst e
      right
      simp only [waits, hl, Option.bind_some] at hw
      cases rp <;> simp [Phase.kind] at hw
      subst hw
      exact ⟨n, q, rfl, List.mem_cons_self⟩
    · simp [e]
  · exact h

/-! #### `client_api_task` -/

theorem pend_some {s : State P} {a : Api} (h : s.api = some a) : s.pend = a.pending := by
  simp [State.pend, h]

/-- Two who wait for the same number are the same. -/
theorem same_waiter {cfg : Cfg P} {s : State P} (hn : Numbers s) (hf : Few s.past)
    {w w' : Who} {q : UInt32} {o o' : Out P} (h : Cause cfg w q o s.past) (h' : Cause cfg w' q o' s.past) :
    w = w' := by
  have big : ∀ n, .numbered n q ∈ s.past → 10 ≤ q.toNat := by
    intro n hm
    obtain ⟨i, hi⟩ := List.mem_iff_getElem?.1 (mem_numbers hm)
    rw [hn.list i q hi, nth]
    omega
  cases w with
  | call n =>
    obtain ⟨_, _, _, _, _, h1, _⟩ := h
    cases w' with
    | call m =>
      obtain ⟨_, _, _, _, _, h2, _⟩ := h'
      rw [numbered_unique hn.list hf.1 h1 h2]
    | auth m =>
      have := big n h1
      rcases h'.2 with ⟨rfl, _⟩ | ⟨rfl, _⟩ <;> simp at this
  | auth n =>
    cases w' with
    | call m =>
      obtain ⟨_, _, _, _, _, h2, _⟩ := h'
      have := big m h2
      rcases h.2 with ⟨rfl, _⟩ | ⟨rfl, _⟩ <;> simp at this
    | auth m => rw [hf.2 n m h.1 h'.1]

theorem alive_request {cfg : Cfg P} {s : State P} (hi : Inv cfg s) (hn : Numbers s) (hf : Few s.past)
    (h : Alive cfg s) {a : Api} {who : Who} {q : UInt32} {o : Out P} {cs : List (Cmd P)}
    (ha : s.api = some a) (hq : s.queue = .request who q o :: cs) :
    Alive cfg (command true a (.request who q o) { s with queue := cs }) := by
  simp only [command]
  have hp : (a.pending.lookup q).isSome = false := by
    cases e : a.pending.lookup q with
    | none => rfl
    | some w =>
      have h1 : (q, w) ∈ s.pend := by rw [pend_some ha]; exact lookup_pending e
      obtain ⟨o', h2⟩ := (hi.pending _ _ h1).1
      obtain ⟨h3, h4⟩ := hi.requests who q o (by rw [hq]; exact List.mem_cons_self)
      have := same_waiter hn hf (lawful_sent hi.lawful h2) h3
      subst this
      exact absurd h2 (h4 _)
  simp only [hp, Bool.false_eq_true, if_false, if_true]
  refine ⟨?_, h.mute_cons _, h.ends_cons (by simp [Act.calm])⟩
  have hc := h.cov
  rw [hq, held_cons _ _ _ (x := (who, .response q)) rfl, pend_some ha] at hc
  refine (hc.mono (fun _ k => k.cons _)).perm ?_
  show List.Perm _ (held cs s.authQueue ((q, who) :: a.pending))
  unfold held
  simp only [List.map_cons]
  rw [← List.append_assoc, ← List.append_assoc]
  exact List.perm_middle.symm

theorem mem_pendHeld {pend : List (UInt32 × Who)} {w : Who} {q : UInt32} (h : (q, w) ∈ pend) :
    (w, Kind.response q) ∈ pend.map (fun p => (p.2, Kind.response p.1)) := List.mem_map.2 ⟨_, h, rfl⟩

theorem nodup_map_inj {α β : Type} {f : α → β} {l : List α} (h : (l.map f).Nodup) {a b : α} (ha : a ∈ l)
    (hb : b ∈ l) (e : f a = f b) : a = b := by
  induction l with
  | nil => simp at ha
  | cons x l ih =>
    simp only [List.map_cons, List.nodup_cons, List.mem_map] at h
    rcases List.mem_cons.1 ha with rfl | ha'
    · rcases List.mem_cons.1 hb with rfl | hb'
      · rfl
      · exact absurd ⟨b, hb', e.symm⟩ h.1
    · rcases List.mem_cons.1 hb with rfl | hb'
      · exact absurd ⟨a, ha', e⟩ h.1
      · exact ih h.2 ha' hb'

theorem accept_got {cfg : Cfg P} {s : State P} (hi : Inv cfg s) (hf : Fair s) {q : UInt32} {m : In P}
    (h : .accept q m ∈ s.queue) : .got q m ∈ s.past := by
  have h1 : (q, m) ∈ s.queue.filterMap Cmd.acceptOf := List.mem_filterMap.2 ⟨_, h, rfl⟩
  rw [hi.accepts] at h1
  match e : s.msgs, h1 with
  | some ⟨r, .accepting q' m' .waiting, u⟩, h1 =>
    simp only [asking, List.mem_singleton, Prod.mk.injEq] at h1
    obtain ⟨rfl, rfl⟩ := h1
    obtain ⟨a, b, h2, _⟩ := hf.place _ _ _ _ e rfl
    rw [h2]; simp

theorem alive_accept {cfg : Cfg P} {s : State P} (hi : Inv cfg s) (hfair : Fair s)
    (h : Alive cfg s) {a : Api} {q : UInt32} {m : In P} {cs : List (Cmd P)}
    (ha : s.api = some a) (hq : s.queue = .accept q m :: cs) :
    Alive cfg (command true a (.accept q m) { s with queue := cs }) := by
  have hc := h.cov
  rw [hq, held_skip _ _ _ rfl, pend_some ha] at hc
  have answer : ∀ (t : State P) (b : Bool), Alive cfg t → Alive cfg (answerAccept b t) := by
    intro t b ht
    refine ht.same rfl rfl rfl rfl rfl ?_ rfl
    intro k
    simpa [answerAccept] using k
  simp only [command]
  split
  · apply answer
    exact ⟨by simpa [State.pend, ha] using hc, h.mute, h.ends⟩
  · rename_i who hl
    have hmem := lookup_pending hl
    have hm : (who, Kind.response q) ∈ held cs s.authQueue a.pending :=
      List.mem_append_right _ (List.mem_append_right _ (mem_pendHeld hmem))
    -- what is left owes nothing more to this one
    have hsub : (held cs s.authQueue (a.pending.filter (fun p => p.1 ≠ q))).Sublist
        (held cs s.authQueue a.pending) :=
      (List.Sublist.refl _).append ((List.Sublist.refl _).append (List.filter_sublist.map _))
    have hne : ∀ x ∈ held cs s.authQueue (a.pending.filter (fun p => p.1 ≠ q)), x.1 ≠ who := by
      rintro ⟨w, k⟩ hx rfl
      have h3 := hc.once
      unfold held at h3 hx
      rw [← List.append_assoc, List.map_append, List.nodup_append] at h3
      rw [← List.append_assoc] at hx
      rcases List.mem_append.1 hx with hx | hx
      · exact h3.2.2 w (List.mem_map.2 ⟨_, hx, rfl⟩) w (List.mem_map.2 ⟨_, mem_pendHeld hmem, rfl⟩) rfl
      · obtain ⟨p, hp, e⟩ := List.mem_map.1 hx
        obtain ⟨hp, hpq⟩ := List.mem_filter.1 hp
        simp only [Prod.mk.injEq] at e
        have h4 := h3.2.1
        rw [List.map_map] at h4
        have := nodup_map_inj h4 hp hmem (by simp [e.1])
        subst this
        simp at hpq
    have hcov' := hc.sub hsub
    rcases hc.waits _ hm with hw | ⟨n, q', e, hg⟩
    · cases who with
      | call n =>
        have hw : ∃ job body q', s.calls.lookup n = some ⟨job, body, .response q' .waiting⟩ := by
          simp only [waits] at hw
          cases e : s.calls.lookup n with
          | none => rw [e] at hw; cases hw
          | some c =>
            rw [e] at hw
            obtain ⟨job, body, ph⟩ := c
            cases ph with
            | response q r =>
              cases r <;> simp [Phase.kind] at hw
              exact ⟨_, _, _, rfl⟩
            | uuid q r => cases r <;> simp [Phase.kind] at hw
            | sequence r => cases r <;> simp [Phase.kind] at hw
        obtain ⟨job, body, q', hl'⟩ := hw
        simp only [deliver, hl']
        apply answer
        refine ⟨?_, h.mute_cons _, h.ends_cons (by simp [Act.calm])⟩
        refine hcov'.congr (fun _ k => k.cons _) ?_
        intro x hx _
        left
        show waits (s.setCall n _).calls s.auths x.1 = _
        rw [waits_setCall hl']
        simp [hne x hx]
      | auth n =>
        simp only [waits] at hw
        cases e : s.auths.lookup n with
        | none => rw [e] at hw; cases hw
        | some p =>
          rw [e] at hw
          cases p with
          | start => cases hw
          | key r =>
            cases r <;> simp [AuthPhase.kind] at hw
            simp only [deliver, e]
            apply answer
            refine ⟨?_, h.mute_cons _, h.ends_cons (by simp [Act.calm])⟩
            refine hcov'.congr (fun _ k => k.cons _) ?_
            intro x hx _
            left
            show waits s.calls (s.auths.map _) x.1 = _
            rw [waits_setAuth e]
            simp [hne x hx]
          | hash u r =>
            cases r <;> simp [AuthPhase.kind] at hw
            simp only [deliver, e]
            apply answer
            refine ⟨?_, h.mute_cons _, h.ends_cons (by simp [Act.calm])⟩
            refine hcov'.congr (fun _ k => k.cons _) ?_
            intro x hx _
            left
            show waits s.calls (s.auths.map _) x.1 = _
            rw [waits_setAuth e]
            simp [hne x hx]
    · -- the request took too long
      simp only [Prod.mk.injEq, Kind.response.injEq] at e
      obtain ⟨rfl, rfl⟩ := e
      have hnone : s.calls.lookup n = none := by
        cases e : s.calls.lookup n with
        | none => rfl
        | some c => exact absurd hg ((hi.calls _ _ e).2.1 _)
      simp only [deliver, hnone]
      have hlate : Late s.past := by
        obtain ⟨o, ho⟩ := (hi.pending q (.call n) (by rw [pend_some ha]; exact hmem)).1
        obtain ⟨_, _, _, _, _, hnum, _⟩ := lawful_sent hi.lawful ho
        exact ⟨n, q, m, hnum, hg, accept_got hi hfair (by rw [hq]; exact List.mem_cons_self)⟩
      refine Alive.endApi (s := { s with queue := cs, api := some _ }) ?_ h.mute h.ends false (fun _ => .inr hlate)
      refine hc.sub ?_
      unfold held
      exact (List.sublist_append_left _ _).trans (List.sublist_append_right _ _)

theorem alive_uuid {cfg : Cfg P} {s : State P}
    (h : Alive cfg s) {a : Api} {n : Nat} {cs : List (Cmd P)} (hq : s.queue = .uuid n :: cs) :
    Alive cfg (command true a (.uuid n) { s with queue := cs }) := by
  have hc := h.cov
  rw [hq, held_cons _ _ _ (x := (.call n, .uuid)) rfl] at hc
  simp only [command]
  split
  · refine ⟨?_, h.mute, h.ends⟩
    refine hc.perm ?_
    show List.Perm _ (held cs (s.authQueue ++ [.getUuid n]) s.pend)
    unfold held
    simp only [List.filterMap_append, List.filterMap_cons, AuthMsg.owner, List.filterMap_nil]
    simpa only [List.append_assoc, List.cons_append, List.nil_append] using
      (List.perm_middle (a := (Who.call n, Kind.uuid))
        (l₁ := cs.filterMap Cmd.owner ++ s.authQueue.filterMap AuthMsg.owner)
        (l₂ := s.pend.map (fun p => (p.2, Kind.response p.1)))).symm
  · rename_i hm
    refine Alive.endApi (s := { s with queue := cs }) ?_ h.mute h.ends false (fun _ => .inl (h.mute hm))
    refine hc.sub ?_
    refine List.Sublist.cons _ ?_
    unfold held
    exact (List.sublist_append_left _ _).trans (List.sublist_append_right _ _)

theorem alive_sequence {cfg : Cfg P} {s : State P}
    (h : Alive cfg s) {a : Api} {n : Nat} {cs : List (Cmd P)}
    (ha : s.api = some a) (hq : s.queue = .sequence n :: cs) :
    Alive cfg (command true a (.sequence n) { s with queue := cs }) := by
  have hc := h.cov
  rw [hq, held_cons _ _ _ (x := (.call n, .sequence)) rfl, pend_some ha] at hc
  have hw := (hc.waits _ List.mem_cons_self).resolve_right (by rintro ⟨_, _, e, _⟩; cases e)
  have hw : ∃ job body, s.calls.lookup n = some ⟨job, body, .sequence .waiting⟩ := by
    simp only [waits] at hw
    cases e : s.calls.lookup n with
    | none => rw [e] at hw; cases hw
    | some c =>
      rw [e] at hw
      obtain ⟨job, body, ph⟩ := c
      cases ph with
      | response q r => cases r <;> simp [Phase.kind] at hw
      | uuid q r => cases r <;> simp [Phase.kind] at hw
      | sequence r =>
        cases r <;> simp [Phase.kind] at hw
        exact ⟨_, _, rfl⟩
  obtain ⟨job, body, hl⟩ := hw
  simp only [command, hl]
  refine ⟨?_, h.mute_cons _, h.ends_cons (by simp [Act.calm])⟩
  refine (hc.mono (fun _ k => k.cons _)).tail ?_
  intro b hb
  show waits (s.setCall n _).calls s.auths b = _
  rw [waits_setCall hl]
  simp [hb]

theorem alive_api {cfg : Cfg P} {s : State P} (hi : Inv cfg s) (hfair : Fair s) (hn : Numbers s) (hf : Few s.past)
    (h : Alive cfg s) : Alive cfg (apiStep true s) := by
  unfold apiStep
  split
  · rename_i a c cs ha hq
    cases c with
    | request who q o => exact alive_request hi hn hf h ha hq
    | accept q m => exact alive_accept hi hfair h ha hq
    | uuid n => exact alive_uuid h hq
    | sequence n => exact alive_sequence h ha hq
  · exact h

/-! #### `client_messages_task` and `auth` -/

theorem Alive.orPanic {cfg : Cfg P} {s : State P} {q : List (Cmd P)} {aq : List AuthMsg} {calls : List (Nat × Call P)}
    {auths : List (Nat × AuthPhase P)} (hq : s.queue = q) (ha : s.authQueue = aq) (hc : s.calls = calls)
    (hu : s.auths = auths) (h : Cov (held q aq s.pend) (waits calls auths) (Gone s.past))
    (h1 : ∃ ok, .messagesEnded ok ∈ s.past) (h2 : .panicked ∈ s.past) : Alive cfg s :=
  ⟨by rw [hq, ha, hc, hu]; exact h, fun _ => h1, .inl h2⟩

theorem alive_received {cfg : Cfg P} {s : State P} (h : Alive cfg s) (bytes : Bytes) :
    Alive cfg (received cfg bytes s) := by
  unfold received
  split
  · rename_i reader uuid hm
    have h0 : Alive cfg (s.push (.chunk bytes)) := h.push (by simp [Act.calm])
    simp only
    split
    · exact ⟨h0.cov, by simp, h0.ends⟩
    · refine Alive.orPanic rfl rfl rfl rfl ?_ ?_ ?_
      · simp [State.push, endMsgs, endApi, held, State.pend]
        exact Cov.nil _ _
      · exact ⟨false, by simp [State.push, endMsgs, endApi]⟩
      · simp [State.push]
    · exact Alive.push (s := { s.push (.chunk bytes) with msgs := some _ })
        ⟨h0.cov, by simp, h0.ends⟩ (by simp [Act.calm])
  · exact h

theorem alive_offer {cfg : Cfg P} {s : State P} (h : Alive cfg s) (q : UInt32) (m : In P) :
    Alive cfg (offer cfg q m s) := by
  obtain ⟨e, he, _⟩ := offer_past cfg q m s
  rw [he]
  exact h.push (by simp [Act.calm])

theorem alive_work {cfg : Cfg P} {s : State P} (h : Alive cfg s) : Alive cfg (work cfg s) := by
  unfold work
  split
  · rename_i reader uuid hm
    split
    · exact h.same rfl rfl rfl rfl rfl (by simp) rfl
    · rename_i x r e
      have h0 : Alive cfg (({ s with msgs := some ⟨r, .between, uuid⟩ } : State P).push
          (.got x.header.sequence x.msg)) :=
        Alive.push (s := { s with msgs := some _ }) (h.same rfl rfl rfl rfl rfl (by simp) rfl) (by simp [Act.calm])
      simp only
      split
      · refine ⟨?_, by simp [State.push], h0.ends_cons (by simp [Act.calm])⟩
        refine h0.cov.congr (fun _ k => k.cons _) ?_
        rintro ⟨w, k⟩ hx h1
        left
        cases w with
        | call m => rfl
        | auth m =>
          simp only [waits, State.push] at h1 ⊢
          rw [lookup_snoc]
          cases e : s.auths.lookup m with
          | none => rw [e] at h1; cases h1
          | some p => simp
      · split
        · exact alive_offer (h0.push (by simp [Act.calm])) _ _
        · refine ⟨?_, by simp [State.command, State.push], h0.ends⟩
          show Cov (held (s.queue ++ [_]) s.authQueue s.pend) _ _
          rw [held_snocSkip _ _ _ rfl]
          exact h.cov.mono (fun _ k => k.cons _)
  · rename_i reader q m r uuid hm
    have h0 : Alive cfg { s with msgs := some ⟨reader, .between, uuid⟩ } :=
      h.same rfl rfl rfl rfl rfl (by simp) rfl
    simp only
    split
    · exact h
    · exact h0
    · exact alive_offer h0 _ _
    · exact alive_offer (h0.push (by simp [Act.calm])) _ _
  · exact h

theorem alive_authMessage {cfg : Cfg P} {s : State P} (hi : Inv cfg s) (h : Alive cfg s) :
    Alive cfg (authMessage cfg s) := by
  unfold authMessage
  split
  · rename_i reader uuid x xs hm hq
    have hc := h.cov
    simp only
    split
    · rename_i u
      have hc' : Cov (held s.queue xs s.pend) (waits s.calls s.auths) (Gone s.past) := by
        rw [hq] at hc; exact hc
      split
      · exact Alive.push (s := { s with authQueue := xs, msgs := some _ }) ⟨hc', by simp, h.ends⟩
          (by simp [Act.calm])
      · rename_i hu
        obtain ⟨n, hn⟩ := hi.assigned u (by rw [hq]; exact List.mem_cons_self)
        exact Alive.endMsgs (s := { s with authQueue := xs }) hc' h.ends false
          (fun _ => .inr ⟨n, u, hn, hu⟩)
    · have hc' : Cov (held s.queue xs s.pend) (waits s.calls s.auths) (Gone s.past) := by
        rw [hq] at hc; exact hc
      exact Alive.endMsgs (s := emit .authError { s with authQueue := xs })
        (hc'.mono (fun _ k => k.cons _)) (h.ends_cons (by simp [Act.calm]))
        false (fun _ => .inl List.mem_cons_self)
    · rename_i n
      have hc' : Cov ((Who.call n, Kind.uuid) :: held s.queue xs s.pend) (waits s.calls s.auths)
          (Gone s.past) := by
        refine hc.perm ?_
        rw [hq]
        simp only [held, List.filterMap_cons, AuthMsg.owner, List.cons_append]
        exact List.perm_middle
      have hw := (hc'.waits _ List.mem_cons_self).resolve_right (by rintro ⟨_, _, e, _⟩; cases e)
      have hw : ∃ job body q, s.calls.lookup n = some ⟨job, body, .uuid q .waiting⟩ := by
        simp only [waits] at hw
        cases e : s.calls.lookup n with
        | none => rw [e] at hw; cases hw
        | some c =>
          rw [e] at hw
          obtain ⟨job, body, ph⟩ := c
          cases ph with
          | response q r => cases r <;> simp [Phase.kind] at hw
          | uuid q r =>
            cases r <;> simp [Phase.kind] at hw
            exact ⟨_, _, _, rfl⟩
          | sequence r => cases r <;> simp [Phase.kind] at hw
      obtain ⟨job, body, q, hl⟩ := hw
      simp only [hl]
      refine ⟨?_, by simp, h.ends⟩
      refine hc'.tail ?_
      intro b hb
      show waits (s.setCall n _).calls s.auths b = _
      rw [waits_setCall hl]
      simp [hb]
  · exact h

theorem alive_endAuth {cfg : Cfg P} {s : State P} (h : Alive cfg s) {n : Nat} (r : Option (List Char))
    (hn : waits s.calls s.auths (.auth n) = none) : Alive cfg (endAuth n r s) := by
  have hc : Cov (held s.queue s.authQueue s.pend) (waits s.calls (s.auths.filter (fun p => p.1 ≠ n)))
      (Gone (.authEnded n r :: s.past)) := by
    refine h.cov.congr (fun _ k => k.cons _) ?_
    intro x hx _
    left
    rw [waits_dropAuth]
    simp [h.cov.free hn (not_gone_auth _ _) hx]
  unfold endAuth
  simp only
  split
  · rename_i m hm
    refine ⟨?_, ?_, h.ends_cons (by simp [Act.calm])⟩
    · show Cov (held s.queue (s.authQueue ++ [_]) s.pend) _ _
      have e : held s.queue (s.authQueue ++ [.setUuid r]) s.pend = held s.queue s.authQueue s.pend := by
        simp [held, AuthMsg.owner]
      rw [e]
      exact hc
    · exact fun k => h.mute_cons _ k
  · exact ⟨hc, fun k => h.mute_cons _ k, h.ends_cons (by simp [Act.calm])⟩

theorem alive_askAuth {cfg : Cfg P} {s : State P} (h : Alive cfg s) {n : Nat} {p p' : AuthPhase P}
    (hl : s.auths.lookup n = some p) (hn : p.kind = none) {q : UInt32} (hk : p'.kind = some (.response q))
    (o : Out P) :
    Alive cfg (({ s with auths := s.auths.map (fun x => if x.1 = n then (n, p') else x) } : State P).command
      (.request (.auth n) q o)) := by
  have hn' : waits s.calls s.auths (.auth n) = none := by simp [waits, hl, hn]
  refine ⟨?_, h.mute, h.ends⟩
  refine Cov.perm (l := (Who.auth n, .response q) :: held s.queue s.authQueue s.pend) ?_
    (held_snoc _ _ _ (c := .request (.auth n) q o) rfl)
  refine h.cov.cons hn' (not_gone_auth _ _) ?_ ?_
  · show waits s.calls (s.auths.map _) _ = _
    rw [waits_setAuth hl]; simp [hk]
  · intro b hb
    show waits s.calls (s.auths.map _) _ = _
    rw [waits_setAuth hl]; simp [hb]

theorem alive_auth {cfg : Cfg P} {s : State P} (h : Alive cfg s) (n : Nat) : Alive cfg (auth cfg n s) := by
  have hw : ∀ p, s.auths.lookup n = some p → waits s.calls s.auths (.auth n) = p.kind := by
    intro p hp; simp [waits, hp]
  unfold auth
  simp only
  split
  · rename_i hl
    split
    · exact alive_askAuth h hl rfl (by rfl) _
    · exact alive_endAuth h _ (hw _ hl)
  · rename_i u hl
    split
    · exact alive_askAuth h hl rfl (by rfl) _
    · exact alive_endAuth h _ (hw _ hl)
  · rename_i hl; exact alive_endAuth h _ (hw _ hl)
  · exact h
  · exact h
  · rename_i p h1 h2 h3 h4 h5 hl
    refine alive_endAuth h _ ?_
    rw [hw _ hl]
    cases p with
    | start => rfl
    | key r => cases r <;> first | rfl | exact absurd rfl h4
    | hash u r => cases r <;> first | rfl | exact absurd rfl (h5 u)
  · exact h

theorem alive_step {cfg : Cfg P} {s : State P} (hi : Inv cfg s) (hfair : Fair s) (hn : Numbers s) (hf : Few s.past)
    (h : Alive cfg s) (i : Input P) (hp : i.Patient) : Alive cfg (step cfg s i) := by
  cases i with
  | call job body => exact alive_call hi h job body
  | proceed n => exact alive_proceed hi h n
  | timeout n => exact alive_timeout h n
  | abandon n => exact hp.elim
  | api sends => cases hp; exact alive_api hi hfair hn hf h
  | received bytes => exact alive_received h bytes
  | work => exact alive_work h
  | authMessage => exact alive_authMessage hi h
  | auth n => exact alive_auth h n
  | disconnected =>
    simp only [step]
    split
    · exact h.same rfl rfl rfl rfl rfl (by simp) rfl
    · exact h
  | failure =>
    simp only [step]
    split
    · exact h.push (by simp [Act.calm])
    · exact h
  | eventsEnd =>
    simp only [step]
    split
    · exact Alive.endMsgs h.cov h.ends true (by simp)
    · exact h
  | cancel => exact h.same rfl rfl rfl rfl rfl id rfl
  | shutdown =>
    simp only [step]
    split
    · exact h
    · exact h.same rfl rfl rfl rfl rfl id rfl
  | closed ok =>
    simp only [step]
    split
    · cases ok
      · have h1 := (h.push (a := .emitted .transportError) (by simp [Act.calm])).push
          (a := .emitted .disconnected) (by simp [Act.calm])
        exact ⟨h1.cov, h1.mute, h1.ends⟩
      · have h1 := h.push (a := .emitted .disconnected) (by simp [Act.calm])
        exact ⟨h1.cov, h1.mute, h1.ends⟩
    · exact h
  | apiStops =>
    simp only [step]
    split
    · refine Alive.endApi (h.cov.sub ?_) h.mute h.ends true (by simp)
      exact (List.sublist_append_left _ _).trans (List.sublist_append_right _ _)
    · exact h
  | messagesStop =>
    simp only [step]
    split
    · exact Alive.endMsgs h.cov h.ends true (by simp)
    · exact h
  | finish =>
    simp only [step]
    split
    · have h1 := h.push (a := .emitted (.shutdown (!s.failed))) (by simp [Act.calm])
      exact ⟨h1.cov, h1.mute, h1.ends⟩
    · exact h

/-! ### Runs -/

theorem api_suffix (b : Bool) (s : State P) : ∃ xs, (apiStep b s).past = xs ++ s.past := by
  rcases api_step b s with f | ⟨a, n, k1, k2, k3, _⟩ | ⟨t, c, a, q, m, cs, f, _, k, _⟩
  · obtain ⟨xs, h, _⟩ := f.past; exact ⟨xs, h⟩
  · exact ⟨[_], k3⟩
  · obtain ⟨xs, h, _⟩ := f.past; exact ⟨xs, by rw [k]; exact h⟩

theorem offer_suffix (cfg : Cfg P) (q : UInt32) (m : In P) (s : State P) :
    ∃ e, (offer cfg q m s).past = e :: s.past := by
  obtain ⟨e, he, _⟩ := offer_past cfg q m s
  exact ⟨.emitted e, by rw [he]; rfl⟩

theorem step_suffix (cfg : Cfg P) (s : State P) (i : Input P) : ∃ xs, (step cfg s i).past = xs ++ s.past := by
  by_cases h1 : ∃ b, i = .api b
  · obtain ⟨b, rfl⟩ := h1; exact api_suffix b s
  · by_cases h2 : ∃ b, i = .received b
    · obtain ⟨b, rfl⟩ := h2
      simp only [step, received]
      split
      · split
        · exact ⟨[.chunk b], rfl⟩
        · exact ⟨[.panicked, .messagesEnded false, .apiEnded false, .chunk b], rfl⟩
        · exact ⟨[.emitted .readError, .chunk b], rfl⟩
      · exact ⟨[], rfl⟩
    · by_cases h3 : i = .work
      · subst h3
        simp only [step, work]
        split
        · split
          · exact ⟨[], rfl⟩
          · split
            · exact ⟨[_, _], rfl⟩
            · split
              · obtain ⟨e, he⟩ := offer_suffix cfg _ _ _
                exact ⟨[e, _, _], he⟩
              · exact ⟨[_], rfl⟩
        · split
          · exact ⟨[], rfl⟩
          · exact ⟨[], rfl⟩
          · obtain ⟨e, he⟩ := offer_suffix cfg _ _ _
            exact ⟨[e], he⟩
          · obtain ⟨e, he⟩ := offer_suffix cfg _ _ _
            exact ⟨[e, _], he⟩
        · exact ⟨[], rfl⟩
      · obtain ⟨xs, h, _⟩ := (frame_step cfg s i (fun b e => h1 ⟨b, e⟩) (fun b e => h2 ⟨b, e⟩) h3).past
        exact ⟨xs, h⟩

theorem run_suffix (cfg : Cfg P) (is : List (Input P)) (s : State P) : ∃ xs, (run cfg is s).past = xs ++ s.past := by
  induction is generalizing s with
  | nil => exact ⟨[], rfl⟩
  | cons i is ih =>
    obtain ⟨xs, h⟩ := ih (step cfg s i)
    obtain ⟨ys, k⟩ := step_suffix cfg s i
    exact ⟨xs ++ ys, by show (run cfg is (step cfg s i)).past = _; rw [h, k, List.append_assoc]⟩

theorem numbers_length (xs h : List (Act P)) : (numbers h).length ≤ (numbers (xs ++ h)).length := by
  induction xs with
  | nil => exact Nat.le_refl _
  | cons x xs ih =>
    refine Nat.le_trans ih ?_
    cases x <;> simp [numbers]

theorem Few.suffix {xs h : List (Act P)} (k : Few (xs ++ h)) : Few h :=
  ⟨Nat.le_trans (numbers_length xs h) k.1,
    fun n m h1 h2 => k.2 n m (List.mem_append_right _ h1) (List.mem_append_right _ h2)⟩

theorem alive_run (cfg : Cfg P) (is : List (Input P)) (hp : ∀ i ∈ is, i.Patient)
    (hf : Few (run cfg is .new).past) : Alive cfg (run cfg is .new) := by
  have : ∀ s : State P, Inv cfg s → Asks s → Fair s → Numbers s → Alive cfg s → Few (run cfg is s).past →
      Alive cfg (run cfg is s) := by
    clear hf
    induction is with
    | nil => exact fun s _ _ _ _ h _ => h
    | cons i is ih =>
      intro s h1 h2 h5 h3 h4 hf
      obtain ⟨xs, hx⟩ := run_suffix cfg (i :: is) s
      rw [hx] at hf
      refine ih (fun j hj => hp j (List.mem_cons_of_mem _ hj)) _ (inv_step h1 h2 i) (asks_step h2 i)
        (fair_step h1 h5 i) (numbers_step h3 i) (alive_step h1 h5 h3 hf.suffix h4 i (hp i List.mem_cons_self)) ?_
      rw [← hx] at hf
      exact hf
  refine this _ (inv_new cfg) (asks_idle rfl) (fair_run cfg []) (numbers_run cfg []) ⟨?_, by simp [State.new], .inr trivial⟩ hf
  exact Cov.nil _ _

end Verif.Client
