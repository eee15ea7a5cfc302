import Verif.Proofs.RustClientRun
import Verif.Proofs.RustReader
set_option autoImplicit false
/-! Numbers, the reader, and messages nobody waits for in a Rust client. -/
namespace Verif.Client

open Verif

variable {P : Type}

/-- An act that is neither a number nor a step of the reader or with a message. -/
def Act.minor : Act P → Prop
  | .numbered .. => False
  | .chunk _ => False
  | .got .. => False
  | .emitted (.broadcast ..) => False
  | .emitted (.unknown _) => False
  | .emitted .acceptError => False
  | .emitted .readError => False
  | _ => True

/-- What most steps do. -/
structure Framed (s s' : State P) : Prop where
  past : ∃ xs, s'.past = xs ++ s.past ∧ ∀ x ∈ xs, Act.minor x
  msgs : s'.msgs = none ∨ ∃ m m', s.msgs = some m ∧ s'.msgs = some m' ∧ m'.reader = m.reader ∧
    (m'.place = m.place ∨ m'.place = m.place.orphan)
  api : s'.api = none ∨ ∃ a a', s.api = some a ∧ s'.api = some a' ∧ a'.sequence = a.sequence

theorem frame_msgs {s s' : State P} (h : s'.msgs = s.msgs) :
    s'.msgs = none ∨ ∃ m m', s.msgs = some m ∧ s'.msgs = some m' ∧ m'.reader = m.reader ∧
      (m'.place = m.place ∨ m'.place = m.place.orphan) := by
  rw [h]
  cases e : s.msgs with
  | none => exact .inl rfl
  | some m => exact .inr ⟨m, m, rfl, rfl, rfl, .inl rfl⟩

theorem frame_api {s s' : State P} (h : s'.api = s.api) :
    s'.api = none ∨ ∃ a a', s.api = some a ∧ s'.api = some a' ∧ a'.sequence = a.sequence := by
  rw [h]
  cases e : s.api with
  | none => exact .inl rfl
  | some a => exact .inr ⟨a, a, rfl, rfl, rfl⟩

theorem Framed.of {s s' : State P} (xs : List (Act P)) (h : s'.past = xs ++ s.past)
    (h1 : ∀ x ∈ xs, Act.minor x) (h2 : s'.msgs = s.msgs) (h3 : s'.api = s.api) : Framed s s' :=
  ⟨⟨xs, h, h1⟩, frame_msgs h2, frame_api h3⟩

theorem Framed.refl (s : State P) : Framed s s := .of [] rfl (by simp) rfl rfl

theorem Place.orphan_orphan (p : Place P) : p.orphan.orphan = p.orphan := by
  cases p <;> simp [Place.orphan]
  rename_i r
  cases r <;> rfl

theorem Framed.trans {s t u : State P} (h : Framed s t) (k : Framed t u) : Framed s u := by
  refine ⟨?_, ?_, ?_⟩
  · obtain ⟨xs, h1, h2⟩ := h.past
    obtain ⟨ys, k1, k2⟩ := k.past
    refine ⟨ys ++ xs, by rw [k1, h1, List.append_assoc], fun x hx => ?_⟩
    rcases List.mem_append.1 hx with hx | hx
    · exact k2 x hx
    · exact h2 x hx
  · rcases k.msgs with k1 | ⟨m, m', k1, k2, k3, k4⟩
    · exact .inl k1
    · rcases h.msgs with h1 | ⟨n, n', h1, h2, h3, h4⟩
      · rw [k1] at h1; cases h1
      · rw [k1] at h2; cases h2
        refine .inr ⟨n, m', h1, k2, k3.trans h3, ?_⟩
        rcases h4 with h4 | h4 <;> rcases k4 with k4 | k4 <;> rw [k4, h4]
        · exact .inl rfl
        · exact .inr rfl
        · exact .inr rfl
        · exact .inr (Place.orphan_orphan _)
  · rcases k.api with k1 | ⟨m, m', k1, k2, k3⟩
    · exact .inl k1
    · rcases h.api with h1 | ⟨n, n', h1, h2, h3⟩
      · rw [k1] at h1; cases h1
      · rw [k1] at h2; cases h2
        exact .inr ⟨n, m', h1, k2, k3.trans h3⟩

theorem frame_endApi (ok : Bool) (s : State P) : Framed s (endApi ok s) := by
  refine ⟨⟨[.apiEnded ok], rfl, by simp [Act.minor]⟩, ?_, .inl rfl⟩
  cases e : s.msgs with
  | none => exact .inl (by simp [endApi, State.push, e])
  | some m =>
    exact .inr ⟨m, { m with place := m.place.orphan }, rfl, by simp [endApi, State.push, e], rfl, .inr rfl⟩

theorem frame_endMsgs (ok : Bool) (s : State P) : Framed s (endMsgs ok s) :=
  ⟨⟨[.messagesEnded ok], rfl, by simp [Act.minor]⟩, .inl rfl, frame_api rfl⟩

theorem frame_emit (e : Event P) (h : Act.minor (.emitted e)) (s : State P) : Framed s (emit e s) :=
  .of [.emitted e] rfl (by simpa using h) rfl rfl

theorem frame_endCall (s : State P) (n : Nat) (r : Result P) : Framed s (s.endCall n r) :=
  .of [.ended n r] rfl (by simp [Act.minor]) rfl rfl

theorem frame_endAuth (n : Nat) (r : Option (List Char)) (s : State P) : Framed s (endAuth n r s) := by
  unfold endAuth
  simp only
  split
  · exact .of [.authEnded n r] rfl (by simp [Act.minor]) rfl rfl
  · exact .of [.authEnded n r] rfl (by simp [Act.minor]) rfl rfl

theorem frame_deliver {who : Who} {q : UInt32} {m : In P} {s u : State P} (h : deliver who q m s = some u) :
    Framed s u ∧ u.past = .delivered who q m :: s.past ∧ u.msgs = s.msgs := by
  unfold deliver at h
  split at h <;> split at h <;> cases h <;>
    exact ⟨.of [.delivered _ q m] rfl (by simp [Act.minor]) rfl rfl, rfl, rfl⟩

/-- Steps of the other parts. -/
theorem frame_step (cfg : Cfg P) (s : State P) (i : Input P) (h1 : ∀ b, i ≠ .api b)
    (h2 : ∀ b, i ≠ .received b) (h3 : i ≠ .work) : Framed s (step cfg s i) := by
  cases i with
  | call job body =>
    simp only [step, call]
    split
    · exact .of [.ended _ .failed, .called _ job body] rfl (by simp [Act.minor]) rfl rfl
    · exact .of [.called _ job body] rfl (by simp [Act.minor]) rfl rfl
  | proceed n =>
    simp only [step, proceed]
    split
    · exact .refl s
    · split <;> (try split) <;> (try split) <;>
        first
        | exact .refl s
        | exact frame_endCall _ _ _
        | exact .of [] rfl (by simp) rfl rfl
  | timeout n =>
    simp only [step, timeout]
    split
    · exact frame_endCall _ _ _
    · exact .refl s
  | abandon n => exact .of [] rfl (by simp) rfl rfl
  | api b => exact absurd rfl (h1 b)
  | received b => exact absurd rfl (h2 b)
  | work => exact absurd rfl h3
  | authMessage =>
    simp only [step, authMessage]
    split
    · rename_i reader uuid x xs hm hq
      have h0 : ∀ v, Framed s { s with authQueue := xs, msgs := some ⟨reader, .idle, v⟩ } := fun v =>
        ⟨⟨[], rfl, by simp⟩, .inr ⟨_, _, hm, rfl, rfl, .inl rfl⟩, frame_api rfl⟩
      have h0' : Framed s { s with authQueue := xs } := .of [] rfl (by simp) rfl rfl
      split
      · split
        · exact (h0 _).trans (.of [.emitted .connected] rfl (by simp [Act.minor]) rfl rfl)
        · exact h0'.trans (frame_endMsgs _ _)
      · exact (h0'.trans (frame_emit .authError (by simp [Act.minor]) _)).trans (frame_endMsgs _ _)
      · split
        · exact (h0 _).trans (.of [] rfl (by simp) rfl rfl)
        · exact h0'.trans (frame_endMsgs _ _)
    · exact .refl s
  | auth n =>
    simp only [step, auth]
    split <;> (try split) <;>
      first
      | exact frame_endAuth _ _ _
      | exact .refl s
      | exact .of [] rfl (by simp) rfl rfl
  | disconnected =>
    simp only [step]
    split
    · rename_i reader uuid hm
      exact ⟨⟨[], rfl, by simp⟩, .inr ⟨_, _, hm, rfl, rfl, .inl rfl⟩, frame_api rfl⟩
    · exact .refl s
  | failure =>
    simp only [step]
    split
    · exact .of [.emitted .transportError] rfl (by simp [Act.minor]) rfl rfl
    · exact .refl s
  | eventsEnd =>
    simp only [step]
    split
    · exact frame_endMsgs _ _
    · exact .refl s
  | cancel => exact .of [] rfl (by simp) rfl rfl
  | shutdown =>
    simp only [step]
    split
    · exact .refl s
    · exact .of [] rfl (by simp) rfl rfl
  | closed ok =>
    simp only [step]
    split
    · cases ok
      · exact .of [.emitted .disconnected, .emitted .transportError] rfl (by simp [Act.minor]) rfl rfl
      · exact .of [.emitted .disconnected] rfl (by simp [Act.minor]) rfl rfl
    · exact .refl s
  | apiStops =>
    simp only [step]
    split
    · exact frame_endApi _ _
    · exact .refl s
  | messagesStop =>
    simp only [step]
    split
    · exact frame_endMsgs _ _
    · exact .refl s
  | finish =>
    simp only [step]
    split
    · exact .of [.emitted (.shutdown _)] rfl (by simp [Act.minor]) rfl rfl
    · exact .refl s

/-- What `client_api_task` does with a command. -/
theorem api_step (sends : Bool) (s : State P) :
    Framed s (apiStep sends s) ∨
    (∃ a n, s.api = some a ∧ (apiStep sends s).api = some { a with sequence := nextSequence a.sequence } ∧
      (apiStep sends s).past = .numbered n (nextSequence a.sequence) :: s.past ∧
      (apiStep sends s).msgs = s.msgs) ∨
    (∃ t b a q m cs, Framed s t ∧ t.msgs = s.msgs ∧ apiStep sends s = answerAccept b t ∧ s.api = some a ∧
      s.queue = .accept q m :: cs ∧
      (b = false → a.pending.lookup q = none ∧ t.past = s.past)) := by
  unfold apiStep
  split
  · rename_i a c cs ha hq
    cases c with
    | request who q o =>
      left
      simp only [command]
      split
      · exact (Framed.of (s' := { s with queue := cs }) [] rfl (by simp) rfl rfl).trans (frame_endApi _ _)
      · have h0 : Framed s { s with queue := cs, api := some { a with pending := (q, who) :: a.pending } } :=
          ⟨⟨[], rfl, by simp⟩, frame_msgs rfl, .inr ⟨_, _, ha, rfl, rfl⟩⟩
        split
        · exact h0.trans (.of [.sent who q o] rfl (by simp [Act.minor]) rfl rfl)
        · exact h0.trans (frame_endApi _ _)
    | accept q m =>
      simp only [command]
      split
      · rename_i hl
        exact .inr (.inr ⟨{ s with queue := cs }, false, a, q, m, cs, .of [] rfl (by simp) rfl rfl, rfl,
          rfl, ha, hq, fun _ => ⟨hl, rfl⟩⟩)
      · rename_i who hl
        have h0 : Framed s { s with queue := cs, api := some { a with pending := a.pending.filter (fun p => p.1 ≠ q) } } :=
          ⟨⟨[], rfl, by simp⟩, frame_msgs rfl, .inr ⟨_, _, ha, rfl, rfl⟩⟩
        split
        · rename_i t ht
          obtain ⟨h1, h2, h3⟩ := frame_deliver ht
          exact .inr (.inr ⟨t, true, a, q, m, cs, h0.trans h1, h3, rfl, ha, hq, by simp⟩)
        · exact .inl (h0.trans (frame_endApi _ _))
    | uuid n =>
      left
      simp only [command]
      split
      · exact .of [] rfl (by simp) rfl rfl
      · exact (Framed.of (s' := { s with queue := cs }) [] rfl (by simp) rfl rfl).trans (frame_endApi _ _)
    | sequence n =>
      simp only [command]
      split
      · exact .inr (.inl ⟨a, n, ha, rfl, rfl, rfl⟩)
      · exact .inl ⟨(frame_endApi _ _).past, (frame_endApi _ _).msgs, .inl rfl⟩
  · exact .inl (.refl s)

/-! ### Numbers -/

theorem numbers_minor {xs h : List (Act P)} (hx : ∀ x ∈ xs, Act.minor x) : numbers (xs ++ h) = numbers h := by
  induction xs with
  | nil => rfl
  | cons x xs ih =>
    have h1 := hx x (by simp)
    have h2 := ih (fun y hy => hx y (List.mem_cons_of_mem _ hy))
    cases x <;> first | exact h2 | exact absurd h1 (by simp [Act.minor])

/-- The number with this index. -/
def nth (i : Nat) : Nat := 10 + i % 4294967284

theorem nextSequence_nth {q : UInt32} {i : Nat} (h : q.toNat = nth i) : (nextSequence q).toNat = nth (i + 1) := by
  have h1 : q.toNat < 4294967294 := by rw [h, nth]; omega
  have h2 : (q + 1).toNat = q.toNat + 1 := by
    rw [UInt32.toNat_add]
    simp
    omega
  have h3 : (q + 1 ≥ (4294967295 - 1 : UInt32)) ↔ 4294967294 ≤ q.toNat + 1 := by
    rw [ge_iff_le, UInt32.le_iff_toNat_le, h2]
    rfl
  unfold nextSequence
  simp only [h3]
  split
  · have : q.toNat = 4294967293 := by omega
    rw [nth] at h ⊢
    show 10 = _
    omega
  · rw [h2]
    rw [nth] at h ⊢
    omega

structure Numbers (s : State P) : Prop where
  list : ∀ i q, (numbers s.past)[i]? = some q → q.toNat = nth (i + 1)
  api : ∀ a, s.api = some a → a.sequence.toNat = nth (numbers s.past).length

theorem Numbers.frame {s s' : State P} (h : Numbers s) (f : Framed s s') : Numbers s' := by
  obtain ⟨xs, h1, h2⟩ := f.past
  have h3 : numbers s'.past = numbers s.past := by rw [h1, numbers_minor h2]
  refine ⟨by rw [h3]; exact h.list, fun a ha => ?_⟩
  rw [h3]
  rcases f.api with k | ⟨b, b', k1, k2, k3⟩
  · rw [k] at ha; cases ha
  · rw [ha] at k2; cases k2; rw [k3]; exact h.api _ k1

theorem Numbers.same {s s' : State P} (h : Numbers s) (h1 : numbers s'.past = numbers s.past)
    (h2 : s'.api = s.api) : Numbers s' :=
  ⟨by rw [h1]; exact h.list, by rw [h1, h2]; exact h.api⟩

theorem answerAccept_past (b : Bool) (s : State P) : (answerAccept b s).past = s.past := rfl

theorem numbers_received {cfg : Cfg P} {s : State P} (h : Numbers s) (bytes : Bytes) :
    Numbers (received cfg bytes s) := by
  unfold received
  split
  · simp only
    split
    · exact h.same rfl rfl
    · have h1 : Numbers (s.push (.chunk bytes)) := h.same rfl rfl
      have h2 := (h1.frame (frame_endApi false _)).frame (frame_endMsgs false _)
      exact h2.same rfl rfl
    · exact h.same rfl rfl
  · exact h

theorem offer_numbers (cfg : Cfg P) (q : UInt32) (m : In P) (s : State P) :
    numbers (offer cfg q m s).past = numbers s.past ∧ (offer cfg q m s).api = s.api := by
  obtain ⟨e, he, _⟩ := offer_past cfg q m s
  rw [he]
  exact ⟨rfl, rfl⟩

theorem numbers_work {cfg : Cfg P} {s : State P} (h : Numbers s) : Numbers (work cfg s) := by
  unfold work
  split
  · split
    · exact h.same rfl rfl
    · simp only
      split
      · exact h.same rfl rfl
      · split
        · refine h.same ?_ ?_
          · rw [(offer_numbers ..).1]; rfl
          · rw [(offer_numbers ..).2]; rfl
        · exact h.same rfl rfl
  · simp only
    split
    · exact h
    · exact h.same rfl rfl
    · exact h.same (offer_numbers ..).1 (offer_numbers ..).2
    · exact h.same (offer_numbers ..).1 (offer_numbers ..).2
  · exact h

theorem numbers_step {cfg : Cfg P} {s : State P} (h : Numbers s) (i : Input P) : Numbers (step cfg s i) := by
  by_cases h1 : ∃ b, i = .api b
  · obtain ⟨b, rfl⟩ := h1
    simp only [step]
    rcases api_step b s with f | ⟨a, n, k1, k2, k3, _⟩ | ⟨t, c, a, q, m, cs, f, _, k, _⟩
    · exact h.frame f
    · have h0 := nextSequence_nth (h.api a k1)
      refine ⟨fun i q hi => ?_, fun a' ha' => ?_⟩
      · rw [k3, numbers, List.getElem?_append] at hi
        split at hi
        · exact h.list i q hi
        · rename_i hlt
          have : i - (numbers s.past).length = 0 := by
            cases e : i - (numbers s.past).length with
            | zero => rfl
            | succ j => rw [e] at hi; simp at hi
          rw [this] at hi
          simp at hi
          subst hi
          have : i = (numbers s.past).length := by omega
          rw [this]; exact h0
      · rw [k2] at ha'
        cases ha'
        rw [k3, numbers]
        simpa using h0
    · rw [k]
      exact (h.frame f).same rfl rfl
  · by_cases h2 : ∃ b, i = .received b
    · obtain ⟨b, rfl⟩ := h2; exact numbers_received h b
    · by_cases h3 : i = .work
      · subst h3; exact numbers_work h
      · exact h.frame (frame_step cfg s i (fun b e => h1 ⟨b, e⟩) (fun b e => h2 ⟨b, e⟩) h3)

theorem numbers_run (cfg : Cfg P) (is : List (Input P)) : Numbers (run cfg is .new) := by
  have : ∀ s : State P, Numbers s → Numbers (run cfg is s) := by
    induction is with
    | nil => exact fun s h => h
    | cons i is ih => exact fun s h => ih _ (numbers_step h i)
  exact this _ ⟨by simp [State.new, numbers], by simp [State.new, numbers, nth]⟩

/-! ### The reader -/

section
open Verif.Spec Verif.Rust
variable {T : Type}

theorem observe_append (d : Decoder T) (a b : List ReadOp) : ∀ r : Reader T,
    ChunkRes.panic ∉ (observe d a r).results →
    (observe d (a ++ b) r).results = (observe d a r).results ++ (observe d b (observe d a r).reader).results ∧
    (observe d (a ++ b) r).got = (observe d a r).got ++ (observe d b (observe d a r).reader).got ∧
    (observe d (a ++ b) r).reader = (observe d b (observe d a r).reader).reader := by
  induction a with
  | nil => intro r _; simp [observe]
  | cons x a ih =>
    intro r hp
    cases x with
    | feed c =>
      rw [List.cons_append]
      simp only [observe] at hp ⊢
      split at hp
      · simp at hp
      · rename_i res r' hne e
        have hp' : ChunkRes.panic ∉ (observe d a r').results := fun h => hp (List.mem_cons_of_mem _ h)
        obtain ⟨h1, h2, h3⟩ := ih r' hp'
        simp [h1, h2, h3]
    | next =>
      rw [List.cons_append]
      simp only [observe] at hp ⊢
      split at hp
      · rename_i r' e
        exact ih r' hp
      · rename_i m r' e
        obtain ⟨h1, h2, h3⟩ := ih r' hp
        simp [h1, h2, h3]

/-- What the client did with its reader. -/
def ops : List (Act P) → List ReadOp
  | [] => []
  | .chunk bytes :: h => ops h ++ [.feed bytes]
  | .got .. :: h => ops h ++ [.next]
  | _ :: h => ops h

theorem fed_append (a b : List ReadOp) : fed (a ++ b) = fed a ++ fed b := by
  induction a with
  | nil => rfl
  | cons x a ih => cases x <;> simp [fed, ih]

theorem fed_ops (h : List (Act P)) : fed (ops h) = arrived h := by
  induction h with
  | nil => rfl
  | cons x h ih =>
    cases x <;> simp [ops, arrived, fed_append, fed, ih]

end

theorem ops_minor {xs h : List (Act P)} (hx : ∀ x ∈ xs, Act.minor x) :
    ops (xs ++ h) = ops h ∧ looked (xs ++ h) = looked h := by
  induction xs with
  | nil => exact ⟨rfl, rfl⟩
  | cons x xs ih =>
    have h1 := hx x (by simp)
    have h2 := ih (fun y hy => hx y (List.mem_cons_of_mem _ hy))
    cases x <;> first | exact h2 | exact absurd h1 (by simp [Act.minor])

theorem Held.minor {xs h : List (Act P)} (hx : ∀ x ∈ xs, Act.minor x) (k : Held h) : Held (xs ++ h) := by
  obtain ⟨a, b, rfl, h2⟩ := k
  refine ⟨xs ++ a, b, by simp, fun x hm => ?_⟩
  rcases List.mem_append.1 hm with hm | hm
  · rintro bytes rfl; exact hx _ hm
  · exact h2 x hm

structure Reading (cfg : Cfg P) (s : State P) : Prop where
  looked : looked s.past = (Spec.observe cfg.decoder (ops s.past) .new).got.map
    (fun x => (x.header.sequence, x.msg))
  reader : ∀ m, s.msgs = some m → (Spec.observe cfg.decoder (ops s.past) .new).reader = m.reader ∧
    Rust.ChunkRes.panic ∉ (Spec.observe cfg.decoder (ops s.past) .new).results
  idle : ∀ m, s.msgs = some m → m.place = .idle → m.reader.queue = [] ∨ Held s.past

theorem Reading.frame {cfg : Cfg P} {s s' : State P} (h : Reading cfg s) (f : Framed s s') : Reading cfg s' := by
  obtain ⟨xs, h1, h2⟩ := f.past
  obtain ⟨h3, h4⟩ := ops_minor (h := s.past) h2
  refine ⟨?_, ?_, ?_⟩
  · rw [h1, h3, h4]; exact h.looked
  · intro m hm
    rw [h1, h3]
    rcases f.msgs with k | ⟨b, b', k1, k2, k3, _⟩
    · rw [k] at hm; cases hm
    · rw [hm] at k2; cases k2; rw [k3]; exact h.reader _ k1
  · intro m hm hi
    rw [h1]
    rcases f.msgs with k | ⟨b, b', k1, k2, k3, k4⟩
    · rw [k] at hm; cases hm
    · rw [hm] at k2; cases k2
      have hb : b.place = .idle := by
        rcases k4 with k4 | k4
        · rw [← k4]; exact hi
        · rw [hi] at k4
          cases e : b.place <;> rw [e] at k4 <;> cases k4
      rcases h.idle b k1 hb with k | k
      · rw [k3]; exact .inl k
      · exact .inr (k.minor h2)

theorem Reading.same {cfg : Cfg P} {s s' : State P} (h : Reading cfg s) (h1 : ops s'.past = ops s.past)
    (h2 : Client.looked s'.past = Client.looked s.past)
    (h3 : ∀ m, s'.msgs = some m → ∃ b, s.msgs = some b ∧ m.reader = b.reader)
    (h4 : ∀ m, s'.msgs = some m → m.place = .idle → m.reader.queue = [] ∨ Held s'.past) : Reading cfg s' := by
  refine ⟨by rw [h1, h2]; exact h.looked, ?_, h4⟩
  intro m hm
  obtain ⟨b, k1, k2⟩ := h3 m hm
  rw [h1, k2]
  exact h.reader b k1

theorem Reading.mute {cfg : Cfg P} {s s' : State P} (h : Reading cfg s) (h1 : ops s'.past = ops s.past)
    (h2 : Client.looked s'.past = Client.looked s.past) (h3 : s'.msgs = none) : Reading cfg s' :=
  h.same h1 h2 (by simp [h3]) (by simp [h3])

theorem offer_looked (cfg : Cfg P) (q : UInt32) (m : In P) (s : State P) :
    ops (offer cfg q m s).past = ops s.past ∧ looked (offer cfg q m s).past = looked s.past := by
  obtain ⟨e, he, _⟩ := offer_past cfg q m s
  rw [he]
  exact ⟨rfl, rfl⟩

theorem reading_received {cfg : Cfg P} {s : State P} (h : Reading cfg s) (bytes : Bytes) :
    Reading cfg (received cfg bytes s) := by
  unfold received
  split
  · rename_i reader uuid hm
    obtain ⟨h1, h2⟩ := h.reader _ hm
    obtain ⟨k1, k2, k3⟩ := observe_append cfg.decoder (ops s.past) [.feed bytes] .new h2
    rw [h1] at k1 k2 k3
    simp only
    split
    · rename_i r e
      simp only [Spec.observe, e] at k1 k2 k3
      refine ⟨?_, ?_, ?_⟩
      · simpa [State.push, ops, looked, k2] using h.looked
      · rintro m rfl'
        cases rfl'
        simp only [State.push, ops, k1, k3]
        simpa using h2
      · rintro m hm' hi
        cases hm'
        cases hi
    · rename_i r e
      simp only [Spec.observe, e] at k1 k2 k3
      refine ⟨?_, ?_, ?_⟩
      · simpa [State.push, endMsgs, endApi, ops, looked, k2] using h.looked
      · rintro m rfl'
        cases rfl'
      · rintro m hm' hi
        cases hm'
    · rename_i x r hne1 hne2 e
      have e' : Spec.observe cfg.decoder [.feed bytes] reader = ⟨[x], [], r⟩ := by
        simp only [Spec.observe, e]
      rw [e'] at k1 k2 k3
      refine ⟨?_, ?_, ?_⟩
      · simpa [State.push, emit, ops, looked, k2] using h.looked
      · rintro m rfl'
        cases rfl'
        simp only [State.push, emit, ops, k1, k3]
        refine ⟨trivial, ?_⟩
        simp only [List.mem_append, List.mem_singleton, not_or]
        exact ⟨h2, fun e => hne2 e.symm⟩
      · rintro m hm' hi
        exact .inr ⟨[], _, rfl, by simp⟩
  · exact h

theorem reading_work {cfg : Cfg P} {s : State P} (h : Reading cfg s) : Reading cfg (work cfg s) := by
  unfold work
  split
  · rename_i reader uuid hm
    obtain ⟨h1, h2⟩ := h.reader _ hm
    split
    · rename_i r e
      have hr : r = reader ∧ reader.queue = [] := by
        unfold Rust.next at e
        split at e <;> cases e
        rename_i hq
        exact ⟨rfl, hq⟩
      refine h.same rfl rfl ?_ ?_
      · rintro m hm'; cases hm'; exact ⟨_, hm, hr.1⟩
      · rintro m hm' _; cases hm'; rw [hr.1]; exact .inl hr.2
    · rename_i x r e
      obtain ⟨k1, k2, k3⟩ := observe_append cfg.decoder (ops s.past) [.next] .new h2
      rw [h1] at k1 k2 k3
      simp only [Spec.observe, e] at k1 k2 k3
      have h0 : Reading cfg (({ s with msgs := some ⟨r, .between, uuid⟩ } : State P).push
          (.got x.header.sequence x.msg)) := by
        refine ⟨?_, ?_, ?_⟩
        · simp [State.push, ops, looked, k2, h.looked]
        · rintro m hm'; cases hm'
          simp only [State.push, ops, k1, k3]
          simpa using h2
        · rintro m hm' hi; cases hm'; cases hi
      simp only
      split
      · refine h0.same rfl rfl (fun m hm' => ⟨m, hm', rfl⟩) ?_
        rintro m hm' hi; cases hm'; cases hi
      · split
        · refine h0.same ?_ ?_ ?_ ?_
          · rw [(offer_looked ..).1]; rfl
          · rw [(offer_looked ..).2]; rfl
          · intro m hm'; rw [offer_msgs] at hm'; exact ⟨m, hm', rfl⟩
          · intro m hm' hi; rw [offer_msgs] at hm'; cases hm'; cases hi
        · refine h0.same rfl rfl ?_ ?_
          · rintro m hm'; cases hm'; exact ⟨_, rfl, rfl⟩
          · rintro m hm' hi; cases hm'; cases hi
  · rename_i reader q m r uuid hm
    have h0 : Reading cfg { s with msgs := some ⟨reader, .between, uuid⟩ } := by
      refine h.same rfl rfl ?_ ?_
      · rintro m hm'; cases hm'; exact ⟨_, hm, rfl⟩
      · rintro m hm' hi; cases hm'; cases hi
    simp only
    split
    · exact h
    · exact h0
    · refine h0.same (offer_looked ..).1 (offer_looked ..).2 ?_ ?_
      · intro m hm'; rw [offer_msgs] at hm'; exact ⟨m, hm', rfl⟩
      · intro m hm' hi; rw [offer_msgs] at hm'; cases hm'; cases hi
    · refine h0.same (offer_looked ..).1 (offer_looked ..).2 ?_ ?_
      · intro m hm'; rw [offer_msgs] at hm'; exact ⟨m, hm', rfl⟩
      · intro m hm' hi; rw [offer_msgs] at hm'; cases hm'; cases hi
  · exact h

theorem reading_answer {cfg : Cfg P} {s : State P} (h : Reading cfg s) (b : Bool) :
    Reading cfg (answerAccept b s) := by
  refine h.same rfl rfl ?_ ?_
  · intro m hm
    simp only [answerAccept] at hm
    match e : s.msgs, hm with
    | some x, hm =>
      refine ⟨x, rfl, ?_⟩
      simp only [Option.map_some, Option.some.injEq] at hm
      split at hm <;> subst hm <;> rfl
  · intro m hm hi
    simp only [answerAccept] at hm
    match e : s.msgs, hm with
    | some x, hm =>
      simp only [Option.map_some, Option.some.injEq] at hm
      split at hm
      · subst hm; cases hi
      · subst hm; exact h.idle _ e hi

theorem reading_step {cfg : Cfg P} {s : State P} (h : Reading cfg s) (i : Input P) :
    Reading cfg (step cfg s i) := by
  by_cases h1 : ∃ b, i = .api b
  · obtain ⟨b, rfl⟩ := h1
    simp only [step]
    rcases api_step b s with f | ⟨a, n, k1, k2, k3, k4⟩ | ⟨t, c, a, q, m, cs, f, _, k, _⟩
    · exact h.frame f
    · refine h.same (by rw [k3]; rfl) (by rw [k3]; rfl) (fun m hm => ⟨m, k4 ▸ hm, rfl⟩) ?_
      intro m hm hi
      rw [k4] at hm
      rcases h.idle m hm hi with k | ⟨x, y, k, kx⟩
      · exact .inl k
      · exact .inr ⟨.numbered n (nextSequence a.sequence) :: x, y, by rw [k3, k]; rfl, by
          intro z hz; rcases List.mem_cons.1 hz with rfl | hz
          · simp
          · exact kx z hz⟩
    · rw [k]
      exact reading_answer (h.frame f) _
  · by_cases h2 : ∃ b, i = .received b
    · obtain ⟨b, rfl⟩ := h2; exact reading_received h b
    · by_cases h3 : i = .work
      · subst h3; exact reading_work h
      · exact h.frame (frame_step cfg s i (fun b e => h1 ⟨b, e⟩) (fun b e => h2 ⟨b, e⟩) h3)

theorem reading_run (cfg : Cfg P) (is : List (Input P)) : Reading cfg (run cfg is .new) := by
  have : ∀ s : State P, Reading cfg s → Reading cfg (run cfg is s) := by
    induction is with
    | nil => exact fun s h => h
    | cons i is ih => exact fun s h => ih _ (reading_step h i)
  refine this _ ⟨rfl, ?_, ?_⟩
  · rintro m hm; cases hm; exact ⟨rfl, by simp [State.new, ops, Spec.observe]⟩
  · rintro m hm _; cases hm; exact .inl rfl

/-! ### Messages nobody waits for -/

theorem got_split {a b c d : List (Act P)} {q q' : UInt32} {m m' : In P}
    (h : a ++ .got q m :: b = c ++ .got q' m' :: d) (ha : ∀ x ∈ a, ∀ q m, x ≠ .got q m)
    (hc : ∀ x ∈ c, ∀ q m, x ≠ .got q m) : a = c ∧ q = q' ∧ m = m' ∧ b = d := by
  induction a generalizing c with
  | nil =>
    cases c with
    | nil => simpa [and_assoc] using h
    | cons y c =>
      simp only [List.nil_append, List.cons_append, List.cons.injEq] at h
      exact absurd h.1.symm (hc y (by simp) _ _)
  | cons x a ih =>
    cases c with
    | nil =>
      simp only [List.nil_append, List.cons_append, List.cons.injEq] at h
      exact absurd h.1 (ha x (by simp) _ _)
    | cons y c =>
      simp only [List.cons_append, List.cons.injEq] at h
      obtain ⟨h1, h2⟩ := ih h.2 (fun z hz => ha z (List.mem_cons_of_mem _ hz))
        (fun z hz => hc z (List.mem_cons_of_mem _ hz))
      exact ⟨by rw [h.1, h1], h2⟩

/-- Every message raised as event was waited for by nobody. -/
def Raised : List (Act P) → Prop
  | [] => True
  | a :: h => (a.raises → Unmatched h) ∧ Raised h

theorem Raised.append {xs h : List (Act P)} (hx : ∀ x ∈ xs, ¬ x.raises) (k : Raised h) : Raised (xs ++ h) := by
  induction xs with
  | nil => exact k
  | cons x xs ih =>
    exact ⟨fun hr => absurd hr (hx x (by simp)), ih (fun y hy => hx y (List.mem_cons_of_mem _ hy))⟩

theorem minor_raises {x : Act P} (h : x.minor) : ¬ x.raises := by
  cases x with
  | emitted e => cases e <;> simp_all [Act.minor, Act.raises]
  | _ => simp_all [Act.minor, Act.raises]

/-- The message looked at last, and if nobody waits for it. -/
def Asked (past : List (Act P)) (q : UInt32) (x : In P) (rp : Reply Bool) : Prop :=
  ∃ a b, past = a ++ .got q x :: b ∧ (∀ y ∈ a, ∀ q m, y ≠ .got q m) ∧
    (rp = .ready false → ∀ who o, .sent who q o ∈ b → ∃ m, .delivered who q m ∈ past)

structure Fair (s : State P) : Prop where
  raised : Raised s.past
  place : ∀ m q x rp, s.msgs = some m → m.place = .accepting q x rp → Asked s.past q x rp

theorem Asked.append {past : List (Act P)} {q : UInt32} {x : In P} {rp : Reply Bool}
    (h : Asked past q x rp) {xs : List (Act P)} (hx : ∀ y ∈ xs, ∀ q m, y ≠ .got q m) :
    Asked (xs ++ past) q x rp := by
  obtain ⟨a, b, h1, h2, h3⟩ := h
  refine ⟨xs ++ a, b, by simp [h1], fun y hy => ?_, fun e who o ho => ?_⟩
  · rcases List.mem_append.1 hy with hy | hy
    · exact hx y hy
    · exact h2 y hy
  · obtain ⟨m, hm⟩ := h3 e who o ho
    exact ⟨m, List.mem_append_right _ hm⟩

theorem minor_got {x : Act P} (h : x.minor) (q : UInt32) (m : In P) : x ≠ .got q m := by
  rintro rfl; exact h

theorem Fair.frame {s s' : State P} (h : Fair s) (f : Framed s s') : Fair s' := by
  obtain ⟨xs, h1, h2⟩ := f.past
  refine ⟨by rw [h1]; exact h.raised.append (fun x hx => minor_raises (h2 x hx)), ?_⟩
  intro m q x rp hm hp
  rw [h1]
  rcases f.msgs with k | ⟨b, b', k1, k2, k3, k4⟩
  · rw [k] at hm; cases hm
  · rw [hm] at k2; cases k2
    have : ∃ rp', b.place = .accepting q x rp' ∧ (rp = .ready false → rp' = .ready false) := by
      rcases k4 with k4 | k4
      · exact ⟨rp, by rw [← k4, hp], id⟩
      · rw [hp] at k4
        cases e : b.place with
        | accepting q' x' rp' =>
          rw [e] at k4
          simp only [Place.orphan, Place.accepting.injEq] at k4
          obtain ⟨rfl, rfl, rfl⟩ := k4
          refine ⟨rp', rfl, fun hr => ?_⟩
          cases rp' <;> simp_all [Reply.close]
        | idle => rw [e] at k4; cases k4
        | between => rw [e] at k4; cases k4
    obtain ⟨rp', k5, k6⟩ := this
    obtain ⟨a, c, j1, j2, j3⟩ := h.place b q x rp' k1 k5
    exact Asked.append ⟨a, c, j1, j2, fun e => j3 (k6 e)⟩ (fun y hy => minor_got (h2 y hy))

theorem unmatched_of_asked {past : List (Act P)} {q : UInt32} {x : In P}
    (h : Asked past q x (.ready false)) : Unmatched past := by
  obtain ⟨a, b, h1, h2, h3⟩ := h
  intro a' q' m' b' e ha' who o ho
  rw [h1] at e
  obtain ⟨_, rfl, _, rfl⟩ := got_split e h2 (fun y hy => (ha' y hy).1)
  exact h3 rfl who o ho

theorem unmatched_refused (h : List (Act P)) : Unmatched (.emitted .acceptError :: h) := by
  intro a q m b e ha
  cases a with
  | nil => simp at e
  | cons y a =>
    simp only [List.cons_append, List.cons.injEq] at e
    exact absurd e.1.symm (ha y (by simp)).2

theorem raised_offer {cfg : Cfg P} {q : UInt32} {m : In P} {s : State P} (h : Raised s.past)
    (hu : Unmatched s.past) : Raised (offer cfg q m s).past := by
  obtain ⟨e, he, _⟩ := offer_past cfg q m s
  rw [he]
  exact ⟨fun _ => hu, h⟩

theorem fair_received {cfg : Cfg P} {s : State P} (h : Fair s) (bytes : Bytes) :
    Fair (received cfg bytes s) := by
  unfold received
  have h0 : Raised (Act.chunk bytes :: s.past) := ⟨fun k => absurd k (by simp [Act.raises]), h.raised⟩
  split
  · simp only
    split
    · refine ⟨h0, ?_⟩
      rintro m q x rp hm hp; cases hm; cases hp
    · refine ⟨?_, ?_⟩
      · exact Raised.append (xs := [.panicked, .messagesEnded false, .apiEnded false])
          (by simp [Act.raises]) h0
      · rintro m q x rp hm hp; cases hm
    · refine ⟨Raised.append (xs := [.emitted .readError]) (by simp [Act.raises]) h0, ?_⟩
      rintro m q x rp hm hp; cases hm; cases hp
  · exact h

theorem fair_work {cfg : Cfg P} {s : State P} (h : Fair s) : Fair (work cfg s) := by
  unfold work
  split
  · rename_i reader uuid hm
    split
    · refine ⟨h.raised, ?_⟩
      rintro m q x rp hm hp; cases hm; cases hp
    · rename_i x r e
      have h0 : Raised (Act.got x.header.sequence x.msg :: s.past) :=
        ⟨fun k => absurd k (by simp [Act.raises]), h.raised⟩
      simp only
      split
      · refine ⟨Raised.append (xs := [.authStarted _]) (by simp [Act.raises]) h0, ?_⟩
        rintro m q x rp hm hp; cases hm; cases hp
      · rename_i m hne
        split
        · refine ⟨raised_offer ?_ (unmatched_refused _), ?_⟩
          · exact Raised.append (xs := [.emitted .acceptError]) (by simp [Act.raises]) h0
          · intro m q x rp hm hp; rw [offer_msgs] at hm; cases hm; cases hp
        · refine ⟨h0, ?_⟩
          rintro m q y rp hm' hp; cases hm'; cases hp
          exact ⟨[], s.past, rfl, by simp, by simp⟩
  · rename_i reader q m r uuid hm
    have ha := h.place _ _ _ _ hm rfl
    simp only
    split
    · exact h
    · refine ⟨h.raised, ?_⟩
      rintro m q x rp hm hp; cases hm; cases hp
    · refine ⟨raised_offer h.raised (unmatched_of_asked ha), ?_⟩
      intro m q x rp hm hp; rw [offer_msgs] at hm; cases hm; cases hp
    · refine ⟨raised_offer ?_ (unmatched_refused _), ?_⟩
      · exact Raised.append (xs := [.emitted .acceptError]) (by simp [Act.raises]) h.raised
      · intro m q x rp hm hp; rw [offer_msgs] at hm; cases hm; cases hp
  · exact h

theorem fair_step {cfg : Cfg P} {s : State P} (hi : Inv cfg s) (h : Fair s) (i : Input P) :
    Fair (step cfg s i) := by
  by_cases h1 : ∃ b, i = .api b
  · obtain ⟨b, rfl⟩ := h1
    simp only [step]
    rcases api_step b s with f | ⟨a, n, k1, k2, k3, k4⟩ | ⟨t, c, a, q, m, cs, f, ht, k, ka, kq, kf⟩
    · exact h.frame f
    · refine ⟨?_, ?_⟩
      · rw [k3]; exact ⟨fun k => absurd k (by simp [Act.raises]), h.raised⟩
      · intro m q x rp hm hp
        rw [k4] at hm
        rw [k3]
        exact (h.place m q x rp hm hp).append (xs := [.numbered n (nextSequence a.sequence)]) (by simp)
    · rw [k]
      have hf := h.frame f
      refine ⟨hf.raised, ?_⟩
      intro x q' m' rp hm hp
      simp only [answerAccept] at hm
      match e : t.msgs, hm with
      | some y, hm =>
        simp only [Option.map_some, Option.some.injEq] at hm
        split at hm
        · rename_i q1 m1 hy
          subst hm
          simp only [Place.accepting.injEq] at hp
          obtain ⟨rfl, rfl, rfl⟩ := hp
          obtain ⟨j1, j2, j3, j4, j5⟩ := hf.place y q1 m1 .waiting e hy
          refine ⟨j1, j2, j3, j4, fun hc who o ho => ?_⟩
          have hc : c = false := by simpa using hc
          obtain ⟨l1, l2⟩ := kf hc
          -- the message in the queue is this one
          have hq : q = q1 := by
            have h5 := hi.accepts
            rw [kq, ← ht, e] at h5
            obtain ⟨r, p, u⟩ := y
            simp only at hy
            subst hy
            simp [Cmd.acceptOf, asking] at h5
            exact h5.1.1
          subst hq
          have ho' : Act.sent who q o ∈ s.past := by
            rw [← l2, j3]; exact List.mem_append_right _ (List.mem_cons_of_mem _ ho)
          rcases hi.waits (by rw [ka]; rfl) who q o ho' with ⟨m, hm⟩ | hm
          · exact ⟨m, by rw [answerAccept_past, l2]; exact hm⟩
          · rw [State.pend, ka] at hm
            exact absurd hm (lookup_pending_none l1 who)
        · subst hm; exact hf.place _ q' m' rp e hp
  · by_cases h2 : ∃ b, i = .received b
    · obtain ⟨b, rfl⟩ := h2; exact fair_received h b
    · by_cases h3 : i = .work
      · subst h3; exact fair_work h
      · exact h.frame (frame_step cfg s i (fun b e => h1 ⟨b, e⟩) (fun b e => h2 ⟨b, e⟩) h3)

theorem fair_run (cfg : Cfg P) (is : List (Input P)) : Fair (run cfg is .new) := by
  have : ∀ s : State P, Inv cfg s → Asks s → Fair s → Fair (run cfg is s) := by
    induction is with
    | nil => exact fun s _ _ h => h
    | cons i is ih => exact fun s h1 h2 h3 => ih _ (inv_step h1 h2 i) (asks_step h2 i) (fair_step h1 h3 i)
  refine this _ (inv_new cfg) (asks_idle rfl) ⟨trivial, ?_⟩
  rintro m q x rp hm hp; cases hm; cases hp

end Verif.Client
