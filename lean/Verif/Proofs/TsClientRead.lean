import Verif.Proofs.TsClientRun
import Verif.Proofs.TsStream
set_option autoImplicit false
/-!
What a TypeScript client reads, what it does with each message, and which events it raises.
-/
namespace Verif.TsClient

open Verif

/-- Acts of user code, and of the code it calls. -/
def User : Act → Prop
  | .created .. => True
  | .called .. => True
  | .destroyed .. => True
  | .assigning _ shake => shake = false
  | .sent .. => True
  | .assignEnded .. => True
  | .shakeEnded .. => True
  | .ended .. => True
  | _ => False

/-- Acts of a job. -/
def Job : Act → Prop
  | .handled .. => True
  | .emitted (.ready _) => True
  | a => User a

theorem Job.ofUser {a : Act} (h : User a) : Job a := by
  cases a <;> first | exact h | exact h.elim

/-- Only acts of a kind are added; the reader stays. -/
def Adds (K : Act → Prop) (s s' : State) : Prop :=
  s'.reader = s.reader ∧ ∃ l, s'.past = l ++ s.past ∧ ∀ a ∈ l, K a

section
variable {cfg : Cfg} {env : Env} {K : Act → Prop}

theorem Adds.refl (s : State) : Adds K s s := ⟨rfl, [], rfl, by simp⟩

theorem Adds.trans {s s1 s2 : State} (h1 : Adds K s s1) (h2 : Adds K s1 s2) : Adds K s s2 := by
  obtain ⟨r1, l1, e1, k1⟩ := h1
  obtain ⟨r2, l2, e2, k2⟩ := h2
  refine ⟨r2.trans r1, l2 ++ l1, by rw [e2, e1, List.append_assoc], ?_⟩
  intro a ha
  rcases List.mem_append.1 ha with k | k
  · exact k2 a k
  · exact k1 a k

theorem Adds.mono {K' : Act → Prop} (hk : ∀ a, K a → K' a) {s s' : State} (h : Adds K s s') : Adds K' s s' := by
  obtain ⟨r1, l1, e1, k1⟩ := h
  exact ⟨r1, l1, e1, fun a ha => hk a (k1 a ha)⟩

theorem Adds.push {s s' : State} {a : Act} (h : Adds K s s') (ha : K a) : Adds K s (s'.push a) := by
  obtain ⟨r1, l1, e1, k1⟩ := h
  refine ⟨r1, a :: l1, by show a :: s'.past = _; rw [e1]; rfl, ?_⟩
  intro b hb
  rcases List.mem_cons.1 hb with rfl | hb
  · exact ha
  · exact k1 b hb

theorem Adds.of {s s' : State} (h1 : s'.reader = s.reader) (h2 : s'.past = s.past) : Adds K s s' :=
  ⟨h1, [], by rw [h2]; rfl, by simp⟩

theorem adds_reject (w : Waiter) (s : State) : Adds User s (reject w s) := by
  cases w with
  | call n o => exact (Adds.refl s).push trivial
  | hash n v => exact (Adds.refl s).push trivial
  | assign n b =>
    cases b
    · exact (Adds.refl s).push trivial
    · exact ((Adds.refl s).push (a := .assignEnded n none) trivial).push trivial

theorem adds_request (w : Waiter) (q : Nat) (out : Out) (s : State) : Adds User s (request cfg env w q out s) := by
  unfold request
  split
  · split
    · exact Adds.of rfl rfl
    · split
      · exact Adds.push (Adds.of rfl rfl) trivial
      · exact Adds.of rfl rfl
  · exact adds_reject w s

theorem adds_assign (s : State) : Adds User s (assign cfg env false s) := by
  have h := adds_request (cfg := cfg) (env := env) (.assign s.next false) s.sequence .selfKey
    (getSequence (({ s with next := s.next + 1 } : State).push (.assigning s.next false))).2
  refine Adds.trans (s1 := (getSequence (({ s with next := s.next + 1 } : State).push (.assigning s.next false))).2) ?_ h
  exact ⟨rfl, [_], rfl, by simp [User]⟩

theorem adds_send (o : Nat) (s : State) : Adds User s (send cfg env o s) := by
  unfold send
  cases s.objs.lookup o with
  | none => exact Adds.refl s
  | some x =>
    simp only
    cases x.state with
    | pending => exact ⟨rfl, [_, _], rfl, by simp [User]⟩
    | destroyed => exact ⟨rfl, [_, _], rfl, by simp [User]⟩
    | ready =>
      have h := adds_request (cfg := cfg) (env := env) (.call s.next o) s.sequence (.msg x.kind.ref x.body)
        ((getSequence (({ s with next := s.next + 1 } : State).push (.called s.next o))).2.setObj o
          { x with state := .pending })
      refine Adds.trans (s1 := ((getSequence (({ s with next := s.next + 1 } : State).push (.called s.next o))).2.setObj o
          { x with state := .pending })) ?_ h
      exact ⟨rfl, [.called s.next o], rfl, by simp [User]⟩

theorem adds_userOp (s : State) (op : Op) : Adds User s (userOp cfg env s op) := by
  cases op with
  | create k b => exact ⟨rfl, [_], rfl, by simp [User]⟩
  | on o name =>
    simp only [userOp]
    cases s.objs.lookup o <;> exact Adds.of rfl rfl
  | send o => exact adds_send o s
  | destroy o =>
    simp only [userOp]
    cases s.objs.lookup o
    · exact Adds.refl s
    · exact ⟨rfl, [_], rfl, by simp [User]⟩
  | assign => exact adds_assign s

theorem adds_ops (ops : List Op) (s : State) : Adds User s (ops.foldl (userOp cfg env) s) := by
  induction ops generalizing s with
  | nil => exact Adds.refl s
  | cons op ops ih => exact (adds_userOp s op).trans (ih _)

theorem adds_enter (a : Act) (s : State) : Adds User (s.push a) (enter cfg env a s) := adds_ops _ _

theorem setUuid_reader (v : Option Js) (s : State) : (setUuid v s).reader = s.reader := by
  unfold setUuid
  split
  · rfl
  · split
    · rfl
    · split <;> rfl
  · rfl

theorem adds_setUuid (v : Option Js) (s : State) : Adds K s (setUuid v s) :=
  Adds.of (setUuid_reader v s) (setUuid_past v s)

theorem adds_onAssigned (n : Nat) (shake : Bool) (m : Msg) (s : State) : Adds User s (onAssigned n shake m s) := by
  unfold onAssigned
  split
  · exact adds_reject _ _
  next b _ =>
    refine (adds_setUuid (b.prop "uuid".toList) s).trans ?_
    simp only
    split
    · split
      · exact Adds.trans ((Adds.refl _).push (a := .assignEnded n (some _)) trivial) (Adds.of rfl rfl)
      · exact (Adds.refl _).push trivial
    · exact adds_reject _ _

theorem adds_onHash (n : Nat) (v : Js) (m : Msg) (s : State) : Adds Job s (onHash cfg env n v m s) := by
  unfold onHash
  split
  · exact (Adds.refl _).push trivial
  · split
    · exact (Adds.refl _).push trivial
    · refine Adds.trans ?_ ((adds_enter _ _).mono (fun _ => Job.ofUser))
      exact ((Adds.refl _).push (a := .shakeEnded n true) trivial).push trivial

theorem adds_settle (n o : Nat) (name : Name) (v : Option Js) (r : Result) (s : State) :
    Adds Job s (settle cfg env n o name v r s) := by
  unfold settle
  split
  · split
    · have h : Adds Job s (enter cfg env (.handled n name v) s) :=
        Adds.trans ((Adds.refl s).push (a := .handled n name v) trivial) ((adds_enter _ _).mono (fun _ => Job.ofUser))
      simp only [callUser]
      cases env.throws (s.push (.handled n name v)) (.handled n name v) <;> exact h.push trivial
    · exact (Adds.refl _).push trivial
  · exact (Adds.refl _).push trivial

theorem adds_onAnswer (n o : Nat) (m : Msg) (s : State) : Adds Job s (onAnswer cfg env n o m s) := by
  unfold onAnswer
  split
  · exact Adds.refl s
  · split
    · exact Adds.refl s
    · exact (Adds.refl _).push trivial
    · simp only
      refine Adds.trans (Adds.of rfl rfl) (?_ : Adds Job (s.setObj _ _) _)
      split
      · unfold conclude
        split
        · exact adds_settle ..
        · split
          · exact adds_settle ..
          · exact (Adds.refl _).push trivial
      · unfold confirm
        split
        · exact adds_settle ..
        · split <;> exact adds_settle ..

theorem adds_work (t : Task) (s : State) : Adds Job s (work cfg env t s) := by
  cases t with
  | answered w m =>
    cases w with
    | assign n b => exact (adds_onAssigned ..).mono (fun _ => Job.ofUser)
    | hash n v => exact adds_onHash ..
    | call n o => exact adds_onAnswer ..
  | failed w => exact (adds_reject ..).mono (fun _ => Job.ofUser)
  | assigned n v =>
    have h := adds_request (cfg := cfg) (env := env) (.hash n v) s.sequence .hash (getSequence s).2
    exact Adds.trans (Adds.of rfl rfl) (h.mono (fun _ => Job.ofUser))

/-! ### Messages -/

/-- What happens right after a message was looked at. -/
def Treats (q : UInt32) (m : Msg) (a : Act) : Prop :=
  (∃ w, a = .delivered w q m) ∨ (∃ ref, a = .emitted (.broadcast ref m.body)) ∨ a = .ignored q m

/-- Acts of the loop over messages, without the message itself. -/
def Msgs : Act → Prop
  | .delivered .. => True
  | .emitted (.broadcast ..) => True
  | .ignored .. => True
  | a => User a

theorem Msgs.ofUser {a : Act} (h : User a) : Msgs a := by
  cases a <;> first | exact h | exact h.elim

theorem offer_acts (q : UInt32) (m : Msg) (s : State) :
    (offer cfg env q m s).2.reader = s.reader ∧
      ∃ l a, (offer cfg env q m s).2.past = l ++ a :: s.past ∧ Treats q m a ∧ Msgs a ∧ ∀ b ∈ l, User b := by
  unfold offer
  split
  next ref _ =>
    obtain ⟨h1, l, h2, h3⟩ := adds_enter (cfg := cfg) (env := env) (.emitted (.broadcast ref m.body)) s
    exact ⟨h1, l, _, h2, .inr (.inl ⟨ref, rfl⟩), trivial, h3⟩
  next => exact ⟨rfl, [], _, rfl, .inr (.inr rfl), trivial, by simp⟩

theorem onMessage_acts (x : Rust.Income Msg) (s : State) :
    (onMessage cfg env x s).2.reader = s.reader ∧
      ∃ l a, (onMessage cfg env x s).2.past = l ++ a :: .got x.header.sequence x.msg :: s.past ∧
        Treats x.header.sequence x.msg a ∧ Msgs a ∧ ∀ b ∈ l, User b := by
  unfold onMessage
  simp only
  split
  next w _ => exact ⟨rfl, [], _, rfl, .inl ⟨w, rfl⟩, trivial, by simp⟩
  next => exact offer_acts ..

theorem onMessage_quiet (he : ∀ s a, env.throws s a = false) (x : Rust.Income Msg) (s : State) :
    (onMessage cfg env x s).1 = false := by
  unfold onMessage
  simp only
  split
  · rfl
  · unfold offer
    split
    · exact he _ _
    · rfl

theorem arrived_append {K : Act → Prop} (hK : ∀ a, K a → ∀ b, a ≠ .chunk b) (l h : List Act) (hl : ∀ a ∈ l, K a) :
    arrived (l ++ h) = arrived h := by
  induction l with
  | nil => rfl
  | cons a l ih =>
    have h1 := hK a (hl a (by simp))
    have h2 := ih (fun b hb => hl b (by simp [hb]))
    cases a <;> first | exact absurd rfl (h1 _) | exact h2

theorem looked_append {K : Act → Prop} (hK : ∀ a, K a → ∀ q m, a ≠ .got q m) (l h : List Act) (hl : ∀ a ∈ l, K a) :
    looked (l ++ h) = looked h := by
  induction l with
  | nil => rfl
  | cons a l ih =>
    have h1 := hK a (hl a (by simp))
    have h2 := ih (fun b hb => hl b (by simp [hb]))
    cases a <;> first | exact absurd rfl (h1 _ _) | exact h2

theorem user_chunk : ∀ a, User a → ∀ b, a ≠ .chunk b := by rintro _ h b rfl; exact h
theorem user_got : ∀ a, User a → ∀ q m, a ≠ .got q m := by rintro _ h q m rfl; exact h
theorem job_chunk : ∀ a, Job a → ∀ b, a ≠ .chunk b := by rintro _ h b rfl; exact h
theorem job_got : ∀ a, Job a → ∀ q m, a ≠ .got q m := by rintro _ h q m rfl; exact h

theorem onMessage_reads (x : Rust.Income Msg) (s : State) :
    arrived (onMessage cfg env x s).2.past = arrived s.past ∧
    looked (onMessage cfg env x s).2.past = looked s.past ++ [(x.header.sequence, x.msg)] := by
  obtain ⟨_, l, a, h1, _, h2, h3⟩ := onMessage_acts (cfg := cfg) (env := env) x s
  rw [h1, arrived_append user_chunk l _ h3, looked_append user_got l _ h3]
  cases a <;> first | exact h2.elim | exact ⟨rfl, rfl⟩

/-- Number and message. -/
def pr (x : Rust.Income Msg) : UInt32 × Msg := (x.header.sequence, x.msg)

theorem onMessages_reads (l : List (Rust.Income Msg)) (s : State) (hs : s.reader.queue = l) :
    ∃ l1 l2, l = l1 ++ l2 ∧ (onMessages cfg env l s).reader = ⟨s.reader.buffer, l2⟩ ∧
      arrived (onMessages cfg env l s).past = arrived s.past ∧
      looked (onMessages cfg env l s).past = looked s.past ++ l1.map pr ∧
      ((∀ s a, env.throws s a = false) → l2 = []) := by
  induction l generalizing s with
  | nil =>
    refine ⟨[], [], rfl, ?_, rfl, by simp [onMessages], fun _ => rfl⟩
    show s.reader = _
    obtain ⟨⟨b, q⟩, _⟩ := s
    simp only at hs
    subst hs
    rfl
  | cons x l ih =>
    unfold onMessages
    obtain ⟨h1, _⟩ := onMessage_acts (cfg := cfg) (env := env) x { s with reader := ⟨s.reader.buffer, l⟩ }
    obtain ⟨h2, h3⟩ := onMessage_reads (cfg := cfg) (env := env) x { s with reader := ⟨s.reader.buffer, l⟩ }
    split
    next s' e =>
      rw [e] at h1 h2 h3
      refine ⟨[x], l, rfl, h1, h2, h3, fun he => ?_⟩
      have := onMessage_quiet (cfg := cfg) he x { s with reader := ⟨s.reader.buffer, l⟩ }
      rw [e] at this
      cases this
    next s' e =>
      rw [e] at h1 h2 h3
      simp only at h1 h2 h3
      obtain ⟨l1, l2, k1, k2, k3, k4, k5⟩ := ih s' (by rw [h1])
      refine ⟨x :: l1, l2, by rw [k1]; rfl, by rw [k2, h1], k3.trans h2, ?_, k5⟩
      rw [k4, h3, List.append_assoc]
      rfl

/-! ### The stream -/

/-- What is known about the reader. -/
def Reading (cfg : Cfg) (s : State) : Prop :=
  (arrived s.past).length < 2 ^ 64 → ∃ fs, (∀ f ∈ fs, Spec.Readable cfg.decoder f) ∧
    arrived s.past = Spec.stream fs ++ s.reader.buffer ∧
    messages cfg.decoder fs = looked s.past ++ s.reader.queue.map pr ∧
    (Spec.NoFrame s.reader.buffer ∨ ∃ f rest, Spec.Throwing cfg.decoder f ∧ s.reader.buffer = f.bytes ++ rest)

theorem Reading.adds {s s' : State} (h : Reading cfg s) (ha : Adds K s s') (h1 : ∀ a, K a → ∀ b, a ≠ .chunk b)
    (h2 : ∀ a, K a → ∀ q m, a ≠ .got q m) : Reading cfg s' := by
  obtain ⟨k1, l, k2, k3⟩ := ha
  unfold Reading
  rw [k1, k2, arrived_append h1 l _ k3, looked_append h2 l _ k3]
  exact h

theorem noFrame_nil : Spec.NoFrame [] := by
  rintro f hf ⟨t, ht⟩
  have := congrArg List.length ht
  rw [List.length_append, Rust.frame_length] at this
  simp at this

theorem reading_new (cfg : Cfg) : Reading cfg .new := fun _ =>
  ⟨[], by simp, rfl, rfl, .inl noFrame_nil⟩

theorem messages_append (d : Rust.Decoder Msg) (fs gs : List Spec.Frame) :
    messages d (fs ++ gs) = messages d fs ++ messages d gs := by
  simp [messages]

theorem stream_append (fs gs : List Spec.Frame) : Spec.stream (fs ++ gs) = Spec.stream fs ++ Spec.stream gs := by
  simp [Spec.stream]

theorem stream_cons (f : Spec.Frame) (fs : List Spec.Frame) : Spec.stream (f :: fs) = f.bytes ++ Spec.stream fs := by
  simp [Spec.stream]

/-- A chunk was read. -/
theorem Reading.chunk {s : State} {bytes : Bytes} {e : Ts.TsEnd} {r : Rust.Reader Msg} (h : Reading cfg s)
    (hr : TsServer.readChunk cfg.decoder s.reader bytes = some (e, r)) :
    Reading cfg { (s.push (.chunk bytes)) with reader := r } := by
  intro hlen
  have hlen : (arrived s.past ++ bytes).length < 2 ^ 64 := hlen
  rw [List.length_append] at hlen
  obtain ⟨fs, k1, k2, k3, _⟩ := h (by omega)
  have hb : s.reader.buffer.length + bytes.length < 2 ^ 64 := by
    have := congrArg List.length k2
    rw [List.length_append] at this
    omega
  obtain ⟨gs, g1, g2, g3, g4⟩ := Ts.chunk_ended cfg.decoder hb ((TsServer.readChunk_iff _ _ _ _ _).1 hr)
  refine ⟨fs ++ gs, ?_, ?_, ?_, ?_⟩
  · intro f hf
    rcases List.mem_append.1 hf with hf | hf
    · exact k1 f hf
    · exact g1 f hf
  · show arrived s.past ++ bytes = _
    rw [k2, List.append_assoc, g2, stream_append, List.append_assoc]
  · rw [messages_append, k3]
    show _ = looked s.past ++ r.queue.map pr
    rw [g3, List.map_append, List.append_assoc]
    rfl
  · rcases g4 with g4 | g4
    · exact .inl g4.1
    · exact .inr g4.2

theorem reading_received {s s' : State} {bytes : Bytes} (h : Reading cfg s)
    (hr : received cfg env bytes s = some s') : Reading cfg s' := by
  unfold received at hr
  simp only at hr
  split at hr
  · cases hr
  next r e => cases hr; exact h.chunk e
  next r e => cases hr; exact h.chunk e
  next r e =>
    cases hr
    have h1 := h.chunk (s := s) (bytes := bytes) e
    obtain ⟨l1, l2, k1, k2, k3, k4, _⟩ :=
      onMessages_reads (cfg := cfg) (env := env) r.queue { (s.push (.chunk bytes)) with reader := r } rfl
    unfold Reading at h1 ⊢
    intro hlen
    rw [k3] at hlen
    obtain ⟨fs, g1, g2, g3, g4⟩ := h1 hlen
    refine ⟨fs, g1, ?_, ?_, ?_⟩
    · rw [k3, k2]; exact g2
    · rw [k4, k2, g3]
      simp only
      rw [k1, List.map_append, List.append_assoc]
    · rw [k2]; exact g4

/-- Acts that are neither data nor messages. -/
def Other (a : Act) : Prop := (∀ b, a ≠ .chunk b) ∧ ∀ q m, a ≠ .got q m

theorem Other.ofUser {a : Act} (h : User a) : Other a := ⟨user_chunk a h, user_got a h⟩
theorem Other.ofJob {a : Act} (h : Job a) : Other a := ⟨job_chunk a h, job_got a h⟩

theorem adds_assign_any (b : Bool) (s : State) : Adds Other s (assign cfg env b s) := by
  have h := adds_request (cfg := cfg) (env := env) (.assign s.next b) s.sequence .selfKey
    (getSequence (({ s with next := s.next + 1 } : State).push (.assigning s.next b))).2
  refine Adds.trans (s1 := (getSequence (({ s with next := s.next + 1 } : State).push (.assigning s.next b))).2) ?_
    (h.mono (fun _ => Other.ofUser))
  exact ⟨rfl, [.assigning s.next b], rfl, by simp [Other]⟩

theorem adds_enter_other {a : Act} (ha : Other a) (s : State) : Adds Other s (enter cfg env a s) :=
  ((Adds.refl s).push ha).trans ((adds_enter a s).mono (fun _ => Other.ofUser))

/-- All inputs but data. -/
theorem adds_step {s s' : State} {i : Input} (hi : ∀ b, i ≠ .received b) (hr : step cfg env s i = some s') :
    Adds Other s s' := by
  have p : ∀ a, Other a → Adds Other s (s.push a) := fun a ha => (Adds.refl s).push ha
  cases i with
  | connected =>
    cases hr
    exact ((p .opened (by simp [Other])).trans (adds_assign_any ..)).trans (adds_enter_other (by simp [Other]) _)
  | disconnected =>
    cases hr
    exact ((p .closed (by simp [Other])).trans (adds_setUuid ..)).trans (adds_enter_other (by simp [Other]) _)
  | error =>
    cases hr
    exact (p .trouble (by simp [Other])).trans (adds_enter_other (by simp [Other]) _)
  | received b => exact absurd rfl (hi b)
  | user op => cases hr; exact (adds_userOp s op).mono (fun _ => Other.ofUser)
  | work i =>
    simp only [step] at hr
    split at hr
    · cases hr
      exact Adds.trans (Adds.of rfl rfl) ((adds_work _ _).mono (fun _ => Other.ofJob))
    · cases hr; exact Adds.refl s

theorem reading_step {s s' : State} {i : Input} (h : Reading cfg s) (hr : step cfg env s i = some s') :
    Reading cfg s' := by
  by_cases hi : ∃ b, i = .received b
  · obtain ⟨b, rfl⟩ := hi
    exact reading_received h hr
  · exact h.adds (adds_step (fun b e => hi ⟨b, e⟩) hr) (fun a h => h.1) (fun a h => h.2)

theorem reading_run_from (is : List Input) {s : State} (h : Reading cfg s) : Reading cfg (run cfg env is s).2 := by
  induction is generalizing s with
  | nil => exact h
  | cons i is ih =>
    unfold run
    split
    next s' e => exact ih (reading_step h e)
    next => exact h

/-! ### Every message is treated -/

/-- Something happened right after every message that was looked at. -/
def Treated (h : List Act) : Prop :=
  ∀ l q m older, h = l ++ .got q m :: older → ∃ l' a, l = l' ++ [a] ∧ Treats q m a

theorem Treated.adds {l h : List Act} (ht : Treated h) (hl : ∀ a ∈ l, ∀ q m, a ≠ .got q m) : Treated (l ++ h) := by
  intro k q m older e
  rcases List.append_eq_append_iff.1 e with ⟨t, e1, e2⟩ | ⟨t, e1, e2⟩
  · obtain ⟨l', a, k1, k2⟩ := ht t q m older e2
    exact ⟨l ++ l', a, by rw [e1, k1, List.append_assoc], k2⟩
  · cases t with
    | nil =>
      obtain ⟨l', a, k1, k2⟩ := ht [] q m older (by simpa using e2.symm)
      simp at k1
    | cons b t =>
      simp only [List.cons_append, List.cons.injEq] at e2
      exact absurd e2.1.symm (hl b (by rw [e1]; simp) q m)

theorem Treated.message {h l : List Act} {q : UInt32} {m : Msg} {a : Act} (ht : Treated h) (ha : Treats q m a)
    (hl : ∀ b ∈ l, ∀ q m, b ≠ .got q m) : Treated (l ++ a :: .got q m :: h) := by
  have hag : ∀ q m, a ≠ .got q m := by
    intro q' m' e
    rcases ha with ⟨w, rfl⟩ | ⟨r, rfl⟩ | rfl <;> cases e
  refine Treated.adds ?_ hl
  intro k q' m' older e
  cases k with
  | nil => simp only [List.nil_append, List.cons.injEq] at e; exact absurd e.1 (hag _ _)
  | cons b k =>
    simp only [List.cons_append, List.cons.injEq] at e
    obtain ⟨rfl, e⟩ := e
    cases k with
    | nil =>
      simp only [List.nil_append, List.cons.injEq, Act.got.injEq] at e
      obtain ⟨⟨rfl, rfl⟩, _⟩ := e
      exact ⟨[], a, rfl, ha⟩
    | cons c k =>
      simp only [List.cons_append, List.cons.injEq] at e
      obtain ⟨rfl, e⟩ := e
      obtain ⟨l', b, k1, k2⟩ := ht k q' m' older e
      exact ⟨a :: .got q m :: l', b, by rw [k1]; rfl, k2⟩

theorem treated_onMessages (l : List (Rust.Income Msg)) {s : State} (h : Treated s.past) :
    Treated (onMessages cfg env l s).past := by
  induction l generalizing s with
  | nil => exact h
  | cons x l ih =>
    have h1 : Treated (onMessage cfg env x { s with reader := ⟨s.reader.buffer, l⟩ }).2.past := by
      obtain ⟨_, k, a, e, h2, _, h3⟩ := onMessage_acts (cfg := cfg) (env := env) x { s with reader := ⟨s.reader.buffer, l⟩ }
      rw [e]
      exact Treated.message h h2 (fun b hb => user_got b (h3 b hb))
    unfold onMessages
    split
    next s' e => rw [e] at h1; exact h1
    next s' e => rw [e] at h1; exact ih h1

theorem treated_step {s s' : State} {i : Input} (h : Treated s.past) (hr : step cfg env s i = some s') :
    Treated s'.past := by
  by_cases hi : ∃ b, i = .received b
  · obtain ⟨b, rfl⟩ := hi
    have h1 : Treated (.chunk b :: s.past) := Treated.adds (l := [.chunk b]) h (by simp)
    simp only [step, received] at hr
    split at hr
    · cases hr
    · cases hr; exact h1
    · cases hr; exact h1
    · cases hr; exact treated_onMessages _ h1
  · obtain ⟨_, l, e, k⟩ := adds_step (fun b e => hi ⟨b, e⟩) hr
    rw [e]
    exact h.adds (fun a ha => (k a ha).2)

theorem treated_run_from (is : List Input) {s : State} (h : Treated s.past) : Treated (run cfg env is s).2.past := by
  induction is generalizing s with
  | nil => exact h
  | cons i is ih =>
    unfold run
    split
    next s' e => exact ih (treated_step h e)
    next => exact h

/-! ### Good chunks -/

theorem readable_ok {d : Rust.Decoder Msg} {f : Spec.Frame} (h : Spec.Readable d f) : f.Ok := by
  rcases h with h | h <;> exact h.1

theorem stream_unique {gs fs : List Spec.Frame} {b rest : Bytes} (d : Rust.Decoder Msg)
    (hg : ∀ f ∈ gs, Spec.Readable d f) (hf : ∀ f ∈ fs, Spec.Readable d f) (hn : Spec.NoFrame rest)
    (hb : Spec.NoFrame b ∨ ∃ f t, Spec.Throwing d f ∧ b = f.bytes ++ t)
    (e : Spec.stream gs ++ b = Spec.stream fs ++ rest) : gs = fs ∧ b = rest := by
  induction gs generalizing fs with
  | nil =>
    cases fs with
    | nil => exact ⟨rfl, e⟩
    | cons f fs =>
      exfalso
      have e : b = f.bytes ++ (Spec.stream fs ++ rest) := by
        rw [stream_cons, List.append_assoc] at e
        exact e
      have hfr := hf f (by simp)
      rcases hb with hb | ⟨g, t, hg, rfl⟩
      · exact hb f (readable_ok hfr) ⟨_, e.symm⟩
      · obtain ⟨rfl, _⟩ := Ts.bytes_prefix_unique hg.1 (readable_ok hfr) e
        rcases hfr with ⟨_, _, t, h⟩ | ⟨_, _, h⟩
        · rw [hg.2.2] at h; cases h
        · rw [hg.2.2] at h; cases h
  | cons g gs ih =>
    rw [stream_cons, List.append_assoc] at e
    cases fs with
    | nil => exact absurd ⟨_, e⟩ (hn g (readable_ok (hg g (by simp))))
    | cons f fs =>
      rw [stream_cons, List.append_assoc] at e
      obtain ⟨rfl, e'⟩ := Ts.bytes_prefix_unique (readable_ok (hg g (by simp))) (readable_ok (hf f (by simp))) e
      obtain ⟨rfl, rfl⟩ := ih (fun f h => hg f (by simp [h])) (fun f h => hf f (by simp [h])) e'
      exact ⟨rfl, rfl⟩

/-- A chunk without bad frames: everything that arrived is looked at. -/
theorem received_good {s : State} {bytes rest0 rest1 : Bytes} {fs0 fs1 : List Spec.Frame} (h : Reading cfg s)
    (he : ∀ s a, env.throws s a = false) (hlen : (arrived s.past ++ bytes).length < 2 ^ 64)
    (h0 : arrived s.past = Spec.stream fs0 ++ rest0) (hr0 : ∀ f ∈ fs0, Spec.Readable cfg.decoder f)
    (hn0 : Spec.NoFrame rest0) (h1 : rest0 ++ bytes = Spec.stream fs1 ++ rest1)
    (hr1 : ∀ f ∈ fs1, Spec.Good cfg.decoder f) (hn1 : Spec.NoFrame rest1) :
    ∃ s', received cfg env bytes s = some s' ∧ looked s'.past = messages cfg.decoder (fs0 ++ fs1) ∧
      s'.reader = ⟨rest1, []⟩ := by
  rw [List.length_append] at hlen
  obtain ⟨gs, g1, g2, g3, g4⟩ := h (by omega)
  obtain ⟨rfl, hb⟩ := stream_unique cfg.decoder g1 hr0 hn0 g4 (g2.symm.trans h0)
  have hl1 : rest1.length < 2 ^ 64 := by
    have e1 := congrArg List.length h1
    have e2 := congrArg List.length h0
    rw [List.length_append, List.length_append] at e1
    rw [List.length_append] at e2
    omega
  have hc := Ts.chunk_returns cfg.decoder s.reader bytes fs1 (fun f hf => .inl (hr1 f hf)) rest1 hl1 hn1 (by rw [hb]; exact h1)
  rw [Ts.bodyErrors_good cfg.decoder fs1 hr1] at hc
  have hc' := (TsServer.readChunk_iff _ _ _ _ _).2 hc
  obtain ⟨l1, l2, k1, k2, k3, k4, k5⟩ := onMessages_reads (cfg := cfg) (env := env)
    (s.reader.queue ++ fs1.filterMap (Spec.delivered cfg.decoder))
    { (s.push (.chunk bytes)) with reader := ⟨rest1, s.reader.queue ++ fs1.filterMap (Spec.delivered cfg.decoder)⟩ } rfl
  have hl2 := k5 he
  subst hl2
  rw [List.append_nil] at k1
  refine ⟨_, ?_, ?_, k2⟩
  · unfold received
    simp only
    rw [show (s.push (.chunk bytes)).reader = s.reader from rfl, hc']
  · rw [k4, ← k1, messages_append, g3, List.map_append, List.append_assoc]
    rfl

end

theorem reading_run (cfg : Cfg) (env : Env) (is : List Input) : Reading cfg (run cfg env is .new).2 :=
  reading_run_from is (reading_new cfg)

theorem treated_run (cfg : Cfg) (env : Env) (is : List Input) : Treated (run cfg env is .new).2.past :=
  treated_run_from is (by intro l q m older e; exact absurd e (by simp [State.new]))

end Verif.TsClient
