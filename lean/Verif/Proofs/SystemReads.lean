import Verif.Proofs.SystemServer
import Verif.Proofs.RustReader
import Verif.Proofs.ServerIdentification
import Verif.Proofs.RustClientWhole
import Verif.Spec.TsStream
set_option autoImplicit false
/-!
What the server has looked at is in the bytes it got.
-/
namespace Verif.System

open Verif Verif.Server Verif.Spec

variable {P : Type} {cfg : Server.Cfg P} {opts : Server.Options} {env : Server.Env P}

theorem heard_append (u : Uuid) (a b : List (Server.Act P)) : heard u (a ++ b) = heard u b ++ heard u a := by
  induction a with
  | nil => simp [heard]
  | cons x a ih =>
    cases x <;> simp only [List.cons_append, heard, ih]
    split <;> simp

theorem heard_none {u : Uuid} {l : List (Server.Act P)} (h : ∀ m q, .got u m q ∉ l) : heard u l = [] := by
  induction l with
  | nil => rfl
  | cons x l ih =>
    have ih := ih (fun m q hm => h m q (List.mem_cons_of_mem _ hm))
    cases x <;> simp only [heard, ih]
    rename_i v m q
    rw [if_neg]
    rintro rfl
    exact h m q List.mem_cons_self

/-- From `s` to `s'` nothing of `u` is looked at, and if `u` is alive then it was so before, with the
same reader. -/
structure Still (u : Uuid) (s s' : Server.State P) : Prop where
  heard : heard u s'.past = heard u s.past
  alive : ∀ c', s'.find u = some c' → ∃ c, s.find u = some c ∧
    (c'.discredited = false → c.discredited = false ∧ c'.reader = c.reader)

theorem Still.refl (u : Uuid) (s : Server.State P) : Still u s s := ⟨rfl, fun c h => ⟨c, h, fun k => ⟨k, rfl⟩⟩⟩

theorem Still.trans {u : Uuid} {s t r : Server.State P} (h : Still u s t) (k : Still u t r) : Still u s r := by
  refine ⟨k.heard.trans h.heard, fun c hc => ?_⟩
  obtain ⟨c1, h1, h2⟩ := k.alive c hc
  obtain ⟨c2, k1, k2⟩ := h.alive c1 h1
  exact ⟨c2, k1, fun hd => ⟨(k2 (h2 hd).1).1, (h2 hd).2.trans (k2 (h2 hd).1).2⟩⟩

theorem Still.push {u : Uuid} {s : Server.State P} {a : Server.Act P} (ha : ∀ m q, a ≠ .got u m q) :
    Still u s (s.push a) := by
  refine ⟨?_, fun c h => ⟨c, h, fun k => ⟨k, rfl⟩⟩⟩
  have := heard_append u [a] s.past
  rw [heard_none (l := [a])] at this
  · simpa using this
  · intro m q hm
    exact ha m q (List.mem_singleton.1 hm).symm

theorem Still.of_find {u : Uuid} {s t : Server.State P} (h : t.find u = s.find u) (hp : t.past = s.past) :
    Still u s t := ⟨by rw [hp], fun c hc => ⟨c, by rw [← h]; exact hc, fun hd => ⟨hd, rfl⟩⟩⟩

theorem Still.set {u v : Uuid} {s : Server.State P} {c d : Consumer P} (hc : s.find v = some c)
    (hr : d.reader = c.reader) (hd : d.discredited = false → c.discredited = false) : Still u s (s.set v d) := by
  refine ⟨rfl, fun c' h => ?_⟩
  by_cases e : u = v
  · subst e
    rw [find_set_self hc] at h
    obtain rfl := Option.some.inj h
    exact ⟨c, hc, fun k => ⟨hd k, hr⟩⟩
  · rw [find_set_other e] at h
    exact ⟨c', h, fun k => ⟨k, rfl⟩⟩

/-- The piece leaves `u` still. -/
def IsStill (u : Uuid) (p : Proc P) : Prop := ∀ s, Still u s (p s).2

theorem IsStill.andThen {u : Uuid} {p q : Proc P} (hp : IsStill u p) (hq : IsStill u q) :
    IsStill u (p.andThen q) := by
  intro s
  have := hp s
  unfold Proc.andThen
  split
  · rename_i h; rw [h] at this; exact this.trans (hq _)
  · rename_i h; rw [h] at this; exact this
  · rename_i h; rw [h] at this; exact this

theorem IsStill.skip {u : Uuid} : IsStill u (.skip : Proc P) := fun s => .refl u s

theorem IsStill.ite {u : Uuid} {c : Prop} [Decidable c] {p q : Proc P} (hp : IsStill u p) (hq : IsStill u q) :
    IsStill u (if c then p else q) := by
  split
  · exact hp
  · exact hq

theorem IsStill.warned {u : Uuid} {p : Proc P} (hp : IsStill u p) : IsStill u (Server.warned p) := by
  intro s
  have := hp s
  unfold Server.warned
  split
  · rename_i h; rw [h] at this; exact this
  · rename_i h; rw [h] at this; exact this
  · rename_i h; rw [h] at this; exact this

theorem still_broadcast (u : Uuid) (o : Server.Out P) (us : List Uuid) (s : Server.State P) :
    Still u s (Server.broadcast env o us s) := by
  induction us generalizing s with
  | nil => exact .refl u s
  | cons v us ih => exact (Still.push (a := .send v 0 o _) (by simp)).trans (ih _)

theorem still_broadcastAll (u : Uuid) (cs : List (Ref × Cast P)) (s : Server.State P) :
    Still u s (Server.broadcastAll env cs s) := by
  induction cs generalizing s with
  | nil => exact .refl u s
  | cons c cs ih =>
    obtain ⟨r, us, p⟩ := c
    exact (still_broadcast u _ us s).trans (ih _)

theorem still_emitEvent (u : Uuid) (e : Flow.Event) (p : Option P) :
    IsStill u (Server.emitEvent cfg env e p) := by
  intro s
  unfold Server.emitEvent
  have h : Still u s (s.push (.event (e.reference.getD []))) := .push (by simp)
  dsimp only
  split
  · exact h
  · exact h
  · split
    · exact h
    · exact (h.trans (still_broadcastAll u _ _)).trans (.push (by simp))

theorem still_emitError (u : Uuid) (v : Option Uuid) : IsStill u (Server.emitError env v : Proc P) :=
  fun _ => .push (by simp)

theorem still_disconnect (u v : Uuid) : IsStill u (Server.disconnect env v : Proc P) := by
  intro s
  unfold Server.disconnect
  split
  · exact .refl u s
  · rename_i c hc
    split
    · exact .refl u s
    · exact (Still.set (d := { c with discredited := true }) hc rfl (by simp)).trans (.push (by simp))

theorem still_responsingErr (u v : Uuid) : IsStill u (Server.responsingErr env opts v : Proc P) := by
  unfold Server.responsingErr
  exact .andThen (.ite (still_disconnect u v) .skip) (.ite (still_emitError u _) .skip)

theorem still_kick (u v : Uuid) : IsStill u (Server.kick env v : Proc P) :=
  .andThen (still_disconnect u v) (still_emitError u _)

/-- After a kick the client is not alive. -/
theorem kick_dead {u : Uuid} {s : Server.State P} {c : Consumer P}
    (h : (Server.kick env u s).2.find u = some c) : c.discredited = true := by
  have key : ∀ {c}, (Server.disconnect env u s).2.find u = some c → c.discredited = true := by
    intro c h
    unfold Server.disconnect at h
    split at h
    · rename_i e; rw [e] at h; cases h
    · rename_i c0 hc
      split at h
      · rw [hc] at h; obtain rfl := Option.some.inj h; assumption
      · rw [find_push, find_set_self hc] at h
        obtain rfl := Option.some.inj h; rfl
  unfold Server.kick Proc.andThen at h
  split at h
  · rename_i e; rw [e] at key; exact key h
  · rename_i e; rw [e] at key; exact key h
  · rename_i e; rw [e] at key; exact key h

theorem setKey_discredited (merge : P → P → P) (c : Consumer P) (k : P) (o : Bool) :
    (c.setKey merge k o).discredited = c.discredited := by
  unfold Consumer.setKey
  split <;> rfl

theorem assign_discredited (merge : P → P → P) (c : Consumer P) (k : P) (o : Bool) :
    (c.assign merge k o).discredited = c.discredited ∧ (c.assign merge k o).reader = c.reader := by
  unfold Consumer.assign
  split <;> exact ⟨rfl, rfl⟩

theorem find_insert_other {s : Server.State P} {u v : Uuid} (h : v ≠ u) :
    (Server.insert v s).2.find u = s.find u := by
  show (s.consumers ++ [(v, Consumer.new)]).lookup u = s.consumers.lookup u
  generalize s.consumers = l
  induction l with
  | nil =>
    have : (u == v) = false := by simp; exact fun e => h e.symm
    simp [List.lookup_cons, this]
  | cons p l ih =>
    obtain ⟨x, c⟩ := p
    rw [List.cons_append, List.lookup_cons, List.lookup_cons, ih]

/-- Events that are not about `u` leave it still. -/
theorem still_step {u : Uuid} (i : Server.Input P) (h1 : i ≠ .connected u) (h2 : ∀ b, i ≠ .received u b) :
    IsStill u (Server.step cfg env opts i) := by
  cases i with
  | ready => exact fun s => .push (by simp)
  | connected v =>
    have hv : v ≠ u := fun e => h1 (by rw [e])
    intro s
    show Still u s (Server.addConnection cfg env v s).2
    unfold Server.addConnection
    split
    · exact .refl u s
    · refine IsStill.andThen (IsStill.warned (still_emitEvent u _ _)) (fun s => ?_) s
      have h3 := find_insert_other (s := s) hv
      refine ⟨?_, fun c hc => ⟨c, by rw [← h3]; exact hc, fun hd => ⟨hd, rfl⟩⟩⟩
      exact (Still.push (s := { s with consumers := _, confirms := _ }) (a := .opened v) (by simp)).heard
  | disconnected v =>
    intro s
    show Still u s (Server.removeConnection cfg env v s).2
    unfold Server.removeConnection
    split
    · exact .refl u s
    · refine Still.trans (t := ({ s with consumers := s.consumers.filter (fun p => p.1 ≠ v) } : Server.State P).push (.closed v)) ?_
        (IsStill.warned (still_emitEvent u _ _) _)
      refine Still.trans (t := { s with consumers := s.consumers.filter (fun p => p.1 ≠ v) }) ?_ (.push (by simp))
      refine ⟨rfl, fun c hc => ⟨c, ?_, fun hd => ⟨hd, rfl⟩⟩⟩
      by_cases e : u = v
      · subst e
        have : (s.consumers.filter (fun p => p.1 ≠ u)).lookup u = some c := hc
        rw [lookup_filter_self] at this
        cases this
      · have : (s.consumers.filter (fun p => p.1 ≠ v)).lookup u = some c := hc
        rw [lookup_filter_other _ _ _ e] at this
        exact this
  | received v b =>
    intro s
    have hv : u ≠ v := fun e => h2 b (by rw [e])
    have hl := received_local (cfg := cfg) (opts := opts) env v b s
    obtain ⟨l, hp, ha⟩ := hl.past
    refine ⟨?_, fun c hc => ⟨c, by rw [← hl.others u hv]; exact hc, fun hd => ⟨hd, rfl⟩⟩⟩
    show heard u (received cfg env opts v b s).2.past = _
    rw [hp, heard_append, heard_none (l := l), List.append_nil]
    intro m q hm
    exact hv (ha _ hm)
  | serverEvent v => exact still_emitError u v
  | event ref p =>
    unfold Server.step
    dsimp only
    split
    · exact IsStill.warned (still_emitEvent u _ _)
    · exact .skip
  | setKey v k o =>
    intro s
    unfold Server.step
    dsimp only
    split
    · rename_i c hc
      exact (Still.set hc (setKey_reader _ _ _ _) (by rw [setKey_discredited]; exact id)).trans (.push (by simp))
    · exact still_emitError u _ s
  | setAssigned v k o =>
    intro s
    unfold Server.step
    dsimp only
    split
    · rename_i c hc
      have := assign_discredited cfg.mergeAssigned c k o
      exact (Still.set hc this.2 (by rw [this.1]; exact id)).trans (.push (by simp))
    · exact still_emitError u _ s
  | confirm =>
    intro s
    unfold Server.step
    dsimp only
    split
    · exact .refl u s
    · rename_i v vs _
      have h0 : Still u s { s with confirms := vs } := .of_find rfl rfl
      refine h0.trans ?_
      unfold Server.confirmation
      split
      · exact still_emitError u _ _
      · rename_i c hc
        have h1 : Still u { s with confirms := vs } ((({ s with confirms := vs } : Server.State P).set v { c with confirmed := true }).push
            (.confirmed v)) := (Still.set (d := { c with confirmed := true }) hc rfl id).trans
            (Still.push (u := u) (a := Act.confirmed v) (by simp))
        dsimp only
        split
        · exact h1
        · have h2 := h1.trans (Still.push (u := u) (s := (({ s with confirms := vs } : Server.State P).set v { c with confirmed := true }).push
            (.confirmed v)) (a := .send v 0 .confirmation
            (env.send ((({ s with confirms := vs } : Server.State P).set v { c with confirmed := true }).push
            (.confirmed v)) v 0 .confirmation)) (by simp))
          split
          · rename_i e; exact (congrArg Prod.snd e) ▸ h2
          · rename_i e; exact (congrArg Prod.snd e) ▸ h2
  | shutdown => exact .skip
  | stop => exact .skip

theorem still_none {u : Uuid} {s s' : Server.State P} (h : Still u s s') (hn : s.find u = none) :
    s'.find u = none := by
  cases hc : s'.find u with
  | none => rfl
  | some c =>
    obtain ⟨c', h1, _⟩ := h.alive c hc
    rw [hn] at h1
    cases h1

/-- A new connection. -/
theorem opened_step {u : Uuid} {s : Server.State P} (hn : s.find u = none) :
    heard u (Server.step cfg env opts (.connected u) s).2.past = heard u s.past ∧
    ∀ c, (Server.step cfg env opts (.connected u) s).2.find u = some c → c.reader = ⟨[], []⟩ := by
  show heard u (Server.addConnection cfg env u s).2.past = heard u s.past ∧
    ∀ c, (Server.addConnection cfg env u s).2.find u = some c → c.reader = ⟨[], []⟩
  unfold Server.addConnection
  split
  · exact ⟨rfl, fun c hc => by rw [hn] at hc; cases hc⟩
  · have h1 := IsStill.warned (still_emitEvent (cfg := cfg) (env := env) u (Server.defaultEvent cfg "connected".toList) none) s
    unfold Proc.andThen
    have key : ∀ t : Server.State P, Still u s t → heard u (Server.insert u t).2.past = heard u s.past ∧
        ∀ c, (Server.insert u t).2.find u = some c → c.reader = ⟨[], []⟩ := by
      intro t ht
      refine ⟨?_, fun c hc => ?_⟩
      · exact (Still.push (s := { t with consumers := _, confirms := _ }) (a := .opened u) (by simp)).heard.trans ht.heard
      · have h2 := still_none ht hn
        have h3 : (t.consumers ++ [(u, Consumer.new)]).lookup u = some c := hc
        rw [List.lookup_append] at h3
        rw [show t.consumers.lookup u = none from h2] at h3
        simp at h3
        rw [← h3]
        rfl
    have stop : ∀ t : Server.State P, Still u s t → heard u t.past = heard u s.past ∧
        ∀ c, t.find u = some c → c.reader = ⟨[], []⟩ := by
      intro t ht
      exact ⟨ht.heard, fun c hc => by rw [still_none ht hn] at hc; cases hc⟩
    split
    · rename_i e; rw [e] at h1; exact key _ h1
    · rename_i e; rw [e] at h1; exact stop _ h1
    · rename_i e; rw [e] at h1; exact stop _ h1

/-! ### Data of a client -/

/-- What a message says, with its number. -/
def tagged {T : Type} (x : Rust.Income T) : UInt32 × T := (x.header.sequence, x.msg)

theorem looked_onMessages {u : Uuid} {a k : Bool} (ms : List (Rust.Income (Server.In P))) {s : Server.State P}
    (h : (s.find u).isSome = true) :
    ∃ pre post, ms = pre ++ post ∧
      heard u (onMessages cfg env opts u a k ms s).2.past = heard u s.past ++ pre.map tagged ∧
      ((onMessages cfg env opts u a k ms s).1 = .ok () → post = []) := by
  induction ms generalizing s with
  | nil => exact ⟨[], [], rfl, by simp [onMessages, Proc.skip], fun _ => rfl⟩
  | cons m ms ih =>
    have hloc := onMessage_local (cfg := cfg) (opts := opts) env u a k m.msg m.header.sequence s
    have hh : heard u (onMessage cfg env opts u a k m.msg m.header.sequence s).2.past =
        heard u s.past ++ [tagged m] := by
      have key : ∀ {t : Server.State P}, Local (Inner u) u (s.push (.got u m.msg m.header.sequence)) t →
          heard u t.past = heard u s.past ++ [tagged m] := by
        intro t ht
        obtain ⟨l, hl, hi⟩ := ht.past
        rw [hl, heard_append, heard_none (l := l)]
        · simp [heard, tagged]
        · intro m q hm
          exact hi _ hm
      unfold onMessage
      split
      · rename_i e; rw [e] at h; cases h
      · dsimp only
        split
        · rename_i e; exact key (onHash_local env u _ _ _ _ _)
        · rename_i e
          split
          · exact key (onSelfKey_local env u _ _ _ _)
          · exact key (onOther_local env u _ _ _ _ _ _ _)
    rw [onMessages]
    unfold Proc.andThen
    split
    · rename_i s1 e
      rw [e] at hloc hh
      have h1 : (s1.find u).isSome = true := by
        rw [find_isSome_iff] at h ⊢
        rw [hloc.keys]
        exact h
      obtain ⟨pre, post, e1, e2, e3⟩ := ih h1
      refine ⟨m :: pre, post, by rw [e1]; rfl, ?_, e3⟩
      rw [e2, hh]
      simp
    · rename_i s1 e
      rw [e] at hh
      exact ⟨[m], ms, rfl, by rw [hh]; rfl, by simp⟩
    · rename_i s1 e
      rw [e] at hh
      exact ⟨[m], ms, rfl, by rw [hh]; rfl, by simp⟩

theorem disc_onMessages_reader {u : Uuid} {a k : Bool} (ms : List (Rust.Income (Server.In P))) {s : Server.State P}
    {c d : Consumer P} (h : s.find u = some c)
    (hd : (onMessages cfg env opts u a k ms s).2.find u = some d) : d.reader = c.reader := by
  obtain ⟨d', h1, h2⟩ := onMessages_reader (cfg := cfg) (env := env) (opts := opts) (a := a) (k := k) ms h rfl
  rw [hd] at h1
  obtain rfl := Option.some.inj h1
  exact h2

theorem noFrame_nil : NoFrame [] := by
  intro f _ h
  have := h.length_le
  rw [Rust.frame_length] at this
  simp at this

/-- What the server looked at, of the bytes of `u` it got. -/
structure Heard (d : Rust.Decoder (Server.In P)) (u : Uuid) (G : Bytes) (running : Prop) (s : Server.State P) :
    Prop where
  part : ∃ fs b rest, (∀ f ∈ fs, f.Ok) ∧ G = stream fs ++ b ∧
    (fs.filterMap (Spec.delivered d)).map tagged = heard u s.past ++ rest
  alive : running → ∀ c, s.find u = some c → c.discredited = false →
    ∃ fs, (∀ f ∈ fs, f.Ok) ∧ G = stream fs ++ c.reader.buffer ∧
      (fs.filterMap (Spec.delivered d)).map tagged = heard u s.past ++ c.reader.queue.map tagged ∧
      ((NoFrame c.reader.buffer ∧ c.reader.queue = []) ∨ ∃ f ∈ fs, Spec.delivered d f = none)

theorem Heard.more {d : Rust.Decoder (Server.In P)} {u : Uuid} {G : Bytes} {running : Prop} {s : Server.State P}
    (h : Heard d u G running s) (b : Bytes) : ∃ fs b' rest, (∀ f ∈ fs, Frame.Ok f) ∧ G ++ b = stream fs ++ b' ∧
      (fs.filterMap (Spec.delivered d)).map tagged = heard u s.past ++ rest := by
  obtain ⟨fs, b', rest, h1, h2, h3⟩ := h.part
  exact ⟨fs, b' ++ b, rest, h1, by rw [h2, List.append_assoc], h3⟩

theorem Heard.still {d : Rust.Decoder (Server.In P)} {u : Uuid} {G : Bytes} {running : Prop}
    {s s' : Server.State P} (h : Heard d u G True s) (k : Still u s s') : Heard d u G running s' := by
  refine ⟨by rw [k.heard]; exact h.part, fun _ c hc hd => ?_⟩
  obtain ⟨c0, h1, h2⟩ := k.alive c hc
  obtain ⟨h2, h3⟩ := h2 hd
  rw [k.heard, h3]
  exact h.alive trivial c0 h1 h2

/-- One piece of data. -/
theorem heard_received {u : Uuid} {G : Bytes} {s : Server.State P} (bytes : Bytes)
    (h : Heard cfg.decoder u G True s) :
    Heard cfg.decoder u (G ++ bytes) ((received cfg env opts u bytes s).1 = .ok ())
      (received cfg env opts u bytes s).2 := by
  have hs : Still u s (s.push (.chunk u)) := .push (by simp)
  have dead : ∀ {t : Server.State P} {R : Prop}, heard u t.past = heard u s.past →
      (R → ∀ c, t.find u = some c → c.discredited = true) → Heard cfg.decoder u (G ++ bytes) R t := by
    intro t R e1 e2
    refine ⟨by rw [e1]; exact h.more bytes, fun hr c hc hd => ?_⟩
    rw [e2 hr c hc] at hd
    cases hd
  unfold received
  dsimp only
  split
  · rename_i hn
    have k := hs.trans (still_responsingErr (env := env) (opts := opts) u u _)
    refine dead k.heard (fun _ c hc => ?_)
    have hl := responsingErr_local (opts := opts) env u (s.push (.chunk u))
    have : (((responsingErr env opts u (s.push (.chunk u))).2.find u).isSome = true) := by rw [hc]; rfl
    rw [find_isSome_iff, hl.keys, ← find_isSome_iff, hn] at this
    cases this
  · rename_i c hc
    split
    · exact dead (hs.trans (still_kick (env := env) u u _)).heard (fun _ c hc => kick_dead hc)
    · split
      · rename_i hd
        refine dead hs.heard (fun _ c' hc' => ?_)
        rw [hc] at hc'
        obtain rfl := Option.some.inj hc'
        exact hd
      · rename_i hd
        obtain ⟨fs, h1, h2, h3, h5⟩ := h.alive trivial c hc (by simpa using hd)
        have took : ∀ {r res}, Rust.chunk cfg.decoder c.reader bytes = (res, r) → res ≠ .panic →
            ∃ fs', (∀ f ∈ fs', f.Ok) ∧ G ++ bytes = stream fs' ++ r.buffer ∧
              (fs'.filterMap (Spec.delivered cfg.decoder)).map tagged = heard u s.past ++ r.queue.map tagged ∧
              (res ≠ .ok → ∃ f ∈ fs', Spec.delivered cfg.decoder f = none) := by
          intro r res e hp
          unfold Rust.chunk at e
          obtain ⟨gs, k⟩ := Rust.chunkLoop_took cfg.decoder _ ⟨c.reader.buffer ++ bytes, c.reader.queue⟩
            (by rw [e]; exact hp)
          rw [e] at k
          refine ⟨fs ++ gs, ?_, ?_, ?_, ?_⟩
          · intro f hf
            rcases List.mem_append.1 hf with hf | hf
            · exact h1 f hf
            · exact k.ok f hf
          · have := k.buffer
            simp only at this
            rw [h2, List.append_assoc, this, Rust.stream_append, List.append_assoc]
          · have := k.queue
            simp only at this
            rw [List.filterMap_append, List.map_append, h3, this, List.map_append, List.append_assoc]
          · intro hne
            cases res with
            | ok => exact absurd rfl hne
            | panic => exact absurd rfl hp
            | signature =>
              obtain ⟨xs, f, rfl, _, k2⟩ := k.whenSignature rfl
              exact ⟨f, by simp, by simp [Spec.delivered, k2]⟩
            | parsing =>
              obtain ⟨xs, f, rfl, _, _, k2⟩ := k.whenParsing rfl
              exact ⟨f, by simp, by simp [Spec.delivered, k2]⟩
        split
        · refine dead hs.heard ?_
          intro e; cases e
        · rename_i r e
          obtain ⟨fs', k1, k2, k3, _⟩ := took e (by simp)
          have hf : ((s.push (.chunk u)).set u { c with reader := ⟨r.buffer, []⟩ }).find u =
              some { c with reader := ⟨r.buffer, []⟩ } := find_set_self (d := c) hc
          obtain ⟨pre, post, e1, e2, e3⟩ := looked_onMessages (cfg := cfg) (env := env) (opts := opts)
            (a := c.isAssigned opts.identification) (k := c.key.isSome) r.queue (u := u)
            (s := (s.push (.chunk u)).set u { c with reader := ⟨r.buffer, []⟩ }) (by rw [hf]; rfl)
          have e2' := e2
          rw [past_set, hs.heard] at e2'
          refine ⟨⟨fs', r.buffer, post.map tagged, k1, k2, ?_⟩, fun hr c' hc' hd' => ?_⟩
          · rw [e2', k3, e1]; simp
          · have hrd := disc_onMessages_reader _ hf hc'
            refine ⟨fs', k1, ?_, ?_, .inl ?_⟩
            · rw [hrd]; exact k2
            · rw [e2', hrd, k3, e1, e3 hr]; simp
            · rw [hrd]
              refine ⟨fun f hf hp => ?_, rfl⟩
              obtain ⟨t, ht⟩ := hp
              exact Rust.chunk_ok_whole e ⟨f, t, hf, ht.symm⟩
        · rename_i res r e1 e2 e
          have hres : res ≠ .panic := fun x => e1 x
          obtain ⟨fs', k1, k2, k3, k4⟩ := took e hres
          have h4 : Heard cfg.decoder u (G ++ bytes) True ((s.push (.chunk u)).set u { c with reader := r }) := by
            refine ⟨⟨fs', r.buffer, r.queue.map tagged, k1, k2, by rw [past_set, hs.heard, k3]⟩, fun _ c' hc' _ => ?_⟩
            rw [find_set_self (d := c) hc] at hc'
            obtain rfl := Option.some.inj hc'
            exact ⟨fs', k1, k2, by rw [past_set, hs.heard, k3], .inr (k4 (fun x => e2 x))⟩
          exact h4.still (still_responsingErr u u _)

end Verif.System
