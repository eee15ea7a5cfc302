import Verif.Proofs.NetworkInv
import Verif.Proofs.TsServerServe
import Verif.Proofs.TsServerInv2
import Verif.Proofs.TsClientRead
import Verif.Spec.NetworkTsTs
set_option autoImplicit false
/-!
The TypeScript server as a program of `Model.Network`.
-/
namespace Verif.Network

open Verif Verif.Spec Verif.TsServer

variable {cfg : TsServer.Cfg} {env : TsServer.Env} {opts : Server.Options}
  {takes : List TsServer.Act → Uuid → UInt32 → TsServer.Out → Bool}
  {pack : UInt64 → UInt32 → TsServer.Out → Bytes}

/-! ### What was sent -/

theorem tsServerSent_grows (l h : List TsServer.Act) : ∃ k, tsServerSent takes (l ++ h) = tsServerSent takes h ++ k := by
  induction l with
  | nil => exact ⟨[], by simp⟩
  | cons x l ih =>
    obtain ⟨k, ih⟩ := ih
    cases x with
    | send f u q o => exact ⟨k ++ _, by rw [List.cons_append, tsServerSent, ih, List.append_assoc]⟩
    | _ => exact ⟨k, by simpa [tsServerSent] using ih⟩

theorem mem_tsServerSent {u : Uuid} {q : UInt32} {o : TsServer.Out} {h : List TsServer.Act} (hm : (u, q, o) ∈ tsServerSent takes h) :
    ∃ f, .send f u q o ∈ h := by
  induction h with
  | nil => cases hm
  | cons x h ih =>
    cases x with
    | send f v q' o' =>
      rw [tsServerSent, List.mem_append] at hm
      rcases hm with hm | hm
      · obtain ⟨g, hg⟩ := ih hm
        exact ⟨g, List.mem_cons_of_mem _ hg⟩
      · split at hm
        · cases List.mem_singleton.1 hm
          exact ⟨f, List.mem_cons_self⟩
        · cases hm
    | _ =>
      obtain ⟨g, hg⟩ := ih (by simpa [tsServerSent] using hm)
      exact ⟨g, List.mem_cons_of_mem _ hg⟩

theorem sendsTo_tsServerSent (u : Uuid) (h : List TsServer.Act) : sendsTo u (tsServerSent takes h) = tsPosted takes u h := by
  induction h with
  | nil => rfl
  | cons x h ih =>
    cases x with
    | send f v q o =>
      simp only [tsServerSent, tsPosted, sendsTo_append, ih]
      by_cases h1 : takes h v q o = true
      · rw [if_pos h1]
        by_cases h2 : v = u
        · subst h2; simp [sendsTo, h1]
        · simp [sendsTo, h2]
      · rw [if_neg h1, if_neg (fun k => h1 k.2)]; rfl
    | _ => simpa [tsServerSent, tsPosted] using ih

theorem mem_tsPosted {u : Uuid} {q : UInt32} {o : TsServer.Out} {h : List TsServer.Act} (hm : (q, o) ∈ tsPosted takes u h) :
    ∃ f, .send f u q o ∈ h := by
  rw [← sendsTo_tsServerSent] at hm
  exact mem_tsServerSent (mem_sendsTo.1 hm)

theorem tsHeard_gots (u : Uuid) (h : List TsServer.Act) : tsHeard u h = (gots u h).reverse.map (fun x => (x.2, x.1)) := by
  induction h with
  | nil => rfl
  | cons x h ih =>
    cases x with
    | got v m q =>
      simp only [tsHeard, gots, ih]
      split <;> simp
    | _ => simpa [tsHeard, gots] using ih

theorem mem_tsHeard {u : Uuid} {q : UInt32} {m : TsServer.Msg} {h : List TsServer.Act} :
    (q, m) ∈ tsHeard u h ↔ .got u m q ∈ h := by
  induction h with
  | nil => simp [tsHeard]
  | cons x h ih =>
    cases x with
    | got v m' q' =>
      rw [tsHeard, List.mem_append, ih, List.mem_cons]
      by_cases e : v = u
      · subst e; simp [or_comm, and_comm]
      · simp [e, Ne.symm e]
    | _ => simp [tsHeard, ih]

theorem tsHeard_append (u : Uuid) (l h : List TsServer.Act) : tsHeard u (l ++ h) = tsHeard u h ++ tsHeard u l := by
  induction l with
  | nil => simp [tsHeard]
  | cons x l ih => cases x <;> simp [tsHeard, ih]

theorem tsHeard_none {u : Uuid} {l : List TsServer.Act} (h : ∀ m q, .got u m q ∉ l) : tsHeard u l = [] := by
  induction l with
  | nil => rfl
  | cons x l ih =>
    have ih := ih (fun m q k => h m q (List.mem_cons_of_mem _ k))
    cases x with
    | got v m q =>
      rw [tsHeard, ih, if_neg, List.append_nil]
      rintro rfl
      exact h m q List.mem_cons_self
    | _ => exact ih

theorem tsHeard_extend {u : Uuid} {l h : List TsServer.Act} (hl : ∀ m q, .got u m q ∉ l) : tsHeard u (l ++ h) = tsHeard u h := by
  rw [tsHeard_append, tsHeard_none hl, List.append_nil]

/-! ### Events and inputs -/

theorem tsServer_step (e : ServerEvent TsServer.Input) (s : Bool × TsServer.State) :
    ((tsServer cfg env opts takes pack).step e s = s ∧ (tsInput e = none ∨ s.1 = true)) ∨
    ∃ i, tsInput e = some i ∧ s.1 = false ∧ (tsServer cfg env opts takes pack).step e s = TsServer.run cfg env opts [i] s.2 := by
  obtain ⟨x, s⟩ := s
  unfold tsServer
  dsimp only
  cases tsInput e with
  | none => exact .inl ⟨rfl, .inl rfl⟩
  | some i =>
    cases x with
    | true => exact .inl ⟨rfl, .inr rfl⟩
    | false => exact .inr ⟨i, rfl, rfl, rfl⟩

theorem ts_run_one (i : TsServer.Input) (s : TsServer.State) :
    (TsServer.run cfg env opts [i] s).2 = (TsServer.step cfg env opts i s).2 ∧
    ((TsServer.run cfg env opts [i] s).1 = true ↔ (TsServer.step cfg env opts i s).1 = .hung) := by
  unfold TsServer.run
  split
  · rename_i s' e
    rw [e]; exact ⟨rfl, by simp⟩
  · rename_i x s' hx e
    rw [e]; exact ⟨rfl, ⟨fun k => (by cases k), fun k => absurd k (by
      intro k; exact hx (by simpa using k))⟩⟩

theorem tsInput_own {e : ServerEvent TsServer.Input} {i : TsServer.Input} (h : tsInput e = some i) {u : Uuid}
    (he : ¬ Touches u e) : i ≠ .connected u ∧ ∀ b, i ≠ .received u b := by
  cases e with
  | opened v =>
    cases h
    refine ⟨?_, by simp⟩
    rintro k
    cases k
    exact he (.inl rfl)
  | closed v => cases h; simp
  | data v b =>
    cases h
    refine ⟨by simp, ?_⟩
    rintro b' k
    cases k
    exact he (.inr ⟨b, rfl⟩)
  | own j =>
    cases j <;> cases h <;> simp

theorem tsServer_grows (e : ServerEvent TsServer.Input) (s : Bool × TsServer.State) :
    ∃ l, ((tsServer cfg env opts takes pack).step e s).2.past = l ++ s.2.past := by
  rcases tsServer_step (cfg := cfg) (env := env) (opts := opts) (takes := takes) (pack := pack) e s with ⟨h, _⟩ | ⟨i, _, _, h⟩
  · exact ⟨[], by rw [h]; rfl⟩
  · rw [h]; exact run_grows [i] s.2

theorem tsServer_sent (e : ServerEvent TsServer.Input) (s : Bool × TsServer.State) :
    ∃ l, (tsServer cfg env opts takes pack).sent ((tsServer cfg env opts takes pack).step e s) =
      (tsServer cfg env opts takes pack).sent s ++ l := by
  obtain ⟨l, h⟩ := tsServer_grows (cfg := cfg) (env := env) (opts := opts) (takes := takes) (pack := pack) e s
  obtain ⟨k, hk⟩ := tsServerSent_grows (takes := takes) l s.2.past
  refine ⟨k, ?_⟩
  rw [← hk, ← h]

/-! ### Reading -/

/-- The reader cannot go on: there is no complete frame, or one it throws on. -/
def Stuck {T : Type} (d : Rust.Decoder T) (b : Bytes) : Prop :=
  NoFrame b ∨ ∃ f rest, Throwing d f ∧ b = f.bytes ++ rest

/-- What the server knows of the data of a client. -/
structure TsHears (d : Rust.Decoder TsServer.Msg) (u : Uuid) (data : Bytes) (live : Prop) (s : TsServer.State) : Prop where
  part : ReadsOf d data (tsHeard u s.past)
  rest : live → ∀ c, s.find u = some c → c.discredited = false → ∃ fs, (∀ f ∈ fs, Frame.Ok f) ∧
    data = stream fs ++ c.reader.buffer ∧
    (fs.filterMap (Spec.delivered d)).map System.tagged = tsHeard u s.past ++ c.reader.queue.map System.tagged ∧
    Stuck d c.reader.buffer

theorem ReadsOf.more {T : Type} {d : Rust.Decoder T} {bytes : Bytes} {looked : List (UInt32 × T)} (h : ReadsOf d bytes looked) (b : Bytes) :
    ReadsOf d (bytes ++ b) looked := by
  obtain ⟨fs, x, rest, h1, h2, h3⟩ := h
  exact ⟨fs, x ++ b, rest, h1, by rw [h2, List.append_assoc], h3⟩

/-- Pieces of the server that leave the reader of `u` alone. -/
theorem TsHears.framed {d : Rust.Decoder TsServer.Msg} {u : Uuid} {data : Bytes} {live : Prop} {s s' : TsServer.State} {Q : Act → Prop}
    {U G : Uuid → Prop} {l : List Act} (h : TsHears d u data live s) (hf : TsServer.Framed Q U G l s s') (hu : ¬ U u) (hg : ¬ G u)
    (hq : ∀ m q, ¬ Q (.got u m q)) {live' : Prop} (hl : live' → live) : TsHears d u data live' s' := by
  have e : tsHeard u s'.past = tsHeard u s.past := by
    rw [hf.past]
    refine tsHeard_extend (fun m q k => ?_)
    rcases hf.acts _ k with k | ⟨v, k⟩
    · exact hq m q k
    · rcases k with k | k | k <;> cases k
  refine ⟨by rw [e]; exact h.part, fun k c hc hd => ?_⟩
  have := hf.same u hg
  cases hs : s.find u with
  | none => rw [hs, hc] at this; cases this
  | some c0 =>
    obtain ⟨c1, h1, h2⟩ := hf.still u hu c0 hs
    cases hc.symm.trans h1
    have : c0.discredited = false := by
      cases h3 : c0.discredited with
      | false => rfl
      | true => rw [h2.kept h3] at hd; cases hd
    rw [e, h2.reader]
    exact h.rest (hl k) c0 hs this

/-- The reader of a client after a message was looked at. -/
theorem onMessage_reader {u : Uuid} {c : Consumer} {m : TsServer.Msg} {q : UInt32} {s : TsServer.State} (hc : s.find u = some c) :
    ∃ d, (onMessage cfg env opts u c m q s).2.find u = some d ∧ d.reader = c.reader := by
  have still : ∀ {p : Proc} {c' : Consumer} {s' : TsServer.State}, Frames Any No No p → s'.find u = some c' → c'.reader = c.reader →
      ∃ d, (p s').2.find u = some d ∧ d.reader = c.reader := by
    intro p c' s' hp h1 h2
    obtain ⟨l, hl⟩ := hp s'
    obtain ⟨d, h3, h4⟩ := hl.still u (fun k => k) c' h1
    exact ⟨d, h3, h4.reader.trans h2⟩
  have kicks : Frames Any No No (kick cfg env u) := by
    unfold kick
    exact frames_andThen (frames_note trivial) (frames_callUser trivial)
  have hk : ∀ k, ∃ d, (onSelfKey cfg u c k q s).2.find u = some d ∧ d.reader = c.reader := by
    intro k
    unfold onSelfKey post
    have hk : (s.set u (c.setKey cfg.keyFields k true)).find u = some (c.setKey cfg.keyFields k true) := TsServer.find_set_self hc
    have hr : (c.setKey cfg.keyFields k true).reader = c.reader := by
      unfold Consumer.setKey; split <;> rfl
    split
    · exact ⟨_, hk, hr⟩
    · exact ⟨_, hk, hr⟩
  have hh : ∀ b, ∃ d, (onHash cfg env u c b q s).2.find u = some d ∧ d.reader = c.reader := by
    intro b
    unfold onHash
    by_cases hp : cfg.packs (.hash !rightHash cfg b) = true
    · have e1 : post cfg .handshake u q (.hash !rightHash cfg b) s = (.next, s.push (.send .handshake u q (.hash !rightHash cfg b))) := by
        unfold post; rw [if_pos hp]
      unfold Proc.andThen
      rw [e1]
      dsimp only
      by_cases hr : rightHash cfg b = true
      · rw [if_pos hr]
        exact ⟨_, TsServer.find_set_self (d := c) hc, rfl⟩
      · rw [if_neg hr]
        exact still kicks hc rfl
    · have e1 : post cfg .handshake u q (.hash !rightHash cfg b) s = (.thrown, s) := by
        unfold post; rw [if_neg hp]
      unfold Proc.andThen
      rw [e1]
      exact ⟨_, hc, rfl⟩
  have ho : ∃ d, (onOther cfg env opts u c m q s).2.find u = some d ∧ d.reader = c.reader := by
    unfold onOther
    split
    · exact still kicks hc rfl
    · split
      · exact still kicks hc rfl
      · rw [isAssigned_true]
        rw [if_neg (by simp)]
        refine still ?_ hc rfl
        unfold dispatch
        have hst : ∀ task a, Frames Any No No (start cfg env task a) := by
          intro task a s
          unfold start
          dsimp only
          obtain ⟨l, h⟩ := frame_enter (P := Any) (U := No) (G := No) (cfg := cfg) (env := env) (a := a s.next)
            (s := { s with tasks := s.tasks ++ [(s.next, task)], next := s.next + 1 }) trivial
          exact ⟨_, frame_trans (frame_tasks (s := s) _ (s.next + 1)) h⟩
        split
        · exact hst _ _
        · split
          · exact hst _ _
          · exact frames_andThen (frames_receivingErr trivial trivial trivial) (fun s => ⟨[], frame_refl⟩)
  unfold onMessage
  cases h1 : m.extract cfg.selfKey <;> cases h2 : c.hash <;> cases h3 : m.extract hashRequest
  · exact ho
  · exact hh _
  · exact ho
  · exact hh _
  · exact hk _
  · exact hk _
  · exact ho
  · exact hh _

theorem onMessages_heard {u : Uuid} : ∀ (ms : List (Rust.Income TsServer.Msg)) (s : TsServer.State) (c : Consumer) (buf : Bytes),
    s.find u = some c → c.reader = ⟨buf, ms⟩ →
    ∃ l1 l2 d, ms = l1 ++ l2 ∧ (onMessages cfg env opts u ms s).2.find u = some d ∧ d.reader = ⟨buf, l2⟩ ∧
      tsHeard u (onMessages cfg env opts u ms s).2.past = tsHeard u s.past ++ l1.map System.tagged
  | [], s, c, buf, hc, hr => ⟨[], [], c, rfl, hc, hr, by simp [onMessages, Proc.skip]⟩
  | m :: ms, s, c, buf, hc, hr => by
    unfold onMessages
    rw [hc]
    dsimp only
    have h0 : ((s.set u { c with reader := ⟨c.reader.buffer, ms⟩ }).push (.got u m.msg m.header.sequence)).find u =
        some { c with reader := ⟨c.reader.buffer, ms⟩ } := TsServer.find_set_self (d := c) hc
    obtain ⟨d, h1, h2⟩ := onMessage_reader (cfg := cfg) (env := env) (opts := opts) (m := m.msg) (q := m.header.sequence) h0
    obtain ⟨l, hl⟩ := frames_onMessage (G := fun _ => False) (cfg := cfg) (env := env) (opts := opts)
      (u := u) (c := { c with reader := ⟨c.reader.buffer, ms⟩ }) (m := m.msg) (seq := m.header.sequence)
      ((s.set u { c with reader := ⟨c.reader.buffer, ms⟩ }).push (.got u m.msg m.header.sequence))
    have h3 : tsHeard u (onMessage cfg env opts u { c with reader := ⟨c.reader.buffer, ms⟩ } m.msg m.header.sequence
        ((s.set u { c with reader := ⟨c.reader.buffer, ms⟩ }).push (.got u m.msg m.header.sequence))).2.past =
        tsHeard u s.past ++ [System.tagged m] := by
      rw [hl.past, tsHeard_extend]
      · simp [tsHeard, System.tagged, State.push, State.set]
      · intro x q k
        rcases hl.acts _ k with k | ⟨v, k⟩
        · exact k.2.1 _ _ _ rfl
        · rcases k with k | k | k <;> cases k
    have h4 : d.reader = ⟨buf, ms⟩ := by rw [h2, hr]
    unfold Proc.andThen
    dsimp only
    split
    · rename_i s' e
      rw [e] at h1 h3
      obtain ⟨l1, l2, d', k1, k2, k3, k4⟩ := onMessages_heard ms s' d buf h1 h4
      exact ⟨m :: l1, l2, d', by rw [k1]; rfl, k2, k3, by rw [k4, h3]; simp⟩
    · exact ⟨[m], ms, d, rfl, h1, h4, h3⟩

/-- Data of `u` arrives. -/
theorem TsHears.received {u : Uuid} {data bytes : Bytes} {s : TsServer.State} (h : TsHears cfg.decoder u data True s)
    (hlen : (data ++ bytes).length < 2 ^ 64) :
    TsHears cfg.decoder u (data ++ bytes) ((TsServer.received cfg env opts u bytes s).1 ≠ .hung)
      (TsServer.received cfg env opts u bytes s).2 := by
  have ne : ∀ (m : TsServer.Msg) (q : UInt32), ¬ Inner u (.got u m q) := fun m q k => k.2.1 _ _ _ rfl
  have err : ∀ k, Frames (Inner u) No No (receivingErr cfg env opts u k) := fun k =>
    frames_receivingErr ⟨rfl, by simp, by simp⟩ ⟨rfl, by simp, by simp⟩ ⟨trivial, by simp, by simp⟩
  have hc0 : tsHeard u (s.push (.chunk u)).past = tsHeard u s.past := rfl
  unfold TsServer.received
  dsimp only
  split
  · rename_i hn
    obtain ⟨l, hl⟩ := err false (s.push (.chunk u))
    have : TsHears cfg.decoder u (data ++ bytes) True (s.push (.chunk u)) :=
      ⟨by rw [hc0]; exact h.part.more _, fun _ c hc => by rw [hn] at hc; cases hc⟩
    exact this.framed hl id id ne (fun _ => trivial)
  · rename_i c hc
    split
    · rename_i hd
      obtain ⟨l, hl⟩ := err true (s.push (.chunk u))
      have : TsHears cfg.decoder u (data ++ bytes) True (s.push (.chunk u)) :=
        ⟨by rw [hc0]; exact h.part.more _, fun _ c' hc' hd' => by
          cases hc.symm.trans hc'; rw [hd] at hd'; cases hd'⟩
      exact this.framed hl id id ne (fun _ => trivial)
    · rename_i hd
      have hd : c.discredited = false := by simpa using hd
      obtain ⟨fs, k1, k2, k3, _⟩ := h.rest trivial c hc hd
      have read : ∀ {e : Ts.TsEnd} {r : Rust.Reader TsServer.Msg}, TsServer.readChunk cfg.decoder c.reader bytes = some (e, r) →
          ∃ gs, (∀ f ∈ gs, Frame.Ok f) ∧ data ++ bytes = stream gs ++ r.buffer ∧
            (gs.filterMap (Spec.delivered cfg.decoder)).map System.tagged = tsHeard u s.past ++ r.queue.map System.tagged ∧
            Stuck cfg.decoder r.buffer := by
        intro e r hr
        have hb : c.reader.buffer.length + bytes.length < 2 ^ 64 := by
          have := congrArg List.length k2
          rw [List.length_append] at this hlen
          omega
        obtain ⟨gs, g1, g2, g3, g4⟩ := Ts.chunk_ended cfg.decoder hb ((TsServer.readChunk_iff _ _ _ _ _).1 hr)
        refine ⟨fs ++ gs, ?_, ?_, ?_, g4.imp (fun k => k.1) (fun k => k.2)⟩
        · intro f hf
          rcases List.mem_append.1 hf with hf | hf
          · exact k1 f hf
          · rcases g1 f hf with k | k
            · exact k.1
            · exact k.1
        · rw [k2, List.append_assoc, g2, TsClient.stream_append, List.append_assoc]
        · rw [List.filterMap_append, List.map_append, k3, g3, List.map_append, List.append_assoc]
      have hset : ∀ r : Rust.Reader TsServer.Msg, ((s.push (.chunk u)).set u { c with reader := r }).find u = some { c with reader := r } :=
        fun r => TsServer.find_set_self (d := c) hc
      have done : ∀ {e : Ts.TsEnd} {r : Rust.Reader TsServer.Msg}, TsServer.readChunk cfg.decoder c.reader bytes = some (e, r) →
          TsHears cfg.decoder u (data ++ bytes) True ((s.push (.chunk u)).set u { c with reader := r }) := by
        intro e r hr
        obtain ⟨gs, g1, g2, g3, g5⟩ := read hr
        refine ⟨⟨gs, r.buffer, r.queue.map System.tagged, g1, g2, g3⟩, fun _ c' hc' _ => ?_⟩
        cases (hset r).symm.trans hc'
        exact ⟨gs, g1, g2, g3, g5⟩
      split
      · exact ⟨by rw [hc0]; exact h.part.more _, fun k => absurd rfl k⟩
      · rename_i r hr
        have := done hr
        exact ⟨this.part, fun _ => this.rest trivial⟩
      · rename_i r hr
        obtain ⟨l, hl⟩ := err true ((s.push (.chunk u)).set u { c with reader := r })
        exact (done hr).framed hl id id ne (fun _ => trivial)
      · rename_i r hr
        obtain ⟨gs, g1, g2, g3, g5⟩ := read hr
        obtain ⟨l1, l2, d, j1, j2, j3, j4⟩ := onMessages_heard (cfg := cfg) (env := env) (opts := opts) r.queue
          ((s.push (.chunk u)).set u { c with reader := r }) { c with reader := r } r.buffer (hset r) rfl
        have j4 : tsHeard u (onMessages cfg env opts u r.queue ((s.push (.chunk u)).set u { c with reader := r })).2.past =
          tsHeard u s.past ++ l1.map System.tagged := j4
        rw [j1, List.map_append, ← List.append_assoc, ← j4] at g3
        refine ⟨⟨gs, r.buffer, _, g1, g2, g3⟩, fun _ c' hc' _ => ?_⟩
        cases j2.symm.trans hc'
        exact ⟨gs, g1, by rw [j3]; exact g2, by rw [j3]; exact g3, by rw [j3]; exact g5⟩

/-- Other inputs. -/
theorem TsHears.other {u : Uuid} {data : Bytes} {s : TsServer.State} {i : TsServer.Input} {live : Prop}
    (h : TsHears cfg.decoder u data live s) (h1 : i ≠ .connected u) (h2 : ∀ b, i ≠ .received u b) :
    TsHears cfg.decoder u data live (TsServer.step cfg env opts i s).2 := by
  obtain ⟨l, hl⟩ := frames_step (cfg := cfg) (env := env) (opts := opts) i s
  have hq : ∀ m q, ¬ From i (.got u m q) := fun m q k => by
    obtain ⟨b, e⟩ := k.1 _ _ _ rfl
    exact h2 b e
  by_cases h3 : i = .disconnected u
  · subst h3
    have e : tsHeard u (TsServer.step cfg env opts (.disconnected u) s).2.past = tsHeard u s.past := by
      rw [hl.past]
      refine tsHeard_extend (fun m q k => ?_)
      rcases hl.acts _ k with k | ⟨v, k⟩
      · exact hq m q k
      · rcases k with k | k | k <;> cases k
    refine ⟨by rw [e]; exact h.part, fun _ c hc => ?_⟩
    exfalso
    have : (TsServer.step cfg env opts (.disconnected u) s).2.find u = none := by
      simp only [TsServer.step]
      have ev : ∀ (p : Proc) (s' : TsServer.State), Frames Any No No p → s'.find u = none → (p s').2.find u = none := by
        intro p s' hp h0
        obtain ⟨l, hl⟩ := hp s'
        have := hl.same u (fun k => k)
        rw [h0] at this
        cases h : (p s').2.find u with
        | none => rfl
        | some c => rw [h] at this; cases this
      split
      · rename_i hn
        exact ev _ s (frames_callUser trivial) hn
      · exact ev _ _ (frames_emitEvent (fun _ _ => trivial)) (lookup_filter_self _ _)
    rw [this] at hc
    cases hc
  · refine h.framed hl ?_ ?_ hq id
    · intro k
      cases i with
      | connected v => cases k; exact h1 rfl
      | disconnected v => cases k; exact h3 rfl
      | received v b => cases k; exact h2 _ rfl
      | _ => cases k
    · rintro (k | k)
      · exact h1 k
      · exact h3 k

theorem step_none {u : Uuid} {s : TsServer.State} {i : TsServer.Input} (h1 : i ≠ .connected u) (h0 : s.find u = none) :
    (TsServer.step cfg env opts i s).2.find u = none := by
  obtain ⟨l, hl⟩ := frames_step (cfg := cfg) (env := env) (opts := opts) i s
  by_cases h3 : i = .disconnected u
  · subst h3
    obtain ⟨l, hl⟩ := frames_callUser (P := Any) (U := No) (G := No) (cfg := cfg) (env := env) (a := .error none) trivial s
    have := hl.same u (fun k => k)
    rw [h0] at this
    have e : TsServer.step cfg env opts (.disconnected u) s = callUser cfg env (.error none) s := by
      simp only [TsServer.step, h0]
    rw [e]
    cases h : (callUser cfg env (.error none) s).2.find u with
    | none => rfl
    | some c => rw [h] at this; cases this
  · have := hl.same u (by
      rintro (k | k)
      · exact h1 k
      · exact h3 k)
    rw [h0] at this
    cases h : (TsServer.step cfg env opts i s).2.find u with
    | none => rfl
    | some c => rw [h] at this; cases this

/-- What is known of the server after any events. -/
structure TsKnown (cfg : TsServer.Cfg) (es : List (ServerEvent TsServer.Input)) (s : Bool × TsServer.State) : Prop where
  inv : Inv cfg none none s.2
  none : ∀ u, (∀ e ∈ es, ¬ Touches u e) → s.2.find u = none ∧ tsHeard u s.2.past = []
  once : ∀ u, Once u es → (dataOf u es).length < 2 ^ 64 → TsHears cfg.decoder u (dataOf u es) (s.1 = false) s.2

theorem tsKnown_run (es : List (ServerEvent TsServer.Input)) :
    TsKnown cfg es (serverRun (tsServer cfg env opts takes pack) es) := by
  suffices h : ∀ r : List (ServerEvent TsServer.Input), TsKnown cfg r.reverse (serverRun (tsServer cfg env opts takes pack) r.reverse) by
    have := h es.reverse
    rwa [List.reverse_reverse] at this
  intro r
  induction r with
  | nil =>
    refine ⟨inv_new, fun _ _ => ⟨rfl, rfl⟩, ?_⟩
    rintro u ⟨a, b, h, _⟩
    simp at h
  | cons e r ih =>
    rw [List.reverse_cons]
    generalize r.reverse = es at ih
    rw [serverRun_snoc]
    generalize serverRun (tsServer cfg env opts takes pack) es = s at ih
    have step := tsServer_step (cfg := cfg) (env := env) (opts := opts) (takes := takes) (pack := pack) e s
    refine ⟨?_, ?_, ?_⟩
    · rcases step with ⟨h, _⟩ | ⟨i, _, _, h⟩
      · rw [h]; exact ih.inv
      · rw [h]; exact run_inv_from [i] ih.inv
    · intro u hu
      obtain ⟨k1, k2⟩ := ih.none u (fun x hx => hu x (List.mem_append_left _ hx))
      rcases step with ⟨h, _⟩ | ⟨i, hi, _, h⟩
      · rw [h]; exact ⟨k1, k2⟩
      · obtain ⟨g1, g2⟩ := tsInput_own hi (hu e (by simp))
        rw [h, (ts_run_one i s.2).1]
        refine ⟨step_none g1 k1, ?_⟩
        obtain ⟨l, hl⟩ := frames_step (cfg := cfg) (env := env) (opts := opts) i s.2
        rw [hl.past, tsHeard_extend, k2]
        · intro m q k
          rcases hl.acts _ k with k | ⟨v, k⟩
          · obtain ⟨b, k⟩ := k.1 _ _ _ rfl
            exact g2 b k
          · rcases k with k | k | k <;> cases k
    · intro u ho hlen
      rcases ho.cases with ⟨rfl, h2⟩ | ⟨h1, h2⟩
      · obtain ⟨k1, k2⟩ := ih.none u h2
        rw [dataOf_append, dataOf_untouched h2]
        show TsHears cfg.decoder u [] _ _
        rcases step with ⟨h, k⟩ | ⟨i, hi, _, h⟩
        · rcases k with k | k
          · cases k
          · rw [h]
            refine ⟨⟨[], [], [], by simp, rfl, by rw [k2]; rfl⟩, fun hr => ?_⟩
            rw [k] at hr; cases hr
        · cases hi
          rw [h, (ts_run_one _ s.2).1]
          have e : TsServer.step cfg env opts (.connected u) s.2 = emitEvent cfg env (defaultEvent cfg "connected".toList)
              (({ s.2 with consumers := s.2.consumers ++ [(u, Consumer.new)] } : State).push (.opened u)) := by
            simp only [TsServer.step, k1]
          rw [e]
          obtain ⟨l, hl⟩ := frames_emitEvent (P := fun a => ∃ t ref, a = .event t ref) (U := No) (G := No) (cfg := cfg) (env := env)
            (e := defaultEvent cfg "connected".toList) (fun t ref => ⟨t, ref, rfl⟩)
            (({ s.2 with consumers := s.2.consumers ++ [(u, Consumer.new)] } : State).push (.opened u))
          have h0 : TsHears cfg.decoder u [] True (({ s.2 with consumers := s.2.consumers ++ [(u, Consumer.new)] } : State).push (.opened u)) := by
            have hh : tsHeard u (({ s.2 with consumers := s.2.consumers ++ [(u, Consumer.new)] } : State).push (.opened u)).past = [] := k2
            refine ⟨⟨[], [], [], by simp, rfl, by rw [hh]; rfl⟩, fun _ c hc _ => ⟨[], by simp, ?_, ?_, ?_⟩⟩
            · have : c = Consumer.new := by
                have : (s.2.consumers ++ [(u, Consumer.new)]).lookup u = some c := hc
                rw [lookup_append_new _ _ _ _ k1, if_pos rfl] at this
                exact (Option.some.inj this).symm
              rw [this]; rfl
            · have : c = Consumer.new := by
                have : (s.2.consumers ++ [(u, Consumer.new)]).lookup u = some c := hc
                rw [lookup_append_new _ _ _ _ k1, if_pos rfl] at this
                exact (Option.some.inj this).symm
              rw [this, hh]; rfl
            · have : c = Consumer.new := by
                have : (s.2.consumers ++ [(u, Consumer.new)]).lookup u = some c := hc
                rw [lookup_append_new _ _ _ _ k1, if_pos rfl] at this
                exact (Option.some.inj this).symm
              rw [this]; exact .inl TsClient.noFrame_nil
          exact h0.framed hl id id (by rintro m q ⟨t, ref, k⟩; cases k) (fun _ => trivial)
      · rw [dataOf_append] at hlen ⊢
        have hh := ih.once u h2 (by rw [List.length_append] at hlen; omega)
        by_cases ht : Touches u e
        · rcases ht with rfl | ⟨b, rfl⟩
          · exact absurd rfl h1
          · have hb : dataOf u [(.data u b : ServerEvent TsServer.Input)] = b := by simp [dataOf]
            rw [hb] at hlen ⊢
            rcases step with ⟨h, k⟩ | ⟨i, hi, hr, h⟩
            · rcases k with k | k
              · cases k
              · rw [h]
                exact ⟨hh.part.more _, fun hr => by rw [k] at hr; cases hr⟩
            · cases hi
              rw [h]
              obtain ⟨g1, g2⟩ := ts_run_one (cfg := cfg) (env := env) (opts := opts) (.received u b) s.2
              have := TsHears.received (cfg := cfg) (env := env) (opts := opts) (bytes := b) ⟨hh.part, fun _ => hh.rest hr⟩ hlen
              rw [g1]
              refine ⟨this.part, fun k => this.rest (fun k' => ?_)⟩
              rw [g2.2 k'] at k; cases k
        · rw [dataOf_untouched (es := [e]) (by simpa using ht), List.append_nil]
          rcases step with ⟨h, k⟩ | ⟨i, hi, hr, h⟩
          · rw [h]; exact hh
          · obtain ⟨g1, g2⟩ := tsInput_own hi ht
            rw [h, (ts_run_one i s.2).1]
            have := TsHears.other (env := env) (opts := opts) hh g1 g2
            exact ⟨this.part, fun _ => this.rest hr⟩

/-- What the server looked at is in the data. -/
theorem tsServer_reads {es : List (ServerEvent TsServer.Input)} {u : Uuid} (h : Once u es) (hl : (dataOf u es).length < 2 ^ 64) :
    ReadsOf cfg.decoder (dataOf u es) (tsHeard u (serverRun (tsServer cfg env opts takes pack) es).2.past) :=
  ((tsKnown_run es).once u h hl).part

/-- Answers are what user code decided on. -/
theorem tsServer_decided {C : ClientProg} (es : List (UInt64 × Event (tsServer cfg env opts takes pack) C)) {t : Nat} {u : Uuid} {q : UInt32}
    {o : TsServer.Out} (h : .send (.answer t) u q o ∈ (run es (.new : Net (tsServer cfg env opts takes pack) C)).server.2.past) :
    ∃ ts x, (ts, .server (.settled t x)) ∈ es ∧ Decided x o := by
  suffices hs : ∀ r : List (UInt64 × Event (tsServer cfg env opts takes pack) C),
      .send (.answer t) u q o ∈ (run r.reverse (.new : Net (tsServer cfg env opts takes pack) C)).server.2.past →
      ∃ ts x, (ts, .server (.settled t x)) ∈ r.reverse ∧ Decided x o by
    have := hs es.reverse
    rw [List.reverse_reverse] at this
    exact this h
  intro r
  induction r with
  | nil => intro k; cases k
  | cons e r ih =>
    rw [List.reverse_cons]
    generalize r.reverse = es at ih
    intro hm
    have hrun : run (es ++ [e]) (.new : Net (tsServer cfg env opts takes pack) C) = step (run es .new) e := by
      unfold run; rw [List.foldl_append]; rfl
    rw [hrun] at hm
    have old : .send (.answer t) u q o ∈ (run es (.new : Net (tsServer cfg env opts takes pack) C)).server.2.past →
        ∃ ts x, (ts, .server (.settled t x)) ∈ es ++ [e] ∧ Decided x o := by
      intro k
      obtain ⟨ts, x, h1, h2⟩ := ih k
      exact ⟨ts, x, List.mem_append_left _ h1, h2⟩
    have serve : ∀ (ev : ServerEvent TsServer.Input),
        .send (.answer t) u q o ∈ ((tsServer cfg env opts takes pack).step ev (run es (.new : Net (tsServer cfg env opts takes pack) C)).server).2.past →
        (.send (.answer t) u q o ∈ (run es (.new : Net (tsServer cfg env opts takes pack) C)).server.2.past) ∨
          ∃ x, ev = .own (.settled t x) ∧ Decided x o := by
      intro ev hk
      rcases tsServer_step (cfg := cfg) (env := env) (opts := opts) (takes := takes) (pack := pack) ev
        (run es (.new : Net (tsServer cfg env opts takes pack) C)).server with ⟨h, _⟩ | ⟨i, hi, _, h⟩
      · rw [h] at hk; exact .inl hk
      · rw [h, (ts_run_one i _).1] at hk
        obtain ⟨l, hl⟩ := frames_step (cfg := cfg) (env := env) (opts := opts) i
          (run es (.new : Net (tsServer cfg env opts takes pack) C)).server.2
        rw [hl.past] at hk
        rcases List.mem_append.1 hk with hk | hk
        · rcases hl.acts _ hk with k | ⟨v, k⟩
          · obtain ⟨x, rfl, k2⟩ := k.2 _ _ _ _ rfl
            refine .inr ⟨x, ?_, k2⟩
            cases ev with
            | own j => cases j <;> cases hi; rfl
            | _ => cases hi
          · rcases k with k | k | k <;> cases k
        · exact .inl hk
    obtain ⟨ts, e⟩ := e
    cases e with
    | opened v =>
      unfold step at hm
      dsimp only at hm
      split at hm
      · rcases serve _ hm with k | ⟨x, k, _⟩
        · exact old k
        · cases k
      · exact old hm
    | lost v =>
      rcases serve _ hm with k | ⟨x, k, _⟩
      · exact old k
      · cases k
    | toServer v c =>
      unfold step at hm
      dsimp only at hm
      split at hm
      · rcases serve _ hm with k | ⟨x, k, _⟩
        · exact old k
        · cases k
      · exact old hm
    | toClient v c =>
      unfold step at hm
      dsimp only at hm
      split at hm
      · split at hm
        · exact old hm
        · exact old hm
      · exact old hm
    | server i =>
      rcases serve _ hm with k | ⟨x, k, k2⟩
      · exact old k
      · cases k
        exact ⟨ts, x, by simp, k2⟩
    | client v i =>
      unfold step at hm
      dsimp only at hm
      split at hm
      · exact old hm
      · exact old hm

end Verif.Network
