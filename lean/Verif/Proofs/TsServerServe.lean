import Verif.Proofs.TsServerFrame
import Verif.Proofs.TsStream
set_option autoImplicit false
/-! The TypeScript server serves clients in order. -/
namespace Verif.TsServer

open Verif Verif.Spec

/-! ### All messages are looked at -/

theorem gots_append (u : Uuid) : ∀ l k : List Act, gots u (l ++ k) = gots u l ++ gots u k
  | [], _ => rfl
  | a :: l, k => by
    have ih := gots_append u l k
    cases a <;> simp only [List.cons_append, gots, ih]
    split <;> rfl

theorem gots_inner {u : Uuid} : ∀ {l : List Act}, (∀ a ∈ l, Inner u a ∨ ∃ v, Changes v a) →
    gots u l = []
  | [], _ => rfl
  | a :: l, h => by
    have ih := gots_inner (l := l) (fun b m => h b (List.mem_cons_of_mem _ m))
    have ha := h a List.mem_cons_self
    cases a with
    | got v m q =>
      rcases ha with ha | ⟨w, ha⟩
      · exact absurd rfl (ha.2.1 v m q)
      · rcases ha with ha | ha | ha <;> cases ha
    | _ => exact ih

/-- Conditions under which the code for a message does not throw. -/
structure Tame (cfg : Cfg) (env : Env) (u : Uuid) : Prop where
  throws : ∀ s a, env.throws s a = false
  selfKey : cfg.packs (.selfKey u) = true
  hash : ∀ e, cfg.packs (.hash e) = true

theorem callUser_next {cfg : Cfg} {env : Env} (h : ∀ s a, env.throws s a = false) (a : Act)
    (s : State) : (callUser cfg env a s).1 = .next := by
  unfold callUser
  rw [h]
  rfl

theorem andThen_ok {p q : Proc} {s : State} (hp : (p s).1 = .next) :
    Proc.andThen p q s = q (p s).2 := by
  unfold Proc.andThen
  cases h : p s with
  | mk e s' =>
    rw [h] at hp
    subst hp
    rfl

theorem andThen_next {p q : Proc} {s : State} (hp : (p s).1 = .next)
    (hq : (q (p s).2).1 = .next) : (Proc.andThen p q s).1 = .next := by
  unfold Proc.andThen
  split
  · rename_i s' e
    rw [e] at hq
    exact hq
  · exact hp

theorem kick_next {cfg : Cfg} {env : Env} (h : ∀ s a, env.throws s a = false) (u : Uuid)
    (s : State) : (kick cfg env u s).1 = .next :=
  andThen_next rfl (callUser_next h _ _)

/-- The message is in the workflow. -/
def Declared (cfg : Cfg) (m : Msg) : Prop :=
  (∃ r ∈ cfg.workflow.requests, ∃ ref b, r.request = some ref ∧ Found m ref b) ∨
    ∃ x ∈ cfg.workflow.beacons, ∃ b, Found m x.reference b

theorem dispatch_next {cfg : Cfg} {env : Env} {opts : Server.Options} {u : Uuid} {m : Msg}
    {seq : UInt32} {s : State} (hd : Declared cfg m) :
    (dispatch cfg env opts u m seq s).1 = .next := by
  unfold dispatch
  cases e : cfg.workflow.requests.findSome? (fun r =>
      r.request.bind (fun ref => (m.extract ref).map (fun b => (r, ref, b)))) with
  | some y => rfl
  | none =>
    dsimp only
    cases e2 : cfg.workflow.beacons.findSome? (fun x =>
        (m.extract x.reference).map (fun b => (x.reference, b))) with
    | some y => rfl
    | none =>
      exfalso
      rw [List.findSome?_eq_none_iff] at e e2
      rcases hd with ⟨r, hr, ref, b, h1, h2⟩ | ⟨x, hx, b, h2⟩
      · have := e r hr
        rw [h1, Option.bind_some, (extract_iff _ _ _).2 h2] at this
        cases this
      · have := e2 x hx
        rw [(extract_iff _ _ _).2 h2] at this
        cases this

theorem onHash_next {cfg : Cfg} {env : Env} {u : Uuid} {c : Consumer} {b : Js} {seq : UInt32}
    {s : State} (ht : Tame cfg env u) : (onHash cfg env u c b seq s).1 = .next := by
  unfold onHash
  refine andThen_next ?_ ?_
  · unfold post
    rw [if_pos (ht.hash _)]
  · split
    · rfl
    · exact kick_next ht.throws _ _

theorem onMessage_next {cfg : Cfg} {env : Env} {opts : Server.Options} {u : Uuid} {c : Consumer}
    {m : Msg} {seq : UInt32} {s : State} (ht : Tame cfg env u)
    (hd : (∃ b, Found m hashRequest b) ∨ Declared cfg m ∨ (c.hash = false ∧ ∃ k, Found m cfg.selfKey k)) :
    (onMessage cfg env opts u c m seq s).1 = .next := by
  have ho : (Declared cfg m ∨ c.hash = false) → (onOther cfg env opts u c m seq s).1 = .next := by
    intro hd
    unfold onOther
    by_cases h1 : (!c.hash) = true
    · rw [if_pos h1]; exact kick_next ht.throws _ _
    rw [if_neg h1]
    by_cases h2 : c.key.isNone = true
    · rw [if_pos h2]; exact kick_next ht.throws _ _
    rw [if_neg h2, isAssigned_true]
    have hd' : Declared cfg m := by
      rcases hd with h | h
      · exact h
      · rw [h] at h1; simp at h1
    exact dispatch_next hd'
  have hk : ∀ k, (onSelfKey cfg u c k seq s).1 = .next := by
    intro k
    unfold onSelfKey post
    rw [if_pos ht.selfKey]
  unfold onMessage
  cases h1 : m.extract cfg.selfKey <;> cases h2 : c.hash <;> cases h3 : m.extract hashRequest
  · refine ho (.inr h2)
  · exact onHash_next ht
  · rcases hd with ⟨b, hb⟩ | hd | ⟨h, _⟩
    · rw [(extract_iff _ _ _).2 hb] at h3; cases h3
    · exact ho (.inl hd)
    · rw [h] at h2; cases h2
  · exact onHash_next ht
  · exact hk _
  · exact hk _
  · rcases hd with ⟨b, hb⟩ | hd | ⟨h, _⟩
    · rw [(extract_iff _ _ _).2 hb] at h3; cases h3
    · exact ho (.inl hd)
    · rw [h] at h2; cases h2
  · exact onHash_next ht

/-- If the loop ends normally, every message was looked at, in order, and nothing is left. -/
theorem onMessages_gots {cfg : Cfg} {env : Env} {opts : Server.Options} {u : Uuid} :
    ∀ (ms : List (Rust.Income Msg)) (s : State), (onMessages cfg env opts u ms s).1 = .next →
      gots u (onMessages cfg env opts u ms s).2.past =
        (ms.map (fun m => (m.msg, m.header.sequence))).reverse ++ gots u s.past
  | [], _, _ => rfl
  | m :: ms, s, h => by
    unfold onMessages at h ⊢
    dsimp only at h ⊢
    cases hf : s.find u with
    | none => rw [hf] at h; cases h
    | some c =>
      rw [hf] at h
      dsimp only at h ⊢
      rcases andThen_end h with ⟨_, h1⟩ | ⟨h1, h2⟩
      · exact absurd rfl h1
      · have ih := onMessages_gots ms _ h2
        obtain ⟨l, hl⟩ := frames_onMessage (G := fun _ => False) (cfg := cfg) (env := env) (opts := opts)
          (u := u) (c := { c with reader := ⟨c.reader.buffer, ms⟩ }) (m := m.msg)
          (seq := m.header.sequence)
          ((s.set u { c with reader := ⟨c.reader.buffer, ms⟩ }).push (.got u m.msg m.header.sequence))
        have hp : (Proc.andThen (fun s => onMessage cfg env opts u
            { c with reader := ⟨c.reader.buffer, ms⟩ } m.msg m.header.sequence
            ((s.set u { c with reader := ⟨c.reader.buffer, ms⟩ }).push (.got u m.msg m.header.sequence)))
            (onMessages cfg env opts u ms) s) = onMessages cfg env opts u ms
              (onMessage cfg env opts u { c with reader := ⟨c.reader.buffer, ms⟩ } m.msg m.header.sequence
            ((s.set u { c with reader := ⟨c.reader.buffer, ms⟩ }).push
              (.got u m.msg m.header.sequence))).2 := by
          exact andThen_ok h1
        rw [hp, ih, hl.past, gots_append, gots_inner hl.acts]
        simp [gots]

/-- Messages that do not stop the loop. -/
theorem onMessages_next {cfg : Cfg} {env : Env} {opts : Server.Options} {u : Uuid}
    (ht : Tame cfg env u) : ∀ (ks ms : List (Rust.Income Msg)) (s : State) (c : Consumer),
      s.find u = some c → (∀ m ∈ ks, c.hash = false ∧ ∃ k, Found m.msg cfg.selfKey k) →
      (∀ m ∈ ms, (∃ b, Found m.msg hashRequest b) ∨ Declared cfg m.msg) →
      (onMessages cfg env opts u (ks ++ ms) s).1 = .next
  | [], [], _, _, _, _, _ => rfl
  | [], m :: ms, s, c, hc, _, h2 => by
    rw [List.nil_append]
    unfold onMessages
    dsimp only
    rw [hc]
    have hn := onMessage_next (opts := opts) (u := u) (m := m.msg) (seq := m.header.sequence)
      (c := { c with reader := ⟨c.reader.buffer, ms⟩ })
      (s := (s.set u { c with reader := ⟨c.reader.buffer, ms⟩ }).push (.got u m.msg m.header.sequence))
      ht (by
        rcases h2 m List.mem_cons_self with h | h
        · exact .inl h
        · exact .inr (.inl h))
    refine andThen_next hn ?_
    obtain ⟨l, hl⟩ := frames_onMessage (G := fun _ => False) (cfg := cfg) (env := env) (opts := opts)
      (u := u) (c := { c with reader := ⟨c.reader.buffer, ms⟩ }) (m := m.msg)
      (seq := m.header.sequence)
      ((s.set u { c with reader := ⟨c.reader.buffer, ms⟩ }).push (.got u m.msg m.header.sequence))
    have hs := hl.same u (fun x => x)
    rw [find_push, find_set_self hc] at hs
    obtain ⟨d, hd⟩ := Option.isSome_iff_exists.1 hs
    exact onMessages_next ht [] ms _ d hd (by simp) (fun m' h' => h2 m' (List.mem_cons_of_mem _ h'))
  | k :: ks, ms, s, c, hc, h1, h2 => by
    rw [List.cons_append]
    unfold onMessages
    dsimp only
    rw [hc]
    obtain ⟨hh, kk, hk⟩ := h1 k List.mem_cons_self
    refine andThen_next (onMessage_next ht (.inr (.inr ⟨hh, kk, hk⟩))) ?_
    have he : onMessage cfg env opts u { c with reader := ⟨c.reader.buffer, ks ++ ms⟩ } k.msg
        k.header.sequence ((s.set u { c with reader := ⟨c.reader.buffer, ks ++ ms⟩ }).push
          (.got u k.msg k.header.sequence)) =
        onSelfKey cfg u { c with reader := ⟨c.reader.buffer, ks ++ ms⟩ } kk k.header.sequence
          ((s.set u { c with reader := ⟨c.reader.buffer, ks ++ ms⟩ }).push
          (.got u k.msg k.header.sequence)) := by
      unfold onMessage
      dsimp only
      rw [(extract_iff _ _ _).2 hk, hh]
    rw [he]
    unfold onSelfKey post
    rw [if_pos ht.selfKey]
    refine onMessages_next ht ks ms _
      (Consumer.setKey cfg.keyFields { c with reader := ⟨c.reader.buffer, ks ++ ms⟩ } kk true) ?_ ?_ h2
    · rw [find_push]
      refine find_set_self (d := { c with reader := ⟨c.reader.buffer, ks ++ ms⟩ }) ?_
      rw [find_push]
      exact find_set_self hc
    · intro m' h'
      refine ⟨?_, (h1 m' (List.mem_cons_of_mem _ h')).2⟩
      unfold Consumer.setKey
      split <;> exact hh

/-! ### One frame -/

theorem noFrame_nil : NoFrame [] := by
  intro f _ h
  have := List.prefix_nil.1 h
  have h2 := congrArg List.length this
  rw [Rust.frame_length] at h2
  simp at h2

theorem read_frame {T : Type} {d : Rust.Decoder T} {f : Frame} {t : T} (hf : f.Ok)
    (hs : f.hdr.signature = d.signature) (hm : d.getMsg f.hdr.id f.body = .ok t) :
    readChunk d ⟨[], []⟩ f.bytes = some (.returned [], ⟨[], [⟨f.hdr, t⟩]⟩) := by
  have hg : Good d f := ⟨hf, hs.symm, t, hm⟩
  have h := Ts.chunk_returns d ⟨[], []⟩ f.bytes [f]
    (by intro g hg'; rw [List.mem_singleton.1 hg']; exact .inl hg) [] (by simp) noFrame_nil
    (by simp [stream])
  rw [readChunk_iff]
  have hd : delivered d f = some ⟨f.hdr, t⟩ := by
    unfold delivered
    rw [if_pos hs.symm, hm]
  have he : Ts.bodyErrors d [f] = [] := by
    simp [Ts.bodyErrors, hd]
  rw [he] at h
  simpa [hd] using h

/-- How far the handshake of `u` is. -/
def Stage (u : Uuid) (key hash : Bool) (s : State) : Prop :=
  ∃ c, s.find u = some c ∧ c.reader = ⟨[], []⟩ ∧ c.discredited = false ∧
    (key = true → c.key.isSome = true) ∧ c.hash = hash

theorem andThen_skip (p : Proc) (s : State) : (Proc.andThen p .skip s).2 = (p s).2 := by
  unfold Proc.andThen
  cases h : p s with
  | mk x s' => cases x <;> rfl

theorem onMessages_one {cfg : Cfg} {env : Env} {opts : Server.Options} {u : Uuid} {c : Consumer}
    {m : Rust.Income Msg} {s : State} (hc : s.find u = some c) :
    (onMessages cfg env opts u [m] s).2 = (onMessage cfg env opts u
      { c with reader := ⟨c.reader.buffer, []⟩ } m.msg m.header.sequence
      ((s.set u { c with reader := ⟨c.reader.buffer, []⟩ }).push (.got u m.msg m.header.sequence))).2 := by
  unfold onMessages
  dsimp only
  rw [hc]
  dsimp only
  exact andThen_skip _ _

theorem received_frame {cfg : Cfg} {env : Env} {opts : Server.Options} {u : Uuid} {key hash : Bool}
    {s : State} (h : Stage u key hash s) {f : Frame} {m : Msg} (hf : f.Ok)
    (hs : f.hdr.signature = cfg.decoder.signature)
    (hm : cfg.decoder.getMsg f.hdr.id f.body = .ok m) :
    ∃ c s1, c.reader = ⟨[], []⟩ ∧ c.discredited = false ∧ (key = true → c.key.isSome = true) ∧
      c.hash = hash ∧ s1.find u = some c ∧
      s1.past = .got u m f.hdr.sequence :: .chunk u :: s.past ∧
      (received cfg env opts u f.bytes s).2 = (onMessage cfg env opts u c m f.hdr.sequence s1).2 ∧
      s1.next = s.next ∧ s1.tasks = s.tasks := by
  obtain ⟨c, hc, h1, h2, h3, h4⟩ := h
  refine ⟨{ c with reader := ⟨[], []⟩ }, ((((s.push (.chunk u)).set u
    { c with reader := ⟨[], [⟨f.hdr, m⟩]⟩ }).set u { c with reader := ⟨[], []⟩ }).push
      (.got u m f.hdr.sequence)), rfl, h2, h3, h4, ?_, rfl, ?_, rfl, rfl⟩
  · exact find_set_self (find_set_self hc)
  · unfold received
    dsimp only
    rw [find_push, hc]
    dsimp only
    rw [h2, h1, read_frame hf hs hm]
    simp only [Bool.false_eq_true, if_false]
    exact onMessages_one (find_set_self (s := s.push (.chunk u)) hc)

theorem serve_selfKey {cfg : Cfg} {env : Env} {opts : Server.Options} {u : Uuid} {key : Bool}
    {s : State} (h : Stage u key false s) {f : Frame} {m : Msg} {k : Js} (hf : f.Ok)
    (hs : f.hdr.signature = cfg.decoder.signature)
    (hm : cfg.decoder.getMsg f.hdr.id f.body = .ok m) (hk : Found m cfg.selfKey k)
    (hp : cfg.packs (.selfKey u) = true) :
    Stage u true false (received cfg env opts u f.bytes s).2 ∧
    (received cfg env opts u f.bytes s).2.past = .send .handshake u f.hdr.sequence (.selfKey u) ::
      .got u m f.hdr.sequence :: .chunk u :: s.past := by
  obtain ⟨c, s1, h1, h2, h3, h4, h5, h6, h7, _⟩ := received_frame (env := env) (opts := opts) h hf hs hm
  rw [h7]
  unfold onMessage
  rw [(extract_iff _ _ _).2 hk, h4]
  dsimp only
  unfold onSelfKey post
  rw [if_pos hp]
  refine ⟨⟨c.setKey cfg.keyFields k true, ?_, ?_, ?_, ?_, ?_⟩, by rw [past_push, past_set, h6]⟩
  · rw [find_push]; exact find_set_self h5
  · unfold Consumer.setKey; split <;> exact h1
  · unfold Consumer.setKey; split <;> exact h2
  · intro _; unfold Consumer.setKey; split <;> rfl
  · unfold Consumer.setKey; split <;> exact h4

theorem serve_hash {cfg : Cfg} {env : Env} {opts : Server.Options} {u : Uuid} {key hash : Bool}
    {s : State} (h : Stage u key hash s) {f : Frame} {m : Msg} {ps : List (Name × Js)} (hf : f.Ok)
    (hs : f.hdr.signature = cfg.decoder.signature)
    (hm : cfg.decoder.getMsg f.hdr.id f.body = .ok m) (hn : ∀ k, ¬ Found m cfg.selfKey k)
    (hb : Found m hashRequest (.obj ps))
    (h1 : ps.lookup "protocol".toList = some (.str cfg.protocolHash))
    (h2 : ps.lookup "workflow".toList = some (.str cfg.workflowHash))
    (hp : cfg.packs (.hash false) = true) :
    Stage u key true (received cfg env opts u f.bytes s).2 ∧
    (received cfg env opts u f.bytes s).2.past = .send .handshake u f.hdr.sequence (.hash false) ::
      .got u m f.hdr.sequence :: .chunk u :: s.past := by
  obtain ⟨c, s1, c1, c2, c3, c4, c5, c6, c7, _⟩ := received_frame (env := env) (opts := opts) h hf hs hm
  have hr : rightHash cfg (.obj ps) = true := (right_iff rfl).2 ⟨ps, rfl, h1, h2⟩
  have hx : m.extract cfg.selfKey = none := by
    cases hx : m.extract cfg.selfKey with
    | none => rfl
    | some k => exact absurd ((extract_iff _ _ _).1 hx) (hn k)
  have he : onMessage cfg env opts u c m f.hdr.sequence s1 =
      onHash cfg env u c (.obj ps) f.hdr.sequence s1 := by
    unfold onMessage
    rw [hx, (extract_iff _ _ _).2 hb]
  rw [c7, he]
  unfold onHash Proc.andThen post
  rw [hr]
  rw [if_pos (show cfg.packs (.hash !true) = true from hp)]
  refine ⟨⟨{ c with hash := true }, ?_, c1, c2, c3, rfl⟩, by rw [← c6]; rfl⟩
  exact find_set_self (d := c) c5

theorem enter_past (cfg : Cfg) (env : Env) (a : Act) (s : State) :
    ∃ l, (enter cfg env a s).past = l ++ a :: s.past ∧ ∀ x ∈ l, ∃ v, Changes v x := by
  obtain ⟨l, h⟩ := frame_changes (P := fun _ => False) (U := fun _ => False) (G := fun _ => False)
    (cfg := cfg) (env.during (s.push a) a) (s.push a)
  exact ⟨l, h.past, fun x hx => (h.acts x hx).resolve_left (fun k => k)⟩

theorem serve_wrong_hash {cfg : Cfg} {env : Env} {opts : Server.Options} {u : Uuid} {key hash : Bool}
    {s : State} (h : Stage u key hash s) {f : Frame} {m : Msg} {ps : List (Name × Js)} (hf : f.Ok)
    (hs : f.hdr.signature = cfg.decoder.signature)
    (hm : cfg.decoder.getMsg f.hdr.id f.body = .ok m) (hn : ∀ k, ¬ Found m cfg.selfKey k)
    (hb : Found m hashRequest (.obj ps))
    (hw : ¬ (ps.lookup "protocol".toList = some (.str cfg.protocolHash) ∧
      ps.lookup "workflow".toList = some (.str cfg.workflowHash)))
    (hp : cfg.packs (.hash true) = true) :
    ∃ l, (received cfg env opts u f.bytes s).2.past = l ++ .error (some u) :: .drop u ::
      .send .handshake u f.hdr.sequence (.hash true) :: .got u m f.hdr.sequence :: .chunk u :: s.past ∧
      ∀ a ∈ l, ∃ v, Changes v a := by
  obtain ⟨c, s1, c1, c2, c3, c4, c5, c6, c7, _⟩ := received_frame (env := env) (opts := opts) h hf hs hm
  have hr : rightHash cfg (.obj ps) = false := by
    cases hr : rightHash cfg (.obj ps) with
    | false => rfl
    | true =>
      obtain ⟨qs, e, h1⟩ := (right_iff rfl).1 hr
      cases e
      exact absurd h1 hw
  have hx : m.extract cfg.selfKey = none := by
    cases hx : m.extract cfg.selfKey with
    | none => rfl
    | some k => exact absurd ((extract_iff _ _ _).1 hx) (hn k)
  have he : onMessage cfg env opts u c m f.hdr.sequence s1 =
      onHash cfg env u c (.obj ps) f.hdr.sequence s1 := by
    unfold onMessage
    rw [hx, (extract_iff _ _ _).2 hb]
  rw [c7, he]
  unfold onHash Proc.andThen post
  rw [hr]
  rw [if_pos (show cfg.packs (.hash !false) = true from hp), ← c6]
  exact enter_past cfg env _ _

theorem serve_request {cfg : Cfg} {env : Env} {opts : Server.Options} {u : Uuid}
    {s : State} (h : Stage u true true s) {f : Frame} {m : Msg} {ref : Ref} {b : Js}
    {r : Flow.Request} (hf : f.Ok) (hs : f.hdr.signature = cfg.decoder.signature)
    (hm : cfg.decoder.getMsg f.hdr.id f.body = .ok m) (hh : ∀ k, ¬ Found m hashRequest k)
    (hr : r ∈ cfg.workflow.requests) (hq : r.request = some ref) (hb : Found m ref b)
    (ho : ∀ r' ∈ cfg.workflow.requests, ∀ ref' b', r'.request = some ref' → Found m ref' b' → ref' = ref) :
    ∃ l, (received cfg env opts u f.bytes s).2.past = l ++ .respond s.next u ref b f.hdr.sequence ::
      .got u m f.hdr.sequence :: .chunk u :: s.past := by
  obtain ⟨c, s1, c1, c2, c3, c4, c5, c6, c7, c8, _⟩ := received_frame (env := env) (opts := opts) h hf hs hm
  have hx : m.extract hashRequest = none := by
    cases hx : m.extract hashRequest with
    | none => rfl
    | some k => exact absurd ((extract_iff _ _ _).1 hx) (hh k)
  have he : onMessage cfg env opts u c m f.hdr.sequence s1 =
      dispatch cfg env opts u m f.hdr.sequence s1 := by
    have hk := c3 rfl
    unfold onMessage onOther
    rw [hx, c4, isAssigned_true]
    cases hkk : c.key with
    | none => rw [hkk] at hk; cases hk
    | some k => cases m.extract cfg.selfKey <;> rfl
  rw [c7, he]
  unfold dispatch
  cases e : cfg.workflow.requests.findSome? (fun r =>
      r.request.bind (fun ref => (m.extract ref).map (fun b => (r, ref, b)))) with
  | none =>
    exfalso
    rw [List.findSome?_eq_none_iff] at e
    have := e r hr
    rw [hq, Option.bind_some, (extract_iff _ _ _).2 hb] at this
    cases this
  | some y =>
    obtain ⟨r', ref', b'⟩ := y
    obtain ⟨r'', hr', e2⟩ := List.exists_of_findSome?_eq_some e
    cases hq' : r''.request with
    | none => rw [hq'] at e2; cases e2
    | some ref'' =>
      rw [hq'] at e2
      cases hx : m.extract ref'' with
      | none => simp [hx] at e2
      | some b'' =>
        simp [hx] at e2
        obtain ⟨rfl, rfl, rfl⟩ := e2
        have hfo := (extract_iff _ _ _).1 hx
        have hre := ho r'' hr' ref'' b'' hq' hfo
        subst hre
        have : b'' = b := by
          have h1 := (extract_iff _ _ _).2 hb
          rw [hx] at h1
          exact Option.some.inj h1
        subst this
        obtain ⟨l, hl⟩ := frame_changes (P := Any) (U := No) (G := No) (cfg := cfg)
          (env.during (({ s1 with tasks := s1.tasks ++
            [(s1.next, ⟨u, f.hdr.sequence, .request r'', .user⟩)], next := s1.next + 1 } : State).push
            (.respond s1.next u ref'' b'' f.hdr.sequence)) (.respond s1.next u ref'' b'' f.hdr.sequence))
          (({ s1 with tasks := s1.tasks ++
            [(s1.next, ⟨u, f.hdr.sequence, .request r'', .user⟩)], next := s1.next + 1 } : State).push
            (.respond s1.next u ref'' b'' f.hdr.sequence))
        refine ⟨l, ?_⟩
        have h2 := hl.past
        rw [past_push] at h2
        show (enter cfg env _ _).past = _
        unfold enter
        rw [← c8, ← c6]
        exact h2

/-! ### Whole runs -/

theorem run_grows {cfg : Cfg} {env : Env} {opts : Server.Options} : ∀ (is : List Input) (s : State),
    ∃ l, (run cfg env opts is s).2.past = l ++ s.past
  | [], _ => ⟨[], rfl⟩
  | i :: is, s => by
    obtain ⟨l, hl⟩ := frames_step (cfg := cfg) (env := env) (opts := opts) i s
    unfold run
    split
    · rename_i s' e
      rw [e] at hl
      exact ⟨l, hl.past⟩
    · rename_i s' _ e
      rw [e] at hl
      obtain ⟨k, hk⟩ := run_grows is s'
      exact ⟨k ++ l, by rw [hk, hl.past, List.append_assoc]⟩

theorem stage_evolves {u : Uuid} {key hash : Bool} {l : List Act} {s s' : State} {P : Act → Prop}
    {U G : Uuid → Prop} (h : Stage u key hash s) (hf : Framed P U G l s s') (hu : ¬ U u)
    (hd : .discredited u ∉ s'.past) : Stage u key hash s' := by
  obtain ⟨c, hc, h1, h2, h3, h4⟩ := h
  obtain ⟨d, hd', e⟩ := hf.still u hu c hc
  refine ⟨d, hd', e.reader.trans h1, ?_, fun k => e.key (h3 k), e.hash.trans h4⟩
  rw [e.discredited, h2]
  intro hm
  refine hd ?_
  rw [hf.past]
  exact List.mem_append_left _ hm

theorem run_aside {cfg : Cfg} {env : Env} {opts : Server.Options} {u : Uuid} {key hash : Bool} :
    ∀ (is : List Input) (s : State), (∀ i ∈ is, i.client ≠ some u) → Stage u key hash s →
      .discredited u ∉ (run cfg env opts is s).2.past → Stage u key hash (run cfg env opts is s).2
  | [], _, _, h, _ => h
  | i :: is, s, ha, h, hd => by
    obtain ⟨l, hl⟩ := frames_step (cfg := cfg) (env := env) (opts := opts) i s
    have h0 := ha i List.mem_cons_self
    unfold run at hd ⊢
    split
    · rename_i s' e
      rw [e] at hl hd
      exact stage_evolves h hl h0 hd
    · rename_i s' hne e
      rw [e] at hl hd
      refine run_aside is s' (fun j hj => ha j (List.mem_cons_of_mem _ hj)) (stage_evolves h hl h0 ?_) ?_
      · obtain ⟨k, hk⟩ := run_grows (cfg := cfg) (env := env) (opts := opts) is s'
        intro hm
        have hd' : Act.discredited u ∉ (run cfg env opts is s').2.past := by
          revert hd
          split
          · rename_i e'; exact absurd (congrArg Prod.fst e') hne
          · rename_i e'; injection e' with _ e'; subst e'; exact id
        exact hd' (by rw [hk]; exact List.mem_append_right _ hm)
      · revert hd
        split
        · rename_i e'; exact absurd (congrArg Prod.fst e') hne
        · rename_i e'; injection e' with _ e'; subst e'; exact id

theorem run_split {cfg : Cfg} {env : Env} {opts : Server.Options} : ∀ (is js : List Input) (s : State),
    (run cfg env opts (is ++ js) s).1 = false →
      run cfg env opts is s = (false, (run cfg env opts is s).2) ∧
      run cfg env opts (is ++ js) s = run cfg env opts js (run cfg env opts is s).2
  | [], _, _, _ => ⟨rfl, rfl⟩
  | i :: is, js, s, h => by
    rw [List.cons_append] at h ⊢
    have hstep : ∀ ks, run cfg env opts (i :: ks) s = (match step cfg env opts i s with
        | (.hung, s) => (true, s)
        | (_, s) => run cfg env opts ks s) := fun _ => rfl
    rw [hstep] at h
    rw [hstep, hstep]
    cases e : step cfg env opts i s with
    | mk x s' =>
      rw [e] at h
      cases x with
      | hung => cases h
      | next => exact run_split is js s' h
      | leave => exact run_split is js s' h
      | thrown => exact run_split is js s' h

theorem run_one {cfg : Cfg} {env : Env} {opts : Server.Options} {i : Input} {is : List Input}
    {s : State} (h : (run cfg env opts (i :: is) s).1 = false) :
    run cfg env opts (i :: is) s = run cfg env opts is (step cfg env opts i s).2 := by
  have hstep : run cfg env opts (i :: is) s = (match step cfg env opts i s with
      | (.hung, s) => (true, s)
      | (_, s) => run cfg env opts is s) := rfl
  rw [hstep] at h ⊢
  cases e : step cfg env opts i s with
  | mk x s' =>
    rw [e] at h
    cases x with
    | hung => cases h
    | next => rfl
    | leave => rfl
    | thrown => rfl

theorem stage_connected {cfg : Cfg} {env : Env} {opts : Server.Options} {u : Uuid} {s : State}
    (h : s.find u = none)
    (hd : .discredited u ∉ (step cfg env opts (.connected u) s).2.past) :
    Stage u false false (step cfg env opts (.connected u) s).2 := by
  have e : step cfg env opts (.connected u) s = emitEvent cfg env (defaultEvent cfg "connected".toList)
      (({ s with consumers := s.consumers ++ [(u, Consumer.new)] } : State).push (.opened u)) := by
    simp only [step, h]
  rw [e] at hd ⊢
  obtain ⟨l, hl⟩ := frames_emitEvent (P := Any) (U := fun _ => False) (G := fun _ => False) (cfg := cfg) (env := env)
    (e := defaultEvent cfg "connected".toList) (fun _ _ => trivial)
    (({ s with consumers := s.consumers ++ [(u, Consumer.new)] } : State).push (.opened u))
  refine stage_evolves ⟨Consumer.new, ?_, rfl, rfl, fun h => (nomatch h), rfl⟩ hl (fun h => h) hd
  have := lookup_append_new s.consumers u u Consumer.new h
  rw [if_pos rfl] at this
  exact this

theorem client_served {cfg : Cfg} {env : Env} {opts : Server.Options} {u : Uuid}
    {pre mid0 mid1 mid2 post : List Input} {f1 f2 f3 : Frame} {m1 m2 m3 : Msg} {k b : Js}
    {ps : List (Name × Js)} {ref : Ref} {r : Flow.Request}
    (off : ¬ Online u (run cfg env opts pre .new).2.past)
    (aside : ∀ x ∈ mid0 ++ mid1 ++ mid2, x.client ≠ some u)
    (ok : f1.Ok ∧ f2.Ok ∧ f3.Ok)
    (sig : f1.hdr.signature = cfg.decoder.signature ∧ f2.hdr.signature = cfg.decoder.signature ∧
      f3.hdr.signature = cfg.decoder.signature)
    (d1 : cfg.decoder.getMsg f1.hdr.id f1.body = .ok m1) (k1 : Found m1 cfg.selfKey k)
    (d2 : cfg.decoder.getMsg f2.hdr.id f2.body = .ok m2)
    (k2 : Found m2 hashRequest (.obj ps)) (n2 : ∀ k, ¬ Found m2 cfg.selfKey k)
    (hp : ps.lookup "protocol".toList = some (.str cfg.protocolHash))
    (hw : ps.lookup "workflow".toList = some (.str cfg.workflowHash))
    (d3 : cfg.decoder.getMsg f3.hdr.id f3.body = .ok m3) (k3 : Found m3 ref b)
    (n3 : ∀ k, ¬ Found m3 hashRequest k)
    (hr : r ∈ cfg.workflow.requests) (hn : r.request = some ref)
    (only : ∀ r' ∈ cfg.workflow.requests, ∀ ref' b', r'.request = some ref' → Found m3 ref' b' →
      ref' = ref)
    (packs : cfg.packs (.selfKey u) = true ∧ cfg.packs (.hash false) = true)
    (runs : (run cfg env opts (pre ++ (.connected u :: (mid0 ++ (.received u f1.bytes :: (mid1 ++
      (.received u f2.bytes :: (mid2 ++ (.received u f3.bytes :: post)))))))) .new).1 = false)
    (kept : .discredited u ∉ (run cfg env opts (pre ++ (.connected u :: (mid0 ++ (.received u f1.bytes ::
      (mid1 ++ (.received u f2.bytes :: (mid2 ++ (.received u f3.bytes :: post)))))))) .new).2.past) :
    ∃ newer older t, (run cfg env opts (pre ++ (.connected u :: (mid0 ++ (.received u f1.bytes :: (mid1 ++
      (.received u f2.bytes :: (mid2 ++ (.received u f3.bytes :: post)))))))) .new).2.past =
        newer ++ .respond t u ref b f3.hdr.sequence :: older ∧
      .send .handshake u f1.hdr.sequence (.selfKey u) ∈ older ∧
      .send .handshake u f2.hdr.sequence (.hash false) ∈ older := by
  have grow : ∀ (is : List Input) (s : State) (a : Act), a ∈ s.past → a ∈ (run cfg env opts is s).2.past := by
    intro is s a ha
    obtain ⟨l, hl⟩ := run_grows (cfg := cfg) (env := env) (opts := opts) is s
    rw [hl]
    exact List.mem_append_right _ ha
  have inv := run_inv cfg env opts pre
  have hnone : (run cfg env opts pre .new).2.find u = none := by
    cases h : (run cfg env opts pre .new).2.find u with
    | none => rfl
    | some c => exact absurd (inv.known u c h).online off
  have e := (run_split _ _ _ runs).2
  rw [e] at runs kept ⊢
  clear e
  generalize (run cfg env opts pre .new).2 = s0 at *
  have e := run_one runs
  rw [e] at runs kept ⊢
  clear e
  have st1 := stage_connected (cfg := cfg) (env := env) (opts := opts) hnone
    (fun h => kept (grow _ _ _ h))
  generalize (step cfg env opts (.connected u) s0).2 = s1 at *
  have e := (run_split _ _ _ runs).2
  rw [e] at runs kept ⊢
  clear e
  have st2 := run_aside (cfg := cfg) (env := env) (opts := opts) mid0 s1
    (fun x hx => aside x (by simp [hx])) st1 (fun h => kept (grow _ _ _ h))
  generalize (run cfg env opts mid0 s1).2 = s2 at *
  have e := run_one runs
  rw [e] at runs kept ⊢
  clear e
  obtain ⟨st3, p3⟩ := serve_selfKey (env := env) (opts := opts) st2 ok.1 sig.1 d1 k1 packs.1
  change Stage u true false (step cfg env opts (.received u f1.bytes) s2).2 at st3
  change (step cfg env opts (.received u f1.bytes) s2).2.past = _ at p3
  generalize (step cfg env opts (.received u f1.bytes) s2).2 = s3 at *
  have q3 : .send .handshake u f1.hdr.sequence (.selfKey u) ∈ s3.past := by rw [p3]; simp
  have e := (run_split _ _ _ runs).2
  rw [e] at runs kept ⊢
  clear e
  have st4 := run_aside (cfg := cfg) (env := env) (opts := opts) mid1 s3
    (fun x hx => aside x (by simp [hx])) st3 (fun h => kept (grow _ _ _ h))
  have q4 := grow mid1 _ _ q3
  generalize (run cfg env opts mid1 s3).2 = s4 at *
  have e := run_one runs
  rw [e] at runs kept ⊢
  clear e
  obtain ⟨st5, p5⟩ := serve_hash (env := env) (opts := opts) st4 ok.2.1 sig.2.1 d2 n2 k2 hp hw packs.2
  change Stage u true true (step cfg env opts (.received u f2.bytes) s4).2 at st5
  change (step cfg env opts (.received u f2.bytes) s4).2.past = _ at p5
  generalize (step cfg env opts (.received u f2.bytes) s4).2 = s5 at *
  have q5 : .send .handshake u f2.hdr.sequence (.hash false) ∈ s5.past := by rw [p5]; simp
  have q5' : .send .handshake u f1.hdr.sequence (.selfKey u) ∈ s5.past := by rw [p5]; simp [q4]
  have e := (run_split _ _ _ runs).2
  rw [e] at runs kept ⊢
  clear e
  have st6 := run_aside (cfg := cfg) (env := env) (opts := opts) mid2 s5
    (fun x hx => aside x (by simp [hx])) st5 (fun h => kept (grow _ _ _ h))
  have q6 := grow mid2 _ _ q5
  have q6' := grow mid2 _ _ q5'
  generalize (run cfg env opts mid2 s5).2 = s6 at *
  rw [run_one runs]
  obtain ⟨l, p7⟩ := serve_request (env := env) (opts := opts) st6 ok.2.2 sig.2.2 d3 n3 hr hn k3 only
  change (step cfg env opts (.received u f3.bytes) s6).2.past = _ at p7
  obtain ⟨l', p8⟩ := run_grows (cfg := cfg) (env := env) (opts := opts) post
    (step cfg env opts (.received u f3.bytes) s6).2
  refine ⟨l' ++ l, .got u m3 f3.hdr.sequence :: .chunk u :: s6.past, s6.next, ?_, ?_, ?_⟩
  · rw [p8, p7, List.append_assoc]
  · simp [q6']
  · simp [q6]

end Verif.TsServer
