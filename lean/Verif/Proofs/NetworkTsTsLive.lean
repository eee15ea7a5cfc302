import Verif.Spec.NetworkTsTsLive
import Verif.Proofs.NetworkTsConnect
import Verif.Proofs.NetworkTsTs
import Verif.Proofs.TsServerCasts
set_option autoImplicit false
/-!
A schedule for a connection between a TypeScript client and a TypeScript server: how both go on when everything
takes its regular course.
-/
namespace Verif.TsServer

open Verif Verif.Spec

variable {cfg : Cfg} {env : Env} {opts : Server.Options} {u : Uuid} {key hash : Bool} {s : State}

/-! ### User code of the server -/

theorem Stage.of_find {s' : State} (h : Stage u key hash s) (e : s'.find u = s.find u) : Stage u key hash s' := by
  obtain ⟨c, hc, k⟩ := h
  exact ⟨c, e.trans hc, k⟩

theorem Stage.set_other {v : Uuid} {c : Consumer} (h : Stage u key hash s) (hv : u ≠ v) : Stage u key hash (s.set v c) :=
  h.of_find (find_set_other hv)

theorem Stage.change (h : Stage u key hash s) {c : Change} (hc : c ≠ .discredit u) : Stage u key hash (change cfg s c) := by
  obtain ⟨d, hd, k1, k2, k3, k4⟩ := h
  cases c with
  | key v k o =>
    simp only [TsServer.change]
    by_cases e : v = u
    · subst e
      rw [hd]
      refine ⟨d.setKey cfg.keyFields k o, find_set_self hd, ?_, ?_, fun _ => ?_, ?_⟩ <;> unfold Consumer.setKey <;> split
      · exact k1
      · exact k1
      · exact k2
      · exact k2
      · rfl
      · rfl
      · exact k4
      · exact k4
    · split
      · exact Stage.of_find ⟨d, hd, k1, k2, k3, k4⟩ (find_set_other (Ne.symm e))
      · exact ⟨d, hd, k1, k2, k3, k4⟩
  | assign v k o =>
    simp only [TsServer.change]
    by_cases e : v = u
    · subst e
      rw [hd]
      refine ⟨d.assign cfg.assignedFields k o, find_set_self hd, ?_, ?_, fun h => ?_, ?_⟩ <;> unfold Consumer.assign <;> split
      · exact k1
      · exact k1
      · exact k2
      · exact k2
      · exact k3 h
      · exact k3 h
      · exact k4
      · exact k4
    · split
      · exact Stage.of_find ⟨d, hd, k1, k2, k3, k4⟩ (find_set_other (Ne.symm e))
      · exact ⟨d, hd, k1, k2, k3, k4⟩
  | discredit v =>
    simp only [TsServer.change]
    have e : u ≠ v := fun e => hc (by rw [e])
    split
    · exact Stage.of_find ⟨d, hd, k1, k2, k3, k4⟩ (find_set_other e)
    · exact ⟨d, hd, k1, k2, k3, k4⟩

theorem Stage.changes : ∀ (cs : List Change) {s : State}, Stage u key hash s → .discredit u ∉ cs →
    Stage u key hash (cs.foldl (TsServer.change cfg) s)
  | [], _, h, _ => h
  | c :: cs, _, h, hc => Stage.changes cs (h.change (fun e => hc (by rw [e]; exact List.mem_cons_self)))
      (fun k => hc (List.mem_cons_of_mem _ k))

theorem Stage.enter (h : Stage u key hash s) (hk : ∀ s a v, .discredit v ∉ env.during s a) (a : Act) :
    Stage u key hash (enter cfg env a s) :=
  Stage.changes _ (h.of_find rfl) (hk _ _ _)

theorem change_next (cfg : Cfg) (s : State) (c : Change) : (change cfg s c).next = s.next := by
  cases c <;> simp only [change] <;> split <;> rfl

theorem enter_next (a : Act) : (enter cfg env a s).next = s.next := by
  unfold enter
  generalize env.during (s.push a) a = cs
  suffices h : ∀ (cs : List Change) (s : State), (cs.foldl (change cfg) s).next = s.next from h cs (s.push a)
  intro cs
  induction cs with
  | nil => intro s; rfl
  | cons c cs ih => intro s; rw [List.foldl_cons, ih, change_next]

/-! ### Steps of the server -/

/-- Neither a message nor the loss of a client. -/
def Mild (a : Act) : Prop := Mute a ∧ ∀ v, a ≠ .discredited v

theorem changes_mild (cs : List Change) : ∀ (s : State), (∀ v, .discredit v ∉ cs) →
    ∃ l, (cs.foldl (change cfg) s).past = l ++ s.past ∧ ∀ x ∈ l, Mild x := by
  induction cs with
  | nil => exact fun s _ => ⟨[], rfl, by simp⟩
  | cons c cs ih =>
    intro s h
    obtain ⟨l, h1, h2⟩ := ih (change cfg s c) (fun v hv => h v (List.mem_cons_of_mem _ hv))
    have hc : ∃ k, (change cfg s c).past = k ++ s.past ∧ ∀ x ∈ k, Mild x := by
      cases c with
      | key u k o =>
        simp only [change]
        split
        · exact ⟨[.keyChange u], rfl, by simp [Mild, Mute]⟩
        · exact ⟨[], rfl, by simp⟩
      | assign u k o =>
        simp only [change]
        split
        · exact ⟨[.assignment u], rfl, by simp [Mild, Mute]⟩
        · exact ⟨[], rfl, by simp⟩
      | discredit u => exact absurd List.mem_cons_self (h u)
    obtain ⟨k, k1, k2⟩ := hc
    refine ⟨l ++ k, ?_, ?_⟩
    · rw [List.foldl_cons, h1, k1, List.append_assoc]
    · intro x hx
      rcases List.mem_append.1 hx with hx | hx
      · exact h2 x hx
      · exact k2 x hx

theorem enter_mild (hk : ∀ s a v, .discredit v ∉ env.during s a) (a : Act) (s : State) :
    ∃ l, (enter cfg env a s).past = l ++ a :: s.past ∧ ∀ x ∈ l, Mild x :=
  changes_mild _ _ (hk _ _)

theorem connect_step (hk : ∀ s a v, .discredit v ∉ env.during s a) (ht : ∀ s a, env.throws s a = false) (hn : s.find u = none) :
    Stage u false false (step cfg env opts (.connected u) s).2 ∧
    ∃ l, (step cfg env opts (.connected u) s).2.past = l ++ s.past ∧ ∀ a ∈ l, Mute a := by
  have e : step cfg env opts (.connected u) s = emitEvent cfg env (defaultEvent cfg "connected".toList)
      (({ s with consumers := s.consumers ++ [(u, Consumer.new)] } : State).push (.opened u)) := by
    simp only [step, hn]
  rw [e]
  unfold emitEvent
  dsimp only
  rw [ht]
  simp only [Bool.false_eq_true, if_false]
  have hf : (s.consumers ++ [(u, Consumer.new)]).lookup u = some Consumer.new := by
    have := lookup_append_new s.consumers u u Consumer.new hn
    rwa [if_pos rfl] at this
  refine ⟨Stage.enter (key := false) ?_ hk _, ?_⟩
  · exact ⟨Consumer.new, hf, rfl, rfl, fun h => absurd h (by decide), rfl⟩
  obtain ⟨l, h1, h2⟩ := enter_past cfg env (.event s.next ((defaultEvent cfg "connected".toList).reference.getD []))
    { consumers := s.consumers ++ [(u, Consumer.new)],
      tasks := s.tasks ++ [(s.next, ⟨0, 0, .event (defaultEvent cfg "connected".toList), .user⟩)], next := s.next + 1,
      past := .opened u :: s.past }
  refine ⟨l ++ [.event s.next ((defaultEvent cfg "connected".toList).reference.getD []), .opened u], ?_, ?_⟩
  · rw [List.append_assoc]; exact h1
  · intro a ha
    simp only [List.mem_append, List.mem_cons, List.not_mem_nil, or_false] at ha
    rcases ha with ha | rfl | rfl
    · obtain ⟨v, hv⟩ := h2 a ha; exact mute_changes hv
    · intro _ _ _ _ h; cases h
    · intro _ _ _ _ h; cases h

theorem frame_not_hung (h : Stage u key hash s) {f : Frame} {m : Msg} (hf : f.Ok) (hs : f.hdr.signature = cfg.decoder.signature)
    (hm : cfg.decoder.getMsg f.hdr.id f.body = .ok m) : (received cfg env opts u f.bytes s).1 ≠ .hung := by
  intro e
  obtain ⟨c, hc, h1, h2⟩ := received_hung.1 e
  obtain ⟨d, hd, k1, _⟩ := h
  rw [hc] at hd
  cases hd
  rw [k1] at h2
  exact h2 _ _ ((readChunk_iff _ _ _ _ _).1 (read_frame hf hs hm))

/-- A message for a handler. -/
theorem serve_start (hk : ∀ s a v, .discredit v ∉ env.during s a) (hi : Inv cfg none none s) (h : Stage u true true s) {f : Frame} {m : Msg}
    (hf : f.Ok) (hs : f.hdr.signature = cfg.decoder.signature) (hm : cfg.decoder.getMsg f.hdr.id f.body = .ok m)
    (hh : ∀ k, ¬ Found m hashRequest k) {task : Task} {a : Nat → Act}
    (hd : ∀ s1, dispatch cfg env opts u m f.hdr.sequence s1 = start cfg env task a s1) :
    ∃ l, (received cfg env opts u f.bytes s).2.past = l ++ a s.next :: .got u m f.hdr.sequence :: .chunk u :: s.past ∧
      (∀ x ∈ l, Mild x) ∧ Stage u true true (received cfg env opts u f.bytes s).2 ∧
      (received cfg env opts u f.bytes s).2.tasks.lookup s.next = some task := by
  obtain ⟨c, s1, c1, c2, c3, c4, c5, c6, c7, c8, c9⟩ := received_frame (env := env) (opts := opts) h hf hs hm
  have hx : m.extract hashRequest = none := extract_none hh
  have he : onMessage cfg env opts u c m f.hdr.sequence s1 = dispatch cfg env opts u m f.hdr.sequence s1 := by
    have hk := c3 rfl
    unfold onMessage onOther
    rw [hx, c4, isAssigned_true]
    cases hkk : c.key with
    | none => rw [hkk] at hk; cases hk
    | some k => cases m.extract cfg.selfKey <;> rfl
  rw [c7, he, hd]
  unfold start
  dsimp only
  obtain ⟨l, h1, h2⟩ := enter_mild (cfg := cfg) hk (a s1.next) { s1 with tasks := s1.tasks ++ [(s1.next, task)], next := s1.next + 1 }
  refine ⟨l, ?_, h2, ?_, ?_⟩
  · rw [h1, c8]
    show l ++ a s.next :: s1.past = _
    rw [c6]
  · have st : Stage u true true s1 := ⟨c, c5, c1, c2, c3, c4⟩
    refine Stage.enter ?_ hk _
    exact st.of_find rfl
  · rw [enter_tasks, c8, c9]
    have : s.tasks.lookup s.next = none := by
      cases e : s.tasks.lookup s.next with
      | none => rfl
      | some x => exact absurd (hi.ids _ (lookup_mem e)) (Nat.lt_irrefl _)
    show (s.tasks ++ [(s.next, task)]).lookup s.next = _
    rw [lookup_append_new _ _ _ _ this, if_pos rfl]

theorem dispatch_request {m : Msg} {seq : UInt32} {ref : Ref} {b : Js} {r : Flow.Request} (hr : r ∈ cfg.workflow.requests)
    (hq : r.request = some ref) (hb : Found m ref b) (ho : ∀ r' ∈ cfg.workflow.requests, ∀ ref' b', r'.request = some ref' → Found m ref' b' → r' = r)
    (s1 : State) : dispatch cfg env opts u m seq s1 = start cfg env ⟨u, seq, .request r, .user⟩ (fun t => .respond t u ref b seq) s1 := by
  unfold dispatch
  cases e : cfg.workflow.requests.findSome? (fun r =>
      r.request.bind (fun ref => (m.extract ref).map (fun b => (r, ref, b)))) with
  | none =>
    exfalso
    rw [List.findSome?_eq_none_iff] at e
    have := e r hr
    rw [hq, Option.bind_some, (extract_iff _ _ _).2 hb] at this
    cases this
  | some y =>
    obtain ⟨r', ref', b'⟩ := y
    obtain ⟨r'', hr', e2⟩ := List.exists_of_findSome?_eq_some e
    cases hq' : r''.request with
    | none => rw [hq'] at e2; cases e2
    | some ref'' =>
      rw [hq'] at e2
      cases hx : m.extract ref'' with
      | none => simp [hx] at e2
      | some b'' =>
        simp [hx] at e2
        obtain ⟨rfl, rfl, rfl⟩ := e2
        have hre := ho r'' hr' ref'' b'' hq' ((extract_iff _ _ _).1 hx)
        subst hre
        rw [hq] at hq'
        cases hq'
        rw [(extract_iff _ _ _).2 hb] at hx
        cases hx
        rfl

theorem dispatch_beacon {m : Msg} {seq : UInt32} {ref : Ref} {b : Js} {x : Flow.Broadcast} (hx : x ∈ cfg.workflow.beacons)
    (hq : x.reference = ref) (hb : Found m ref b) (hn : ∀ r ∈ cfg.workflow.requests, ∀ ref' b', r.request = some ref' → ¬ Found m ref' b')
    (ho : ∀ y ∈ cfg.workflow.beacons, ∀ b', Found m y.reference b' → y.reference = ref) (s1 : State) :
    dispatch cfg env opts u m seq s1 = start cfg env ⟨u, seq, .beacon, .user⟩ (fun t => .beacon t u ref b seq) s1 := by
  unfold dispatch
  have e : cfg.workflow.requests.findSome? (fun r =>
      r.request.bind (fun ref => (m.extract ref).map (fun b => (r, ref, b)))) = none := by
    rw [List.findSome?_eq_none_iff]
    intro r hr
    cases hq : r.request with
    | none => rfl
    | some ref' => rw [Option.bind_some, extract_none (fun b' => hn r hr ref' b' hq)]; rfl
  rw [e]
  dsimp only
  cases e2 : cfg.workflow.beacons.findSome? (fun x => (m.extract x.reference).map (fun b => (x.reference, b))) with
  | none =>
    exfalso
    rw [List.findSome?_eq_none_iff] at e2
    have := e2 x hx
    rw [hq, (extract_iff _ _ _).2 hb] at this
    cases this
  | some y =>
    obtain ⟨ref', b'⟩ := y
    obtain ⟨y, hy, e3⟩ := List.exists_of_findSome?_eq_some e2
    cases hx : m.extract y.reference with
    | none => simp [hx] at e3
    | some b'' =>
      simp [hx] at e3
      obtain ⟨rfl, rfl⟩ := e3
      have := ho y hy _ ((extract_iff _ _ _).1 hx)
      rw [this] at hx ⊢
      rw [(extract_iff _ _ _).2 hb] at hx
      cases hx
      rfl

/-- Broadcasts of a handler are sent. -/
theorem broadcast_step (hk : ∀ s a v, .discredit v ∉ env.during s a) (ht : ∀ s a, env.throws s a = false) (hp : ∀ o, cfg.packs o = true)
    {t : Nat} {task : Task} {casts : List Cast} (h : Stage u key hash s) :
    Stage u key hash (broadcastAll cfg env opts t task casts s).2 ∧
    ∃ l, (broadcastAll cfg env opts t task casts s).2.past = l ++ (deliveries t casts).reverse ++ s.past ∧ ∀ a ∈ l, Mild a := by
  unfold broadcastAll
  split
  · rename_i hc
    rw [List.isEmpty_iff] at hc
    subst hc
    unfold finish
    split
    · exact ⟨h.of_find rfl, [], rfl, by simp⟩
    · dsimp only
      rw [ht]
      obtain ⟨l, k1, k2⟩ := enter_mild (cfg := cfg) hk (.deferred t) s
      refine ⟨(h.enter hk _).of_find rfl, l ++ [.deferred t], ?_, ?_⟩
      · show (enter cfg env (.deferred t) s).past = _
        simpa [deliveries] using k1
      · intro a ha
        rcases List.mem_append.1 ha with ha | ha
        · exact k2 a ha
        · rw [List.mem_singleton.1 ha]
          simp [Mild, Mute]
  · rw [castAll_ok _ _ (fun _ _ => hp _)]
    exact ⟨h.of_find rfl, [], rfl, by simp⟩

end Verif.TsServer

namespace Verif.Network

open Verif Verif.Spec

variable {cfg : TsServer.Cfg} {env : TsServer.Env} {opts : Server.Options}
  {takes : List TsServer.Act → Uuid → UInt32 → TsServer.Out → Bool}
  {down : UInt64 → UInt32 → TsServer.Out → Bytes} {ccfg : TsClient.Cfg} {cenv : TsClient.Env}
  {up : UInt64 → UInt32 → TsClient.Out → Bytes}

/-! ### What is posted -/

theorem tsServerSent_append (ht : ∀ h u q o, takes h u q o = true) (l h : List TsServer.Act) :
    tsServerSent takes (l ++ h) = tsServerSent takes h ++ tsServerSent takes l := by
  induction l with
  | nil => simp [tsServerSent]
  | cons x l ih =>
    cases x with
    | send f u q o => simp [tsServerSent, ih, ht]
    | _ => simpa [tsServerSent] using ih

theorem tsServerSent_drop (ht : ∀ h u q o, takes h u q o = true) {l past past' : List TsServer.Act} (hl : past' = l ++ past) :
    (tsServerSent takes past').drop (tsServerSent takes past).length = tsServerSent takes l := by
  rw [hl, tsServerSent_append ht, List.drop_left]

theorem tsPosted_append (ht : ∀ h u q o, takes h u q o = true) (u : Uuid) (l h : List TsServer.Act) :
    tsPosted takes u (l ++ h) = tsPosted takes u h ++ tsPosted takes u l := by
  rw [← sendsTo_tsServerSent, tsServerSent_append ht, sendsTo_append, sendsTo_tsServerSent, sendsTo_tsServerSent]

theorem tsPosted_mute (u : Uuid) {l : List TsServer.Act} (h : ∀ a ∈ l, TsServer.Mute a) : tsPosted takes u l = [] := by
  induction l with
  | nil => rfl
  | cons x l ih =>
    have ih := ih (fun a ha => h a (List.mem_cons_of_mem _ ha))
    cases x with
    | send f v q o => exact absurd rfl (h _ List.mem_cons_self f v q o)
    | _ => simpa [tsPosted] using ih

theorem tsPosted_sends (ht : ∀ h u q o, takes h u q o = true) (u : Uuid) (f : TsServer.Origin) (xs : List (Uuid × Flow.Ref × TsServer.Js)) :
    tsPosted takes u (xs.map (fun x => TsServer.Act.send f x.1 0 (.msg x.2.1 x.2.2))).reverse =
      (xs.filter (fun x => x.1 = u)).map (fun x => (0, .msg x.2.1 x.2.2)) := by
  induction xs with
  | nil => rfl
  | cons x xs ih =>
    rw [List.map_cons, List.reverse_cons, tsPosted_append ht, ih]
    by_cases h : x.1 = u
    · rw [List.filter_cons_of_pos (by simpa using h)]
      simp [tsPosted, h, ht]
    · rw [List.filter_cons_of_neg (by simpa using h)]
      simp [tsPosted, h]

theorem deliveries_each (k : Nat) (casts : List TsServer.Cast) :
    TsServer.deliveries k casts = (eachCast casts).map (fun x => TsServer.Act.send (.cast k) x.1 0 (.msg x.2.1 x.2.2)) := by
  unfold TsServer.deliveries eachCast
  rw [List.map_flatMap]
  congr 1
  funext x
  rw [List.map_map]
  rfl

theorem tsPosted_deliveries (ht : ∀ h u q o, takes h u q o = true) (u : Uuid) (k : Nat) (casts : List TsServer.Cast) :
    tsPosted takes u (TsServer.deliveries k casts).reverse =
      ((eachCast casts).filter (fun x => x.1 = u)).map (fun x => (0, .msg x.2.1 x.2.2)) := by
  rw [deliveries_each, tsPosted_sends ht]

/-! ### The same with the terms for Rust servers -/

/-- Values of both sides are the same. -/
def TsTerms.terms (t : TsTerms) : Terms TsServer.Js := ⟨Eq, t.name, t.hashes⟩

/-- A message of the TypeScript server. -/
def toOut : TsServer.Out → Server.Out TsServer.Js
  | .selfKey v => .selfKey v
  | .hash e => .hash e
  | .beacon => .beacon
  | .msg ref b => .msg ref b

theorem sameDown_iff {t : TsTerms} {o : TsServer.Out} {m : TsServer.Msg} : TsSameDown t o m ↔ SameDown t.terms (toOut o) m := by
  cases o with
  | msg ref b => exact ⟨fun h => ⟨h.1, h.2.symm⟩, fun h => ⟨h.1, h.2.symm⟩⟩
  | _ => exact Iff.rfl

/-- Broadcasts. -/
def casted (l : List (Uuid × Flow.Ref × TsServer.Js)) : List (Uuid × Server.Out TsServer.Js) := l.map (fun x => (x.1, .msg x.2.1 x.2.2))

theorem casted_msg (l : List (Uuid × Flow.Ref × TsServer.Js)) : ∀ x ∈ casted l, ∃ ref p, x.2 = .msg ref p := by
  intro x hx
  obtain ⟨y, _, rfl⟩ := List.mem_map.1 hx
  exact ⟨_, _, rfl⟩

theorem casted_filter (u : Uuid) (l : List (Uuid × Flow.Ref × TsServer.Js)) :
    ((casted l).filter (fun x => x.1 = u)).map (fun x => ((0 : UInt32), x.2)) =
      ((l.filter (fun x => x.1 = u)).map (fun x => ((0 : UInt32), TsServer.Out.msg x.2.1 x.2.2))).map (fun x => (x.1, toOut x.2)) := by
  unfold casted
  rw [List.filter_map, List.map_map, List.map_map]
  rfl

theorem heard_casted {t : TsTerms} {w : Flow.Store} {u : Uuid} : ∀ {l : List (Uuid × Flow.Ref × TsServer.Js)}
    {h : List (Flow.Ref × TsServer.Js)}, Heard t.terms w u (casted l) h → TsHeardOf w u l h
  | [], _, .nil => .nil
  | (v, ref, b) :: l, h, k => by
    cases k with
    | known h1 h2 h3 => cases h2; exact .known h1 (heard_casted h3)
    | unknown h1 h2 => exact .unknown h1 (heard_casted h2)
    | other h1 h2 => exact .other h1 (heard_casted h2)

/-- Messages and what was read, with the other terms. -/
theorem pairs_terms {t : TsTerms} {L : List (UInt32 × TsServer.Out)} {xs : List (Rust.Income TsClient.Msg)}
    (h : System.Pairs (fun x (i : Rust.Income TsClient.Msg) => i.header.sequence = x.1 ∧ TsSameDown t x.2 i.msg) L xs) :
    System.Pairs (fun x (i : Rust.Income TsClient.Msg) => i.header.sequence = x.1 ∧ SameDown t.terms x.2 i.msg)
      (L.map (fun x => (x.1, toOut x.2))) xs := by
  induction h with
  | nil => exact .nil
  | cons h _ ih => exact .cons ⟨h.1, sameDown_iff.1 h.2⟩ ih

theorem tsTravels {t : TsTerms} {L : List (UInt32 × TsServer.Out)} {b : Bytes} (h : Underway down L b)
    (hr : ∀ x ∈ L, TsReadRight t ccfg down x.2) :
    ∃ fs, (∀ f ∈ fs, Good ccfg.decoder f) ∧ b = stream fs ∧
      System.Pairs (fun x (i : Rust.Income TsClient.Msg) => i.header.sequence = x.1 ∧ TsSameDown t x.2 i.msg) L
        (fs.filterMap (Spec.delivered ccfg.decoder)) := by
  induction h with
  | nil => exact ⟨[], by simp, rfl, .nil⟩
  | @cons q o L b ts _ ih =>
    obtain ⟨fs, h1, h2, h3⟩ := ih (fun y hy => hr y (List.mem_cons_of_mem _ hy))
    obtain ⟨m, k, hs⟩ := hr _ List.mem_cons_self
    obtain ⟨f, k1, k2, k3, k4⟩ := k ts q
    refine ⟨f :: fs, fun g hg' => ?_, ?_, ?_⟩
    · rcases List.mem_cons.1 hg' with rfl | hg'
      · obtain ⟨j1, j2⟩ := System.delivered_ok k4
        exact ⟨k1, j1, m, j2⟩
      · exact h1 g hg'
    · rw [k3, h2]; rfl
    · rw [List.filterMap_cons, k4]
      exact .cons ⟨k2, hs⟩ h3

/-! ### The connection -/

/-- The connection of `u` while the server runs. -/
structure TsAt (n : Net (tsServer cfg env opts takes down) (tsClient ccfg cenv up)) (u : Uuid) (cl : TsClient.State) (ub db : Bytes)
    (sv : TsServer.State) : Prop where
  server : n.server = (false, sv)
  conn : ∃ gu gd, n.find u = some ⟨(false, cl), ub, db, gu, gd⟩

section
variable {n : Net (tsServer cfg env opts takes down) (tsClient ccfg cenv up)} {u : Uuid} {cl : TsClient.State} {ub db : Bytes}
  {sv : TsServer.State}

/-- The client goes on. -/
theorem TsAt.own (h : TsAt n u cl ub db sv) (ts : UInt64) {i : TsClient.Input} {cl' : TsClient.State} (hi : tsOwn i = true)
    (hs : TsClient.step ccfg cenv cl i = some cl') (l : List TsClient.Act) (hl : cl'.past = l ++ cl.past) :
    TsAt (run [(ts, .client u i)] n) u cl' (ub ++ packAll up ts (tsSent l)) db sv := by
  obtain ⟨gu, gd, hc⟩ := h.conn
  have hr : (if tsOwn i = true then TsClient.run ccfg cenv [i] cl else (false, cl)) = (false, cl') := by
    rw [if_pos hi, TsClient.run, hs]
    rfl
  have hk : run [(ts, .client u i)] n = n.set u ⟨(false, cl'), ub ++ packAll up ts (tsSent l), db, gu, gd⟩ := by
    simp only [run, List.foldl_cons, List.foldl_nil, step, hc, Conn.goOn]
    rw [hr]
    show n.set u ⟨_, ub ++ packAll up ts ((tsSent cl'.past).drop (tsSent cl.past).length), db, gu, gd⟩ = _
    rw [sent_drop hl]
  rw [hk]
  exact ⟨h.server, gu, gd, find_set_self hc⟩

/-- All bytes arrive at the client. -/
theorem TsAt.toClient {fs : List Frame} (h : TsAt n u cl ub (stream fs) sv) (ts : UInt64) (hg : ∀ f ∈ fs, Good ccfg.decoder f)
    (hr : cl.reader = ⟨[], []⟩) {cl' : TsClient.State}
    (hs : TsClient.onMessages ccfg cenv (fs.filterMap (Spec.delivered ccfg.decoder))
      { cl with reader := ⟨[], fs.filterMap (Spec.delivered ccfg.decoder)⟩, past := .chunk (stream fs) :: cl.past } = cl')
    (l : List TsClient.Act) (hl : cl'.past = l ++ cl.past) :
    TsAt (run [(ts, .toClient u (stream fs).length)] n) u cl' (ub ++ packAll up ts (tsSent l)) [] sv := by
  obtain ⟨gu, gd, hc⟩ := h.conn
  have hk : TsClient.run ccfg cenv [.received (stream fs)] cl = (false, cl') := by
    rw [TsClient.run, show TsClient.step ccfg cenv cl (.received (stream fs)) = some cl' by
      show TsClient.received ccfg cenv (stream fs) cl = _
      rw [received_stream hg hr, hs]]
    rfl
  have hk : run [(ts, .toClient u (stream fs).length)] n =
      n.set u ⟨(false, cl'), ub ++ packAll up ts (tsSent l), [], gu, gd ++ stream fs⟩ := by
    simp only [run, List.foldl_cons, List.foldl_nil, step, hc, Conn.goOn, List.take_length, List.drop_length, Bool.not_false, if_true]
    rw [hk]
    show n.set u ⟨_, ub ++ packAll up ts ((tsSent cl'.past).drop (tsSent cl.past).length), [], gu, gd ++ stream fs⟩ = _
    rw [sent_drop hl]
  rw [hk]
  exact ⟨h.server, gu, _, find_set_self hc⟩

/-- A step of the server. -/
theorem TsAt.serve (h : TsAt n u cl ub db sv) (ht : ∀ h u q o, takes h u q o = true) (ts : UInt64) {e : ServerEvent TsServer.Input}
    {i : TsServer.Input} (he : tsInput e = some i) (hs : (TsServer.step cfg env opts i sv).1 ≠ .hung)
    (l : List TsServer.Act) (hl : (TsServer.step cfg env opts i sv).2.past = l ++ sv.past) :
    TsAt (n.serve ts e) u cl ub (db ++ packAll down ts (tsPosted takes u l)) (TsServer.step cfg env opts i sv).2 := by
  obtain ⟨gu, gd, hc⟩ := h.conn
  have hk : (tsServer cfg env opts takes down).step e n.server = (false, (TsServer.step cfg env opts i sv).2) := by
    rcases tsServer_step (cfg := cfg) (env := env) (opts := opts) (takes := takes) (pack := down) e n.server with ⟨_, k⟩ | ⟨j, k1, _, k2⟩
    · rcases k with k | k
      · rw [he] at k; cases k
      · rw [h.server] at k; cases k
    · rw [he] at k1
      injection k1 with k1
      subst k1
      rw [k2, h.server]
      obtain ⟨g1, g2⟩ := ts_run_one (cfg := cfg) (env := env) (opts := opts) i sv
      refine Prod.ext ?_ g1
      cases g : (TsServer.run cfg env opts [i] sv).1 with
      | false => rfl
      | true => exact absurd (g2.1 g) hs
  refine ⟨hk, gu, gd, ?_⟩
  rw [find_serve, hc, hk, h.server]
  show some (Conn.mk _ _ (db ++ packAll down ts (sendsTo u ((tsServerSent takes _).drop (tsServerSent takes sv.past).length))) _ _) = _
  rw [tsServerSent_drop ht hl, sendsTo_tsServerSent]

/-- All bytes arrive at the server. -/
theorem TsAt.toServer (h : TsAt n u cl ub db sv) (ht : ∀ h u q o, takes h u q o = true) (ts : UInt64)
    (hs : (TsServer.received cfg env opts u ub sv).1 ≠ .hung) (l : List TsServer.Act)
    (hl : (TsServer.received cfg env opts u ub sv).2.past = l ++ sv.past) :
    TsAt (run [(ts, .toServer u ub.length)] n) u cl [] (db ++ packAll down ts (tsPosted takes u l))
      (TsServer.received cfg env opts u ub sv).2 := by
  obtain ⟨gu, gd, hc⟩ := h.conn
  have h0 : TsAt (n.set u ⟨(false, cl), [], db, gu ++ ub, gd⟩) u cl [] db sv := ⟨h.server, _, _, find_set_self hc⟩
  have := h0.serve ht ts (e := .data u ub) (i := .received u ub) rfl hs l hl
  have e : run [(ts, .toServer u ub.length)] n = Net.serve ts (.data u ub) (n.set u ⟨(false, cl), [], db, gu ++ ub, gd⟩) := by
    simp [run, step, hc]
  rw [e]
  exact this

/-- The server gets one message of the handshake. -/
theorem TsAt.asked (sm : TsSmooth cfg env takes ccfg cenv) {t : TsTerms} {q : UInt32} {o : TsClient.Out} (h : TsAt n u cl (up 0 q o) [] sv)
    {key hash key' hash' : Bool} (st : TsServer.Stage u key hash sv)
    (hh : TsHeardRight t cfg up o) {r : TsServer.Out}
    (hs : ∀ (f : Frame) m ps, TsSameUp t cfg o m → m.body = .obj ps → f.Ok → f.hdr.signature = cfg.decoder.signature →
      cfg.decoder.getMsg f.hdr.id f.body = .ok m → f.hdr.sequence = q →
      TsServer.Stage u key' hash' (TsServer.received cfg env opts u f.bytes sv).2 ∧
      (TsServer.received cfg env opts u f.bytes sv).2.past = .send .handshake u q r :: .got u m q :: .chunk u :: sv.past) :
    ∃ k sv', TsAt (run [(0, .toServer u k)] n) u cl [] (down 0 q r) sv' ∧ TsServer.Stage u key' hash' sv' := by
  obtain ⟨m, ps, ht, hsame, hb⟩ := hh
  obtain ⟨f, f1, f2, f3, f4⟩ := ht 0 q
  obtain ⟨k1, k2⟩ := System.delivered_ok f4
  obtain ⟨h2, h3⟩ := hs f m ps hsame hb f1 k1.symm k2 f2
  rw [f3] at h
  have := h.toServer sm.taken 0 (TsServer.frame_not_hung st f1 k1.symm k2)
    [.send .handshake u q r, .got u m q, .chunk u] h3
  refine ⟨f.bytes.length, _, ?_, h2⟩
  simpa [tsPosted, packAll, sm.taken] using this

/-- The answer a client waits for arrives. -/
theorem TsAt.one (sm : TsSmooth cfg env takes ccfg cenv) {t : TsTerms} {q : UInt32} {o : TsServer.Out} {w : TsClient.Waiter}
    (h : TsAt n u cl [] (down 0 q o) sv) (hr : TsReadRight t ccfg down o) (hrd : cl.reader = ⟨[], []⟩) (hp : cl.pending = [(q.toNat, w)]) :
    ∃ k m more, TsSameDown t o m ∧ tsSent more = [] ∧ TsAt (run [(0, .toClient u k)] n) u { cl with
      pending := [], tasks := cl.tasks ++ [.answered w m], past := more ++ cl.past } [] [] sv := by
  obtain ⟨fs, g1, g2, g3⟩ := tsTravels (t := t) (ccfg := ccfg) (Underway.all (pack := down) 0 [(q, o)]) (by simpa using hr)
  rw [show packAll down 0 [(q, o)] = down 0 q o by simp [packAll]] at g2
  rw [g2] at h
  generalize hxs : fs.filterMap (Spec.delivered ccfg.decoder) = xs at g3
  obtain _ | ⟨⟨e1, e2⟩, g4⟩ := g3
  rename_i i xs
  cases g4
  obtain ⟨hd, m⟩ := i
  obtain ⟨more, k1, _, k3⟩ := onMessages_answered sm.toGentle (t := t.terms) (u := u) (s := { cl with past := .chunk (stream fs) :: cl.past })
    (m := m) (xs := []) (bl := []) hp e1 (by simp) .nil
  have := h.toClient 0 g1 hrd (cl' := { cl with
      reader := ⟨[], []⟩, pending := [], tasks := cl.tasks ++ [.answered w m],
      past := more ++ .delivered w q m :: .got q m :: .chunk (stream fs) :: cl.past }) (by rw [hxs]; exact k3)
    (more ++ [.delivered w q m, .got q m, .chunk (stream fs)]) (by simp)
  have hl : tsSent (more ++ [.delivered w q m, .got q m, .chunk (stream fs)]) = [] := by
    rw [tsSent_append, k1]; rfl
  rw [hl] at this
  refine ⟨(stream fs).length, m, more ++ [.delivered w q m, .got q m, .chunk (stream fs)], e2, hl, ?_⟩
  simp only [packAll, List.flatMap_nil, List.append_nil] at this
  rw [List.append_assoc, hrd]
  exact this

end

/-! ### A new connection -/

theorem ts_connects (sm : TsSmooth cfg env takes ccfg cenv) {t : TsTerms}
    {n : Net (tsServer cfg env opts takes down) (tsClient ccfg cenv up)} {u : Uuid} (hrun : n.server.1 = false) (hf : TsFresh n u)
    (hn : n.server.2.find u = none) (hfk : Foreign cfg.selfKey)
    (hk : TsHeardRight t cfg up .selfKey) (hh : TsHeardRight t cfg up .hash) (hhash : t.hashes = (cfg.protocolHash, cfg.workflowHash))
    (rk : TsReadRight t ccfg down (.selfKey u)) (rh : TsReadRight t ccfg down (.hash false))
    (hv : (t.name u).all TsClient.jsSpace = false) :
    ∃ es cl sv, (∀ e ∈ es, TsRegular u e.2) ∧ TsAt (run es n) u cl [] [] sv ∧ Idle cl ∧ TsServer.Stage u true true sv ∧
      .emitted (.ready (.str (t.name u))) ∈ cl.past ∧ cl.uuid = some (t.name u) ∧ cl.sequence = 3 := by
  -- the connection is taken
  obtain ⟨st1, l1, k1, k2⟩ := TsServer.connect_step (cfg := cfg) (opts := opts) sm.kept sm.quiet hn
  have A0 : TsAt ({ n with conns := n.conns ++ [(u, ⟨(false, .new), [], [], [], []⟩)] } :
      Net (tsServer cfg env opts takes down) (tsClient ccfg cenv up)) u .new [] [] n.server.2 :=
    ⟨Prod.ext hrun rfl, [], [], by rw [find_snoc hf.conns, if_pos rfl]⟩
  have A1 := A0.serve sm.taken 0 (e := .opened u) (i := .connected u) rfl
    (fun h => by obtain ⟨_, _, _, h, _⟩ := TsServer.step_hung.1 h; cases h) l1 k1
  rw [tsPosted_mute u k2] at A1
  have h0 : run [(0, .opened u)] n = Net.serve 0 (.opened u) { n with conns := n.conns ++ [(u, ⟨(false, .new), [], [], [], []⟩)] } := by
    have hu : sendsTo u (tsServerSent takes n.server.2.past) = [] := by
      rw [sendsTo_tsServerSent, List.eq_nil_iff_forall_not_mem]
      rintro ⟨q, o⟩ hq
      obtain ⟨f, hq⟩ := mem_tsPosted hq
      exact hf.unsent f q o hq
    simp [run, step, hf.conns, hu]
  rw [← h0] at A1
  -- the client asks at once
  have A2 := A1.own 0 rfl (client_connected sm.toGentle) _ (List.append_nil _).symm
  rw [show ([] : Bytes) ++ packAll up 0 (tsSent [.emitted .connected, .sent (.assign 0 true) 1 .selfKey, .assigning 0 true, .opened]) =
    up 0 1 .selfKey by simp [tsSent, packAll]] at A2
  simp only [packAll, List.flatMap_nil, List.append_nil] at A2
  -- the self key
  obtain ⟨c5, sv5, A5, st5⟩ := A2.asked sm st1 (r := .selfKey u) hk (fun f m ps hm hb k1 k2 k3 k4 => by
    have := TsServer.serve_selfKey (env := env) (opts := opts) st1 k1 k2 k3 (TsServer.found_isA hm hb) (sm.answer _)
    rw [k4] at this
    exact this)
  obtain ⟨c6, m6, more6, s6, _, A6⟩ := A5.one sm rk rfl rfl
  have A7 := A6.own 0 rfl (client_key (sameDown_iff.1 s6) hv _) [.assignEnded 0 (some (.str (t.name u)))] rfl
  have A8 := A7.own 0 rfl (client_hash sm.toGentle _ _ _) [.sent (.hash 0 (.str (t.name u))) 2 .hash] rfl
  rw [show ([] : Bytes) ++ packAll up 0 (tsSent [.assignEnded 0 (some (.str (t.name u)))]) ++
      packAll up 0 (tsSent [.sent (.hash 0 (.str (t.name u))) 2 .hash]) = up 0 2 .hash by simp [tsSent, packAll]] at A8
  -- the hash
  obtain ⟨c9, sv9, A9, st9⟩ := A8.asked sm st5 (r := .hash false) hh (fun f m ps hm hb k1 k2 k3 k4 => by
    obtain ⟨h1, ps, h2, h3, h4⟩ := hm
    rw [hhash] at h3 h4
    have hfd : TsServer.Found m TsServer.hashRequest m.body := TsServer.found_isA
      (show TsServer.Spells m.path _ by rw [h1]; exact ⟨by decide, _, ⟨by decide, rfl⟩, hashRequest_name⟩) h2
    rw [h2] at hfd
    have := TsServer.serve_hash (env := env) (opts := opts) st5 k1 k2 k3
      (fun k hk => service_foreign h1 hfk (found_holds hk)) hfd h3 h4 (sm.answer _)
    rw [k4] at this
    exact this)
  obtain ⟨c10, m10, more10, s10, _, A10⟩ := A9.one sm rh rfl rfl
  have A11 := A10.own 0 rfl (client_ready sm.toGentle (sameDown_iff.1 s10) _ _ _) [.emitted (.ready (.str (t.name u))), .shakeEnded 0 true] rfl
  rw [show ([] : Bytes) ++ packAll up 0 (tsSent [.emitted (.ready (.str (t.name u))), .shakeEnded 0 true]) = [] by simp [tsSent, packAll]] at A11
  simp only [← run_append] at A11
  refine ⟨_, _, _, ?_, A11, ⟨rfl, rfl, rfl⟩, st9, by simp [TsTerms.terms], rfl, rfl⟩
  intro e he
  simp only [List.mem_append, List.mem_singleton] at he
  rcases he with (((((((he | he) | he) | he) | he) | he) | he) | he) | he
  all_goals (subst he; constructor)

theorem ts_fresh_server {n : Net (tsServer cfg env opts takes down) (tsClient ccfg cenv up)} {es : List (ServerEvent TsServer.Input)} {u : Uuid}
    (hi : InvWith n es) (hc : n.find u = none) : n.server.2.find u = none := by
  rw [hi.server]
  exact ((tsKnown_run es).none u (hi.none u hc)).1

end Verif.Network
