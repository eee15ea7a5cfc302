import Verif.Proofs.SystemConnect
import Verif.Props.SystemTexts
set_option autoImplicit false
/-!
Property theorems about what generated Rust clients and a generated Rust server can still reach together:
C152–C156. Nothing gets stuck: whatever happened before, there is a way on.
-/
namespace Verif.Props

open Verif Verif.Spec Verif.System

variable {P : Type}

theorem usedFor_none {u : Uuid} {h : List (Server.Act P)} (k : ∀ q o, .send u q o true ∉ h) : usedFor u h = false := by
  induction h with
  | nil => rfl
  | cons x h ih =>
    have ih := ih (fun q o hm => k q o (List.mem_cons_of_mem _ hm))
    cases x with
    | send v q o ok =>
      cases ok with
      | true =>
        have hv : v ≠ u := by rintro rfl; exact k q o List.mem_cons_self
        simp [usedFor, hv, ih]
      | false => exact ih
    | _ => exact ih

/-! ### C152 -/

/-- **C152** Whatever happened before, as long as the server runs, a new client can connect: with nothing but
regular progress of its connection, client and server make their handshake, and user code of the client is told
so. Nothing gets in its way, neither other clients nor broadcasts of the event `connected`. -/
theorem C152_can_connect (w : Setup P) (sm : Smooth w) (hem : ∀ s e p, w.env.emit s e p ≠ .panic) (name : Uuid → List Char)
    (es : List (UInt64 × Event P)) (hrun : (run w es .new).exit = .running) {u : Uuid} (hf : Fresh (run w es .new) u)
    (hk : HeardRight w (w.server.protocolHash, w.server.workflowHash) .selfKey)
    (hh : HeardRight w (w.server.protocolHash, w.server.workflowHash) .hash)
    (rc : ReadRight w name .confirmation) (rk : ReadRight w name (.selfKey u)) (rh : ReadRight w name (.hash false))
    (hid : w.client.parseUuid (name u) ≠ none)
    (hb : ∀ t e cs l, w.env.emit t e none = .ok cs → Server.Gives e.broadcasts cs l → ∀ x ∈ l, x.1 = u → ReadRight w name x.2) :
    ∃ es', Progress u [] es' ∧ Established (run w (es ++ es') .new) u ∧
      ∃ c, (run w (es ++ es') .new).find u = some c ∧ .emitted .connected ∈ c.client.past := by
  obtain ⟨v, hv⟩ := Option.ne_none_iff_exists'.1 hid
  have hn := ((inv_run (w := w) es).none u hf.conns).1
  have hcf : u ∉ (run w es .new).server.confirms := fun h => by
    have := waiting_run (w := w) es u h
    rw [hf.conns] at this
    cases this
  obtain ⟨es', cl, sv, h1, h2, h3, h4, h5⟩ := connects sm hem (name := name) hrun hf.conns (usedFor_none hf.unsent) hn hcf hk hh rfl
    rc rk rh hv hb
  rw [← run_append] at h2
  obtain ⟨c, k1, k2, k3, k4, k5, k6, _⟩ := h4.here
  have hs := h2.server
  subst hs
  exact ⟨es', h1, ⟨h2.running, ⟨cl, h2.conn, h3⟩, c, k1, k4, k2 rfl, k3, k6, k5 rfl⟩, _, h2.conn, h5⟩

/-- **C152** User code of the server can then assign the client, whatever the key; the client does not notice. -/
theorem C152_can_be_assigned (w : Setup P) {n : Net P} {u : Uuid} (h : Established n u) (ts : UInt64) (k : P) (overwrite : Bool) :
    Established (run w [(ts, .server (.setAssigned u k overwrite))] n) u ∧
    Admitted w (run w [(ts, .server (.setAssigned u k overwrite))] n) u ∧
    (run w [(ts, .server (.setAssigned u k overwrite))] n).find u = n.find u := by
  obtain ⟨cl, h1, h2⟩ := h.conn
  obtain ⟨c, k1, k2, k3, k4, k5, k6⟩ := h.server
  have st : Server.Stage u true true true false n.server := ⟨c, k1, fun _ => k3, k4, k2, fun _ => k6, k5, (nomatch ·)⟩
  have st' := Server.step_aside (cfg := w.server) (env := w.env) (opts := w.opts) (x := .setAssigned u k overwrite) trivial st
  have A : At n u cl [] [] n.server := ⟨h.running, h1, rfl⟩
  have hs : ∃ s', Server.step w.server w.env w.opts (.setAssigned u k overwrite) n.server = (.ok (), s') ∧
      ∃ l, s'.past = l ++ n.server.past ∧ sends u l = [] := by
    simp only [Server.step, k1]
    exact ⟨_, rfl, [_], rfl, rfl⟩
  obtain ⟨s', e, l, hl, hsd⟩ := hs
  rw [e] at st'
  have A1 := A.serve (w := w) ts (by simp) (by simp) e l hl
  rw [hsd, List.flatMap_nil, List.append_nil] at A1
  have h0 : run w [(ts, .server (.setAssigned u k overwrite))] n = n.serve w ts (.setAssigned u k overwrite) := by
    simp [run, System.step, ownServer]
  rw [← h0] at A1
  obtain ⟨e1, e2⟩ := A1.established (w := w) h2 st' (fun _ => by simp)
  exact ⟨e1, e2, by rw [A1.conn, h1]⟩

/-- How ids are written in the witness. -/
def townName (u : Uuid) : List Char := [Char.ofNat (townByte [UInt8.ofNat u])]

theorem town_smooth : Smooth town := ⟨fun _ _ _ _ => rfl, fun _ => rfl, fun _ => rfl, fun _ _ => rfl⟩

theorem town_frame_ok (id : UInt32) (ts : UInt64) (q : UInt32) (x : Nat) : (townFrame id ts q x).Ok :=
  ⟨rfl, by simp [townFrame]⟩

theorem town_hears {o : Client.Out Nat} (h : ∀ id ref x, o = .msg id ref x → x < 256 ∧ (ref = ['Q'] ∨ ref = ['B'])) :
    HeardRight town (['p'], ['w']) o := by
  cases o with
  | selfKey => exact ⟨.msg ['K'] 0, fun ts q => ⟨_, town_frame_ok 1 ts q 0, rfl, rfl, rfl⟩, 0, rfl⟩
  | hash => exact ⟨.hash ['p'] ['w'], fun ts q => ⟨_, town_frame_ok 2 ts q 0, rfl, rfl, rfl⟩, rfl⟩
  | msg id ref x =>
    obtain ⟨hx, hr⟩ := h id ref x rfl
    have hb : townByte [UInt8.ofNat x] = x := by
      simp only [townByte, List.headD_cons, UInt8.toNat_ofNat']
      exact Nat.mod_eq_of_lt hx
    rcases hr with rfl | rfl
    · refine ⟨.msg ['Q'] x, fun ts q => ⟨_, town_frame_ok 3 ts q x, rfl, rfl, ?_⟩, rfl⟩
      show some (Rust.Income.mk _ (Server.In.msg ['Q'] (townByte [UInt8.ofNat x]))) = _
      rw [hb]
    · refine ⟨.msg ['B'] x, fun ts q => ⟨_, town_frame_ok 5 ts q x, rfl, rfl, ?_⟩, rfl⟩
      show some (Rust.Income.mk _ (Server.In.msg ['B'] (townByte [UInt8.ofNat x]))) = _
      rw [hb]

theorem town_reads {o : Server.Out Nat} (h : ∀ ref x, o = .msg ref x → x < 256 ∧ (ref = ['R'] ∨ ref = ['U'] ∨ ref = ['E'])) :
    ReadRight town townName o := by
  cases o with
  | confirmation => exact ⟨.confirmation, fun ts q => ⟨_, town_frame_ok 1 ts q 0, rfl, rfl, rfl⟩, rfl⟩
  | selfKey u => exact ⟨.selfKey (townName u), fun ts q => ⟨_, town_frame_ok 2 ts q u, rfl, rfl, rfl⟩, rfl⟩
  | hash e =>
    cases e with
    | true => exact ⟨.hash true, fun ts q => ⟨_, town_frame_ok 4 ts q 0, rfl, rfl, rfl⟩, rfl⟩
    | false => exact ⟨.hash false, fun ts q => ⟨_, town_frame_ok 3 ts q 0, rfl, rfl, rfl⟩, rfl⟩
  | beacon => exact ⟨.beacon false, fun ts q => ⟨_, town_frame_ok 5 ts q 0, rfl, rfl, rfl⟩, rfl⟩
  | msg ref x =>
    obtain ⟨hx, hr⟩ := h ref x rfl
    have hb : townByte [UInt8.ofNat x] = x := by
      simp only [townByte, List.headD_cons, UInt8.toNat_ofNat']
      exact Nat.mod_eq_of_lt hx
    rcases hr with rfl | rfl | rfl
    · refine ⟨.msg ['R'] x, fun ts q => ⟨_, town_frame_ok 6 ts q x, rfl, rfl, ?_⟩, rfl⟩
      show some (Rust.Income.mk _ (Client.In.msg ['R'] (townByte [UInt8.ofNat x]))) = _
      rw [hb]
    · refine ⟨.msg ['U'] x, fun ts q => ⟨_, town_frame_ok 7 ts q x, rfl, rfl, ?_⟩, rfl⟩
      show some (Rust.Income.mk _ (Client.In.msg ['U'] (townByte [UInt8.ofNat x]))) = _
      rw [hb]
    · refine ⟨.msg ['E'] x, fun ts q => ⟨_, town_frame_ok 8 ts q x, rfl, rfl, ?_⟩, rfl⟩
      show some (Rust.Income.mk _ (Client.In.msg ['E'] (townByte [UInt8.ofNat x]))) = _
      rw [hb]

theorem town_gives {cs : Server.Casts Nat townEvent.broadcasts} (hcs : cs = (([1], 9), ())) {l : List (Uuid × Server.Out Nat)}
    (h : Server.Gives townEvent.broadcasts cs l) : l = [(1, .msg ['U'] 9)] := by
  subst hcs
  cases h with
  | required h => cases h; rfl

theorem town_news {t : Server.State Nat} {e : Flow.Event} {p : Option Nat} {cs : Server.Casts Nat e.broadcasts} {l : List (Uuid × Server.Out Nat)}
    (h : town.env.emit t e p = .ok cs) (hg : Server.Gives e.broadcasts cs l) : l = [(1, .msg ['U'] 9)] := by
  by_cases he : e = townEvent
  · subst he
    refine town_gives ?_ hg
    have : town.env.emit t townEvent p = .ok (([1], 9), ()) := rfl
    rw [this] at h
    injection h with h
    exact h.symm
  · have : town.env.emit t e p = .err := by simp [town, townEnv, he]
    rw [this] at h
    cases h

theorem town_no_panic (s : Server.State Nat) (e : Flow.Event) (p : Option Nat) : town.env.emit s e p ≠ .panic := by
  by_cases he : e = townEvent
  · subst he; exact fun h => nomatch h
  · simp [town, townEnv, he]

/-- After client 1 has done all it does in `townAll`, client 2 can connect: all that C152 asks for is there. -/
theorem town_second : ∃ es', Progress 2 [] es' ∧ Established (run town (townAll ++ es') .new) 2 ∧
    ∃ c, (run town (townAll ++ es') .new).find 2 = some c ∧ .emitted .connected ∈ c.client.past := by
  refine C152_can_connect town town_smooth town_no_panic townName townAll (by decide +kernel) ⟨by decide +kernel, ?_⟩
    (town_hears (by simp)) (town_hears (by simp)) (town_reads (by simp)) (town_reads (by simp)) (town_reads (by simp)) (by simp [town])
    (fun t e cs l h hg x hx _ => ?_)
  · intro q o h
    rw [town_past] at h
    simp [townPast] at h
  · rw [town_news h hg] at hx
    rw [List.mem_singleton.1 hx]
    exact town_reads (by simp)

/-- Client 1 of the witness is connected and assigned. -/
theorem town_first : ∃ n, Established n 1 ∧ Admitted town n 1 := by
  obtain ⟨es', _, h, _⟩ := C152_can_connect (u := 1) town town_smooth town_no_panic townName [] rfl ⟨rfl, by simp [run, Net.new, Server.State.new]⟩
    (town_hears (by simp)) (town_hears (by simp)) (town_reads (by simp)) (town_reads (by simp)) (town_reads (by simp)) (by simp [town])
    (fun t e cs l h hg x hx _ => by
      rw [town_news h hg] at hx
      rw [List.mem_singleton.1 hx]
      exact town_reads (by simp))
  obtain ⟨h1, h2, _⟩ := C152_can_be_assigned town h 0 0 true
  exact ⟨_, h1, h2⟩

/-! ### C153 -/

/-- **C153** A call of a client that is connected returns: a request with what user code of the server decided on for
this very message, a beacon with its confirmation. Client and server are then ready for the next call, and the
client got the broadcasts the call caused for itself. -/
theorem C153_call_returns (w : Setup P) (sm : Smooth w) {name : Uuid → List Char} {hashes : List Char × List Char} {n : Net P} {u : Uuid}
    (h : Established n u) (ha : Admitted w n u) {job : Client.Job} {body : P} (hs : Servable w name hashes u job body) :
    ∃ es res l, Progress u [(job, body)] es ∧ Established (run w es n) u ∧ Admitted w (run w es n) u ∧
      Right w u n.server.past job body res l ∧ Returned n (run w es n) u job body res ∧
      Received n (run w es n) u ((messagesFor u l).filter (fun x => x.1 ∈ w.client.broadcasts)) := by
  obtain ⟨es, res, l, h1, h2, h3, h4, h5, h6, _⟩ := answered sm h ha hs
  exact ⟨es, res, l, h1, h2, h3, h4, h5, h6⟩

theorem town_request (x : Nat) (hx : x < 255) : Servable town townName (['p'], ['w']) 1 (.request townRequest) x := by
  refine .request (ref := ['Q']) (by simp [town, townFlow]) rfl (by simp [town, townFlow]) (fun id => town_hears ?_) (fun s => ?_) (fun s o l hd => ?_)
  · intro id' ref' body' e
    injection e with _ e1 e2
    subst e1 e2
    exact ⟨by omega, .inl rfl⟩
  · exact ⟨_, _, .plain (by decide) rfl⟩
  · cases hd with
    | error h1 _ => exact absurd h1 (by decide)
    | action h1 _ _ => exact absurd h1 (by decide)
    | plainError _ h2 => cases h2
    | plain _ h2 =>
      injection h2 with h2
      injection h2 with h2
      subst h2
      refine ⟨town_reads ?_, by simp⟩
      intro ref' y e
      injection e with e1 e2
      subst e1 e2
      exact ⟨by omega, .inl rfl⟩

theorem town_beacon : Servable town townName (['p'], ['w']) 1 (.beacon ['B']) 5 := by
  refine .beacon (b := ⟨['B'], false⟩) (by simp [town, townFlow]) (by decide) (fun id => town_hears ?_) (fun s => rfl) (town_reads (by simp))
  intro id' ref' body' e
  injection e with _ e1 e2
  subst e1 e2
  exact ⟨by decide, .inr rfl⟩

/-- The request `Q` and the beacon `B` of the witness can be called. -/
example : (∃ n, Established n 1 ∧ Admitted town n 1) ∧ Servable town townName (['p'], ['w']) 1 (.request townRequest) 41 ∧
    Servable town townName (['p'], ['w']) 1 (.beacon ['B']) 5 :=
  ⟨town_first, town_request 41 (by decide), town_beacon⟩

/-! ### C154 -/

/-- **C154** The same for any number of calls, one after another: no call uses anything up. -/
theorem C154_calls_return (w : Setup P) (sm : Smooth w) {name : Uuid → List Char} {hashes : List Char × List Char} {u : Uuid} :
    ∀ (calls : List (Client.Job × P)) {n : Net P}, Established n u → Admitted w n u →
    (∀ x ∈ calls, Servable w name hashes u x.1 x.2) →
    ∃ es, Progress u calls es ∧ Established (run w es n) u ∧ Admitted w (run w es n) u ∧
      AllReturned u (fun n job body res => ∃ l, Right w u n.server.past job body res l) calls n (run w es n)
  | [], n, h, ha, _ => ⟨[], ⟨by simp, rfl⟩, h, ha, .nil⟩
  | (job, body) :: calls, n, h, ha, hs => by
    obtain ⟨es, res, l, h1, h2, h3, h4, h5, _⟩ := C153_call_returns w sm h ha (hs _ List.mem_cons_self)
    obtain ⟨es', k1, k2, k3, k4⟩ := C154_calls_return w sm calls h2 h3 (fun x hx => hs x (List.mem_cons_of_mem _ hx))
    simp only [← run_append] at k2 k3 k4
    exact ⟨es ++ es', h1.append k1, k2, k3, .cons h5 ⟨l, h4⟩ k4⟩

/-- Two requests and a beacon of the witness, one after another. -/
example : ∃ n es, Progress 1 [(.request townRequest, 41), (.beacon ['B'], 5), (.request townRequest, 42)] es ∧
    Established (run town es n) 1 := by
  obtain ⟨n, h1, h2⟩ := town_first
  obtain ⟨es, h3, h4, _⟩ := C154_calls_return town town_smooth (name := townName) (hashes := (['p'], ['w']))
    [(.request townRequest, 41), (.beacon ['B'], 5), (.request townRequest, 42)] h1 h2 (by
      intro x hx
      simp only [List.mem_cons, List.not_mem_nil, or_false] at hx
      rcases hx with rfl | rfl | rfl
      · exact town_request 41 (by decide)
      · exact town_beacon
      · exact town_request 42 (by decide))
  exact ⟨n, es, h3, h4⟩

/-! ### C155 -/

/-- **C155** An event of the workflow reaches the clients: user code of a client that is connected gets exactly the broadcasts
that user code of the server gave for it, in the order of their declaration. -/
theorem C155_event_received (w : Setup P) (sm : Smooth w) (hwf : w.client.workflow = w.server.workflow) {name : Uuid → List Char}
    {n : Net P} {u : Uuid} (h : Established n u) {e : Flow.Event} (he : e ∈ w.server.workflow.events)
    {ref : Flow.Ref} (href : e.reference = some ref) (hdef : ref ≠ "connected".toList ∧ ref ≠ "disconnected".toList)
    (huniq : ∀ e' ∈ w.server.workflow.events, e'.reference = some ref → e' = e) {p : P} {cs : Server.Casts P e.broadcasts}
    (hem : w.env.emit (n.server.push (.event ref)) e (some p) = .ok cs)
    (hr : ∀ l, Server.Gives e.broadcasts cs l → ∀ x ∈ l, x.1 = u → ReadRight w name x.2) :
    ∃ es l, Server.Gives e.broadcasts cs l ∧ Progress u [] es ∧ Established (run w ((0, .server (.event ref p)) :: es) n) u ∧
      (Admitted w n u → Admitted w (run w ((0, .server (.event ref p)) :: es) n) u) ∧
      Received n (run w ((0, .server (.event ref p)) :: es) n) u (messagesFor u l) := by
  have hd : Flow.isDefaultEvent ref = false := by
    simp only [Flow.isDefaultEvent, Bool.or_eq_false_iff, decide_eq_false_iff_not]
    exact hdef
  have hf : w.server.workflow.events.find? (fun e => e.reference = some ref && !Flow.isDefaultEvent ref) = some e := by
    cases hq : w.server.workflow.events.find? (fun e => e.reference = some ref && !Flow.isDefaultEvent ref) with
    | none =>
      have := List.find?_eq_none.1 hq e he
      rw [href, hd] at this
      simp at this
    | some r =>
      have := List.find?_some hq
      simp only [Bool.and_eq_true, decide_eq_true_eq] at this
      rw [huniq r (List.mem_of_find?_eq_some hq) this.1]
  obtain ⟨es, l, h1, h2, h3, h4, h5⟩ := event_received sm h hf hem hr
  refine ⟨es, l, h1, h2, h3, h4, ?_⟩
  rw [List.filter_eq_self.2] at h5
  · exact h5
  · intro x hx
    have hx' : x.1 ∈ e.broadcasts.map Flow.Broadcast.reference := messagesFor_declared h1 hx
    obtain ⟨b, hb, e1⟩ := List.mem_map.1 hx'
    simp only [decide_eq_true_eq, Client.Cfg.broadcasts, hwf]
    exact List.mem_map.2 ⟨b, List.mem_append_right _ (List.mem_flatMap.2 ⟨e, he, hb⟩), e1⟩

/-- The event `T` of the witness reaches client 1 with the broadcast `U`. -/
example : ∃ n es, Progress 1 [] es ∧ Received n (run town ((0, .server (.event ['T'] 0)) :: es) n) 1 [(['U'], 9)] := by
  obtain ⟨n, h1, _⟩ := town_first
  obtain ⟨es, l, h3, h4, _, _, h5⟩ := C155_event_received town town_smooth rfl (name := townName) h1 (e := townEvent)
    (by simp [town, townFlow]) (ref := ['T']) rfl (by decide) (by simp [town, townFlow]) (p := 0) (cs := (([1], 9), ())) rfl (by
      intro l hg x hx _
      rw [town_gives rfl hg] at hx
      rw [List.mem_singleton.1 hx]
      exact town_reads (by simp))
  rw [town_gives rfl h3] at h5
  exact ⟨n, es, h4, h5⟩

theorem right_declared {w : Setup P} {u : Uuid} {past : List (Server.Act P)} {job : Client.Job} {body : P} {res : Client.Result P}
    {l : List (Uuid × Server.Out P)} (h : Right w u past job body res l) {req : Flow.Request} (hj : job = .request req) :
    ∀ {v : Uuid} {x : Flow.Ref × P}, x ∈ messagesFor v l → ∃ a ∈ req.actions, x.1 ∈ a.broadcast.map Flow.Broadcast.reference := by
  intro v x hx
  cases h with
  | beacon => cases hx
  | @request req' _ _ _ _ s _ l _ _ _ hd _ =>
    injection hj with hj
    subst hj
    cases hd with
    | @action i _ cs _ _ _ hg => exact ⟨_, List.get_mem _ i, messagesFor_declared hg hx⟩
    | _ => cases hx

/-- **C155** A client gets the broadcasts another client's request causes: the request returns what user code of the server
decided on, and user code of any other client that is connected gets exactly the broadcasts that user code of the server gave with
it, in the order of their declaration. -/
theorem C155_others_receive (w : Setup P) (sm : Smooth w) (hwf : w.client.workflow = w.server.workflow) {name : Uuid → List Char}
    {hashes : List Char × List Char} {n : Net P} {u v : Uuid} (huv : u ≠ v) (h : Established n v) (ha : Admitted w n v)
    (hu : Established n u) {req : Flow.Request} {body : P} (hreq : req ∈ w.server.workflow.requests)
    (hs : Servable w name hashes v (.request req) body)
    (hr : ∀ s o l, Server.Decides w.env req s v body o l → ∀ x ∈ l, x.1 = u → ReadRight w name x.2) :
    ∃ es es' res l, Progress v [(.request req, body)] es ∧ Progress u [] es' ∧ Right w v n.server.past (.request req) body res l ∧
      Returned n (run w es n) v (.request req) body res ∧
      Received n (run w (es ++ es') n) u (messagesFor u l) ∧ Established (run w (es ++ es') n) u := by
  obtain ⟨es, res, l, h1, h2, h3, h4, h5, h6, h7, later, h8, h9⟩ := answered sm h ha hs
  have hrd : ∀ x ∈ l, x.1 = u → ReadRight w name x.2 := by
    generalize hj : Client.Job.request req = job at h4
    cases h4 with
    | beacon => simp
    | request _ _ hd _ => injection hj with hj; subst hj; exact hr _ _ _ hd
  obtain ⟨es', k1, k2, _, k4⟩ := overheard huv hu h1 h2.running h8 (h9 u huv) h7 hrd
  refine ⟨es, es', res, l, h1, k1, h4, h5, ?_, k2⟩
  rw [List.filter_eq_self.2] at k4
  · exact k4
  · intro x hx
    obtain ⟨a, ha, hb⟩ := right_declared h4 rfl hx
    obtain ⟨b, hb, e1⟩ := List.mem_map.1 hb
    simp only [decide_eq_true_eq, Client.Cfg.broadcasts, hwf]
    exact List.mem_map.2 ⟨b, List.mem_append_left _ (List.mem_flatMap.2 ⟨req, hreq, List.mem_flatMap.2 ⟨a, ha, hb⟩⟩), e1⟩

/-- A request with two conclusions; both tell the others. -/
def hamletRequest : Flow.Request :=
  ⟨some ['Q'], some ['E'], [⟨some ['Y'], some ['R'], [⟨['U'], false⟩], [], false⟩, ⟨some ['N'], some ['E'], [], [], false⟩], [], [], .nothing, true⟩

def hamletFlow : Flow.Store := ⟨[], [hamletRequest], [], none⟩

/-- User code of the server answers with the next number and tells 9 to clients 1 and 2. -/
def hamletEnv : Server.Env Nat :=
  { townEnv with
    conclude := fun _ r _ p =>
      if h : r = hamletRequest then some (h ▸ .action (r := hamletRequest) ⟨0, by decide⟩ (p + 1) (([1, 2], 9), ())) else none
    emit := fun _ _ _ => .err }

def hamlet : Setup Nat :=
  { town with
    server := { town.server with workflow := hamletFlow }
    client := { town.client with workflow := hamletFlow }
    env := hamletEnv }

theorem hamlet_smooth : Smooth hamlet := ⟨fun _ _ _ _ => rfl, fun _ => rfl, fun _ => rfl, fun _ _ => rfl⟩

theorem hamlet_gives {l : List (Uuid × Server.Out Nat)}
    (h : Server.Gives [⟨['U'], false⟩] (([1, 2], 9), ()) l) : l = [(1, .msg ['U'] 9), (2, .msg ['U'] 9)] := by
  cases h with
  | required h => cases h; rfl

theorem hamlet_decides {s : Server.State Nat} {u : Uuid} {x : Nat} {o : Server.Out Nat} {l : List (Uuid × Server.Out Nat)}
    (h : Server.Decides hamlet.env hamletRequest s u x o l) : o = .msg ['R'] (x + 1) ∧ l = [(1, .msg ['U'] 9), (2, .msg ['U'] 9)] := by
  have key : hamlet.env.conclude s hamletRequest u x = some (.action ⟨0, by decide⟩ (x + 1) (([1, 2], 9), ())) := rfl
  cases h with
  | error _ h2 => rw [key] at h2; cases h2
  | plainError h1 _ => exact absurd h1 (by decide)
  | plain h1 _ => exact absurd h1 (by decide)
  | action _ h2 h3 =>
    rw [key] at h2
    injection h2 with h2
    injection h2 with e1 e2 e3
    subst e1 e2
    cases e3
    refine ⟨rfl, ?_⟩
    exact hamlet_gives h3

theorem hamlet_request (u : Uuid) : Servable hamlet townName (['p'], ['w']) u (.request hamletRequest) 41 := by
  refine .request (ref := ['Q']) (by simp [hamlet, hamletFlow]) rfl (by simp [hamlet, hamletFlow]) (fun id => ?_) (fun s => ?_) (fun s o l hd => ?_)
  · refine town_hears (o := .msg id ['Q'] 41) ?_
    intro id' ref' body' e
    injection e with _ e1 e2
    subst e1 e2
    exact ⟨by omega, .inl rfl⟩
  · exact ⟨_, _, .action (r := hamletRequest) (env := hamletEnv) (P := Nat) (i := ⟨0, by decide⟩) (x := 42) (casts := (([1, 2], 9), ())) (by decide) rfl (.required .nil)⟩
  · obtain ⟨rfl, rfl⟩ := hamlet_decides hd
    refine ⟨town_reads (o := .msg ['R'] 42) (by simp), ?_⟩
    intro y hy _
    simp only [List.mem_cons, List.not_mem_nil, or_false] at hy
    rcases hy with rfl | rfl <;> exact town_reads (o := .msg ['U'] 9) (by simp)

/-- `Resting`, computed. -/
def isResting (s : Client.State P) : Bool :=
  (match s.api with | some ⟨[], _⟩ => true | _ => false) && s.queue.isEmpty &&
  (match s.msgs with | some ⟨⟨[], []⟩, .idle, _⟩ => true | _ => false) && s.auths.isEmpty && s.authQueue.isEmpty && s.calls.isEmpty

/-- `Established`, computed. -/
def isEstablished (n : Net P) (u : Uuid) : Bool :=
  (match n.exit with | .running => true | _ => false) &&
  (match n.find u with | some ⟨c, [], []⟩ => isResting c | _ => false) &&
  (match n.server.find u with
    | some c => (match c.reader with | ⟨[], []⟩ => true | _ => false) && c.confirmed && !c.discredited && c.hashAccepted && c.key.isSome
    | none => false)

theorem resting_of {s : Client.State P} (h : isResting s = true) : Resting s := by
  simp only [isResting, Bool.and_eq_true, List.isEmpty_iff] at h
  obtain ⟨⟨⟨⟨⟨h1, h2⟩, h3⟩, h4⟩, h5⟩, h6⟩ := h
  refine ⟨?_, h2, ?_, h4, h5, h6⟩
  · split at h1
    · rename_i e; exact ⟨_, e⟩
    · cases h1
  · split at h3
    · rename_i e; exact ⟨_, e⟩
    · cases h3

theorem established_of {n : Net P} {u : Uuid} (h : isEstablished n u = true) : Established n u := by
  simp only [isEstablished, Bool.and_eq_true] at h
  obtain ⟨⟨h1, h2⟩, h3⟩ := h
  refine ⟨?_, ?_, ?_⟩
  · split at h1
    · assumption
    · cases h1
  · split at h2
    · rename_i e; exact ⟨_, e, resting_of h2⟩
    · cases h2
  · split at h3
    · rename_i c e
      simp only [Bool.and_eq_true, Bool.not_eq_true'] at h3
      obtain ⟨⟨⟨⟨k1, k2⟩, k3⟩, k4⟩, k5⟩ := h3
      refine ⟨c, e, ?_, k2, k3, k4, k5⟩
      split at k1
      · assumption
      · cases k1
    · cases h3

/-- A client connects and does the handshake. -/
def hamletShake (u : Uuid) : List (UInt64 × Event Nat) :=
  let client (is : List (Client.Input Nat)) := is.map (fun i => ((3 : UInt64), Event.client u i))
  [(1, .opened u), (2, .server .confirm), (2, .toClient u 100)] ++ client [.work, .work, .auth 0, .api true] ++
  [(4, .toServer u 100), (4, .toClient u 100)] ++ client [.work, .api true, .work, .work, .auth 0, .api true] ++
  [(5, .toServer u 100), (5, .toClient u 100)] ++ client [.work, .api true, .work, .work, .auth 0, .authMessage]

/-- Clients 1 and 2 connect, client 1 is assigned. -/
def hamletRun : List (UInt64 × Event Nat) := hamletShake 1 ++ hamletShake 2 ++ [(6, .server (.setAssigned 1 0 true))]

/-- Two clients are connected, and the request of one of them tells the other. -/
example : ∃ n es es', Progress 1 [(.request hamletRequest, 41)] es ∧ Progress 2 [] es' ∧
    Received n (run hamlet (es ++ es') n) 2 [(['U'], 9)] := by
  have h1 : Established (run hamlet hamletRun .new) 1 := established_of (by decide +kernel)
  have h2 : Established (run hamlet hamletRun .new) 2 := established_of (by decide +kernel)
  have h3 : Admitted hamlet (run hamlet hamletRun .new) 1 := by
    intro _
    have : ((run hamlet hamletRun .new).server.find 1).any (fun c => c.assigned.isSome) = true := by decide +kernel
    cases hf : (run hamlet hamletRun .new).server.find 1 with
    | none => rw [hf] at this; cases this
    | some c => rw [hf] at this; exact ⟨c, rfl, this⟩
  obtain ⟨es, es', res, l, k1, k2, k3, k4, k5, _⟩ := C155_others_receive hamlet hamlet_smooth rfl (name := townName)
    (hashes := (['p'], ['w'])) (u := 2) (v := 1) (by decide) h1 h3 h2 (by simp [hamlet, hamletFlow]) (hamlet_request 1) (by
      intro s o l hd x hx _
      obtain ⟨_, rfl⟩ := hamlet_decides hd
      simp only [List.mem_cons, List.not_mem_nil, or_false] at hx
      rcases hx with rfl | rfl <;> exact town_reads (o := .msg ['U'] 9) (by simp))
  refine ⟨run hamlet hamletRun .new, es, es', k1, k2, ?_⟩
  cases k3 with
  | request _ _ hd _ =>
    obtain ⟨_, rfl⟩ := hamlet_decides hd
    exact k5

/-! ### C156 -/

/-- What the client makes of it is what user code of the server decided on. -/
theorem told_of {env : Server.Env P} {req : Flow.Request} {p : Prot.Store} (hr : Flow.ReqRefs req p) (hne : req.error ≠ some [])
    (hu : Unambiguous req) (hacts : req.actions ≠ []) {s : Server.State P} {u : Uuid} {body : P} {rref : Flow.Ref} {x : P}
    {l : List (Uuid × Server.Out P)} (hd : Server.Decides env req s u body (.msg rref x) l) {res : Client.Result P}
    (hrep : Client.Reports (.request req) (.msg rref x) res) {ref : Flow.Ref} (hq : req.request = some ref) {q : UInt32}
    {past : List (Server.Act P)} (hs : s.past = .respond u ref q :: .got u (.msg ref body) q :: .chunk u :: past) :
    Told env u past (.request req) body res := by
  have hdec := decided hr hne hd hrep
  obtain ⟨er, her⟩ := Option.ne_none_iff_exists'.1 (hr.2.2.2.2 hacts)
  have known : rref = er ∨ ∃ a ∈ req.actions, a.response = some rref := by
    generalize ho : Server.Out.msg rref x = o at hd
    cases hd with
    | error => injection ho with h4; left; rw [h4, her]; rfl
    | plainError => injection ho with h4; left; rw [h4, her]; rfl
    | @action i y casts l k1 k2 k3 =>
      injection ho with h4 _
      obtain ⟨z, hz, _⟩ := (hr.2.2.2.1 (req.actions.get i) (List.get_mem _ _)).1
      rw [hz] at h4
      exact .inr ⟨_, List.get_mem _ i, by rw [hz, h4]; rfl⟩
    | plain k1 k2 =>
      injection ho with h4 _
      right
      match hl : req.actions with
      | [] => exact absurd hl hacts
      | b :: t =>
        rw [hl] at h4
        obtain ⟨z, hz, _⟩ := (hr.2.2.2.1 b (by rw [hl]; exact List.mem_cons_self)).1
        refine ⟨b, List.mem_cons_self, ?_⟩
        rw [h4]
        show b.response = some ((b.response).getD [])
        rw [hz]
        rfl
  cases hrep with
  | @action _ _ _ before after a h1 h2 h3 =>
    exact .concluded hq hs (hdec.1 _ hu rfl) ⟨a, by rw [h1]; simp, rfl, h2⟩
  | error h1 h2 => exact .erred hq hs (hdec.2 rfl) h2
  | wrong h1 h2 =>
    rcases known with rfl | ⟨a, ha, e⟩
    · exact absurd her h2
    · exact absurd e (h1 a ha)
  | internal h => exact absurd rfl (h _ _)

/-- User code of the server always decides, what it gives has the declared type (the compiler sees to it), and it does not
panic. -/
structure UserCode (cd : Codec) (w : Setup Rust.Msg) : Prop where
  decides : ∀ req ∈ w.server.workflow.requests, ∀ s u body, ∃ o l, Server.Decides w.env req s u body o l
  answers : ∀ req ∈ w.server.workflow.requests, ∀ s u body o l, Server.Decides w.env req s u body o l →
    (∀ ref x, o = .msg ref x → AnswerOk cd ref x) ∧ ∀ y ∈ l, ∀ ref x, y.2 = .msg ref x → AnswerOk cd ref x
  beacons : ∀ s ref u body, w.env.beacon s ref u body = .ok ()
  events : ∀ s e p, w.env.emit s e p ≠ .panic
  news : ∀ s e p cs l, w.env.emit s e p = .ok cs → Server.Gives e.broadcasts cs l → ∀ y ∈ l, ∀ ref x, y.2 = .msg ref x → AnswerOk cd ref x

/-- A declared request with actions whose responses tell the conclusion, or a declared beacon that is no request,
with a message of its type. -/
inductive Callable (cd : Codec) (flow : Flow.Store) : Client.Job → Rust.Msg → Prop where
  | request {req : Flow.Request} {body : Rust.Msg} : req ∈ flow.requests → req.actions ≠ [] → Unambiguous req →
      CallOk cd (req.request.getD []) body → Callable cd flow (.request req) body
  | beacon {b : Flow.Broadcast} {body : Rust.Msg} : b ∈ flow.beacons → (∀ r ∈ flow.requests, r.request ≠ some b.reference) →
      CallOk cd b.reference body → Callable cd flow (.beacon b.reference) body

theorem heardRight_codec {cd : Codec} (ok : CodecOk cd) (w : Setup Rust.Msg) {o : Client.Out Rust.Msg}
    (h : ∀ id ref body, o = .msg id ref body → CallOk cd ref body) : HeardRight (cd.setup w) cd.hashes o := by
  refine ⟨asHeard cd o, fun ts q => ?_, ?_⟩
  · obtain ⟨f, h1, h2, h3, h4⟩ := codec_frame ok.distinct (canSend_out ok h) q ts
    refine ⟨f, h1, h3, h2, ?_⟩
    show Spec.delivered (mapDecoder cd.protocol.decoder cd.seenByServer) f = _
    rw [delivered_map, h4, ← seen_out ok h]
    rfl
  · cases o with
    | selfKey => exact ⟨_, rfl⟩
    | hash => rfl
    | msg => rfl

theorem readRight_codec {cd : Codec} (ok : CodecOk cd) (w : Setup Rust.Msg) {o : Server.Out Rust.Msg}
    (h : ∀ ref body, o = .msg ref body → AnswerOk cd ref body) : ReadRight (cd.setup w) cd.uuid o := by
  refine ⟨asLooked cd o, fun ts q => ?_, ?_⟩
  · obtain ⟨f, h1, h2, h3, h4⟩ := codec_frame ok.distinct (canSend_in ok h) q ts
    refine ⟨f, h1, h3, h2, ?_⟩
    show Spec.delivered (mapDecoder cd.protocol.decoder cd.seenByClient) f = _
    rw [delivered_map, h4, ← seen_in ok h]
    rfl
  · cases o <;> rfl

theorem allReturned_imp {u : Uuid} {G H : Net P → Client.Job → P → Client.Result P → Prop} {calls : List (Client.Job × P)}
    {n n' : Net P} (h : AllReturned u G calls n n') (himp : ∀ n x res, x ∈ calls → G n x.1 x.2 res → H n x.1 x.2 res) :
    AllReturned u H calls n n' := by
  induction h with
  | nil => exact .nil
  | @cons job body _ n _ _ res h1 h2 _ ih =>
    exact .cons h1 (himp n (job, body) res List.mem_cons_self h2) (ih (fun n x res hx => himp n x res (List.mem_cons_of_mem _ hx)))

/-- **C156** From texts to answers: take the programs generated from an accepted protocol and an accepted workflow with a
config, without declarations in `InternalServiceGroup`. Whatever happened to clients and server before, as long as the server
runs, a new client can connect, be assigned, and make any calls one after another: all of them return, requests with the
conclusion and response, or the error, that user code of the server decided on for this very message, beacons with their
confirmation. -/
theorem C156_texts_to_answers {ptext : List Char} {pr : Prot.Store} (hp : Prot.Parses ptext (.accepted pr))
    (ho : ¬ Prot.LeftOpen pr) {text : List Char} {flow : Flow.Store} {pr2 : Prot.Store}
    (h : Flow.Parses pr text (.accepted flow pr2)) {cfg : Flow.Config} (hcfg : flow.config = some cfg)
    (hn : NoServices pr) (hs : Prot.Supported pr2) {sg : UInt16} {cd : Codec} (hcd : CodecOf pr2 sg cd)
    (hkey : SendOk cd.protocol cd.key) (hk : cfg.selfKey = some (cd.name (msgId cd.key))) (hsh : Short cd)
    (w : Setup Rust.Msg) (hw : w.server.workflow = flow) (hhash : cd.hashes = (w.server.protocolHash, w.server.workflowHash))
    (sm : Smooth w) (uc : UserCode cd w) (es : List (UInt64 × Event Rust.Msg)) (hrun : (run (cd.setup w) es .new).exit = .running)
    {u : Uuid} (hf : Fresh (run (cd.setup w) es .new) u) (hid : w.client.parseUuid (cd.uuid u) ≠ none)
    (calls : List (Client.Job × Rust.Msg)) (hc : ∀ x ∈ calls, Callable cd flow x.1 x.2) (k : Rust.Msg) :
    ∃ es1 es2, Progress u [] es1 ∧ Progress u calls es2 ∧
      let n := run (cd.setup w) (es ++ es1 ++ [(0, .server (.setAssigned u k true))]) .new
      (∃ c, n.find u = some c ∧ .emitted .connected ∈ c.client.past) ∧
      AllReturned u (fun n job body res => Told w.env u n.server.past job body res) calls n (run (cd.setup w) es2 n) := by
  have ok := (C150_texts_to_codec_partial hp ho h hcfg hn hs sg).2 cd hcd hkey hk hsh
  have sm' : Smooth (cd.setup w) := ⟨sm.send, sm.call, sm.answer, sm.error⟩
  have noMsg : ∀ {o : Server.Out Rust.Msg}, (∀ ref body, o ≠ .msg ref body) → ReadRight (cd.setup w) cd.uuid o :=
    fun ho => readRight_codec ok w (fun ref body e => absurd e (ho ref body))
  have hear : ∀ {o : Client.Out Rust.Msg}, (∀ id ref body, o ≠ .msg id ref body) → HeardRight (cd.setup w) cd.hashes o :=
    fun ho => heardRight_codec ok w (fun id ref body e => absurd e (ho id ref body))
  obtain ⟨es1, h1, h2, c, h3, h4⟩ := C152_can_connect (cd.setup w) sm' uc.events cd.uuid es hrun hf
    (by rw [show ((cd.setup w).server.protocolHash, (cd.setup w).server.workflowHash) = cd.hashes from hhash.symm]; exact hear (by simp))
    (by rw [show ((cd.setup w).server.protocolHash, (cd.setup w).server.workflowHash) = cd.hashes from hhash.symm]; exact hear (by simp))
    (noMsg (by simp)) (noMsg (by simp)) (noMsg (by simp)) hid
    (fun t e cs l he hg x hx _ => readRight_codec ok w (uc.news t e none cs l he hg x hx))
  obtain ⟨k1, k2, k3⟩ := C152_can_be_assigned (cd.setup w) h2 0 k true
  rw [← run_append] at k1 k2 k3
  obtain ⟨es2, j1, _, _, j4⟩ := C154_calls_return (cd.setup w) sm' (name := cd.uuid) (hashes := cd.hashes) calls k1 k2 (by
    intro x hx
    obtain ⟨job, body⟩ := x
    cases hc _ hx with
    | @request req _ c1 c2 c3 c4 =>
      obtain ⟨uniq, ⟨p, hpr⟩, _⟩ := request_of hp h c1
      obtain ⟨q, hq⟩ := Option.isSome_iff_exists.1 ((Flow.accepted_once h).1.requests.2 req c1)
      rw [hq, Option.getD_some] at c4 uniq
      refine .request (ref := q) (show req ∈ w.server.workflow.requests from hw ▸ c1) hq
        (show ∀ r ∈ w.server.workflow.requests, _ from hw ▸ uniq) (fun id => ?_) (fun s => uc.decides req (hw ▸ c1) s u body)
        (fun s o l hd => ?_)
      · refine heardRight_codec ok w ?_
        intro id' ref' body' e
        injection e with _ e1 e2
        rw [← e1, ← e2]
        exact c4
      · obtain ⟨a1, a2⟩ := uc.answers req (hw ▸ c1) s u body o l hd
        exact ⟨readRight_codec ok w a1, fun y hy _ => readRight_codec ok w (a2 y hy)⟩
    | @beacon b _ c1 c2 c3 =>
      refine .beacon (show b ∈ w.server.workflow.beacons from hw ▸ c1) (show ∀ r ∈ w.server.workflow.requests, _ from hw ▸ c2)
        (fun id => ?_) (fun s => uc.beacons s _ u body) (noMsg (by simp))
      refine heardRight_codec ok w ?_
      intro id' ref' body' e
      injection e with _ e1 e2
      rw [← e1, ← e2]
      exact c3)
  refine ⟨es1, es2, h1, j1, ?_, ?_⟩
  · exact ⟨c, k3.trans h3, h4⟩
  · refine allReturned_imp j4 ?_
    rintro n ⟨job, body⟩ res hx ⟨l, hR⟩
    cases hR with
    | beacon => exact .confirmed
    | @request req _ _ _ _ _ _ _ _ r1 r2 r3 r4 =>
      cases hc _ hx with
      | request c1 c2 c3 c4 =>
        obtain ⟨_, ⟨p, hpr⟩, hne⟩ := request_of hp h c1
        exact told_of hpr hne c3 c2 r3 r4 r1 r2

theorem village_answer {id : UInt32} {f : UInt16} {y : Fin 256} {ref : Flow.Ref}
    (h : (id, f, ref) = (7, 8, ['S']) ∨ (id, f, ref) = (5, 6, ['R'])) : AnswerOk villageCodec ref (cityMsg id f y) := by
  have small : ∀ b, villageCodec.protocol.pack (cityMsg id f y) 0 0 = .ok b → b.length < 2 ^ 64 := by
    intro b hb
    cases hb
    simp [Rust.packBuffer, Rust.getValueBuffer, Rust.ESize.bytes, length_leBytes, Num.size]
  rcases h with h | h <;>
  · injection h with h1 h
    injection h with h2 h3
    subst h1 h2 h3
    exact ⟨⟨⟨by simp [villageCodec], by simp [FieldsOk, ElemOk, Fields.ids], by simp [FieldsClean, ElemClean]⟩, small⟩, rfl,
      by simp [msgId, cityMsg, villageCodec]⟩

theorem village_no_casts {l : List (Uuid × Server.Out Rust.Msg)} (h : Server.Gives [] () l) : l = [] := by cases h; rfl

/-- User code of the witness does what is asked of it. -/
theorem village_user : UserCode villageCodec village where
  decides req hreq s u body := by
    have : req = villageQ ∨ req = villageZ := by simpa [village, villageFlow] using hreq
    rcases this with rfl | rfl
    · exact ⟨_, _, .action (r := villageQ) (env := villageEnv) (P := Rust.Msg) (i := ⟨1, by decide⟩) (x := cityMsg 7 8 42) (casts := ())
        (by decide) rfl .nil⟩
    · exact ⟨_, _, .action (r := villageZ) (env := villageEnv) (P := Rust.Msg) (i := ⟨1, by decide⟩) (x := cityMsg 5 6 42) (casts := ())
        (by decide) rfl .nil⟩
  answers req hreq s u body o l hd := by
    have : req = villageQ ∨ req = villageZ := by simpa [village, villageFlow] using hreq
    rcases this with rfl | rfl
    · have key : village.env.conclude s villageQ u body = some (.action ⟨1, by decide⟩ (cityMsg 7 8 42) ()) := rfl
      cases hd with
      | error _ h2 => rw [key] at h2; cases h2
      | plainError h1 _ => exact absurd h1 (by decide)
      | plain h1 _ => exact absurd h1 (by decide)
      | action _ h2 h3 =>
        rw [key] at h2
        injection h2 with h2
        injection h2 with e1 e2 e3
        subst e1 e2
        cases e3
        rw [village_no_casts h3]
        refine ⟨fun ref x e => ?_, by simp⟩
        injection e with e1 e2
        rw [← e1, ← e2]
        exact village_answer (.inl rfl)
    · have key : village.env.conclude s villageZ u body = some (.action ⟨1, by decide⟩ (cityMsg 5 6 42) ()) := rfl
      cases hd with
      | error _ h2 => rw [key] at h2; cases h2
      | plainError h1 _ => exact absurd h1 (by decide)
      | plain h1 _ => exact absurd h1 (by decide)
      | action _ h2 h3 =>
        rw [key] at h2
        injection h2 with h2
        injection h2 with e1 e2 e3
        subst e1 e2
        cases e3
        rw [village_no_casts h3]
        refine ⟨fun ref x e => ?_, by simp⟩
        injection e with e1 e2
        rw [← e1, ← e2]
        exact village_answer (.inr rfl)
  beacons _ _ _ _ := rfl
  events s e p h := nomatch h
  news s e p cs l h := nomatch h

/-- After all that client 1 does in `villageRun`, client 2 of the witness connects and makes the request `Q` twice. -/
example : ∃ es1 es2, Progress 2 [] es1 ∧
    Progress 2 [(.request villageQ, cityMsg 3 4 41), (.request villageQ, cityMsg 3 4 40)] es2 ∧
    AllReturned 2 (fun n job body res => Told village.env 2 n.server.past job body res)
      [(.request villageQ, cityMsg 3 4 41), (.request villageQ, cityMsg 3 4 40)]
      (run (villageCodec.setup village) (villageRun ++ es1 ++ [(0, .server (.setAssigned 2 villageCodec.key true))]) .new)
      (run (villageCodec.setup village) es2
        (run (villageCodec.setup village) (villageRun ++ es1 ++ [(0, .server (.setAssigned 2 villageCodec.key true))]) .new)) := by
  have call : ∀ y, Callable villageCodec villageFlow (.request villageQ) (cityMsg 3 4 y) := by
    intro y
    refine .request (by decide) (by decide) (by unfold Unambiguous; decide) ⟨⟨⟨by simp [villageCodec], by simp [FieldsOk, ElemOk, Fields.ids],
      by simp [FieldsClean, ElemClean]⟩, fun b hb => ?_⟩, rfl, by simp [msgId, cityMsg, villageCodec]⟩
    cases hb
    simp [Rust.packBuffer, Rust.getValueBuffer, Rust.ESize.bytes, length_leBytes, Num.size]
  obtain ⟨es1, es2, h1, h2, _, h4⟩ := C156_texts_to_answers (u := 2) village_prot village_closed village_flow (cfg := villageConfig) rfl
    village_none village_supported village_codec village_key rfl village_short village rfl rfl
    ⟨fun _ _ _ _ => rfl, fun _ => rfl, fun _ => rfl, fun _ _ => rfl⟩ village_user villageRun (by decide +kernel)
    ⟨by
      have : ((run (villageCodec.setup village) villageRun .new).find 2).isNone = true := by decide +kernel
      exact Option.isNone_iff_eq_none.1 this, by
      have : (run (villageCodec.setup village) villageRun .new).server.past.all
          (fun a => match a with | .send v _ _ true => v != 2 | _ => true) = true := by decide +kernel
      intro q o h
      exact absurd (List.all_eq_true.1 this _ h) (by simp)⟩ (by simp [village])
    [(.request villageQ, cityMsg 3 4 41), (.request villageQ, cityMsg 3 4 40)] (by
      intro x hx
      simp only [List.mem_cons, List.not_mem_nil, or_false] at hx
      rcases hx with rfl | rfl <;> exact call _) villageCodec.key
  exact ⟨es1, es2, h1, h2, h4⟩

end Verif.Props
