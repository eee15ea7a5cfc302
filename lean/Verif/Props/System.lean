import Verif.Proofs.SystemCalls
import Verif.Props.RustClient
import Verif.Props.RustServer
set_option autoImplicit false
/-!
Property theorems about generated Rust clients and a generated Rust server that talk to each other:
C144–C148. Time, order, loss and the pieces in which bytes arrive are arbitrary, see `System.Event`.
-/
namespace Verif.Props

open Verif Verif.Spec Verif.System

variable {P : Type}

/-! ### A client and a server for witnesses -/

/-- The number a message carries. -/
def townByte (b : Bytes) : Nat := (b.headD 0).toNat

/-- The messages of a client: 1 self key, 2 hashes, 3 request `Q`, 5 beacon `B`. -/
def townUp : Rust.Decoder (Server.In Nat) where
  signature := 7
  getMsg id b :=
    if id = 1 then .ok (.msg ['K'] 0)
    else if id = 2 then .ok (.hash ['p'] ['w'])
    else if id = 3 then .ok (.msg ['Q'] (townByte b))
    else if id = 5 then .ok (.msg ['B'] (townByte b))
    else .err

/-- The messages of the server: 1 confirmation, 2 self key, 3 and 4 hashes, 5 confirmed beacon, 6 response
`R`, 7 broadcast `U`, 8 error `E`. -/
def townDown : Rust.Decoder (Client.In Nat) where
  signature := 7
  getMsg id b :=
    if id = 1 then .ok .confirmation
    else if id = 2 then .ok (.selfKey [Char.ofNat (townByte b)])
    else if id = 3 then .ok (.hash false)
    else if id = 4 then .ok (.hash true)
    else if id = 5 then .ok (.beacon false)
    else if id = 6 then .ok (.msg ['R'] (townByte b))
    else if id = 7 then .ok (.msg ['U'] (townByte b))
    else if id = 8 then .ok (.msg ['E'] (townByte b))
    else .err

/-- A frame with one byte. -/
def townFrame (id : UInt32) (ts : UInt64) (q : UInt32) (x : Nat) : Frame := ⟨⟨id, 7, q, ts, 1⟩, [UInt8.ofNat x]⟩

/-- A request with one response, a beacon, and an event with a broadcast. -/
def townRequest : Flow.Request :=
  ⟨some ['Q'], some ['E'], [⟨some ['Y'], some ['R'], [], [], false⟩], [], [], .nothing, true⟩

def townEvent : Flow.Event := ⟨some ['T'], [⟨['U'], false⟩], [], .nothing, true⟩

def townFlow : Flow.Store := ⟨[townEvent], [townRequest], [⟨['B'], false⟩], none⟩

/-- User code of the server: a number is answered with the next one. -/
def townEnv : Server.Env Nat where
  send _ _ _ _ := true
  drop _ _ := true
  conclude _ _ _ _ := some (.error 0)
  reply _ _ _ p := some (.response (p + 1))
  beacon _ _ _ _ := .ok ()
  emit _ e _ := if h : e = townEvent then .ok (h ▸ (([1], 9), ())) else .err
  error _ _ := .ok ()
  ready _ := .ok ()

def town : Setup Nat where
  server := ⟨townUp, townFlow, ['K'], ['p'], ['w'], fun _ => true, fun _ k => k, fun _ k => k⟩
  env := townEnv
  opts := .new
  client := ⟨townDown, townFlow, fun _ => true, some⟩
  up ts q o := match o with
    | .selfKey => (townFrame 1 ts q 0).bytes
    | .hash => (townFrame 2 ts q 0).bytes
    | .msg _ ref x => if ref = ['Q'] then (townFrame 3 ts q x).bytes else (townFrame 5 ts q x).bytes
  down ts q o := match o with
    | .confirmation => (townFrame 1 ts q 0).bytes
    | .selfKey u => (townFrame 2 ts q u).bytes
    | .hash e => (townFrame (if e then 4 else 3) ts q 0).bytes
    | .beacon => (townFrame 5 ts q 0).bytes
    | .msg ref x => if ref = ['R'] then (townFrame 6 ts q x).bytes else
        if ref = ['U'] then (townFrame 7 ts q x).bytes else (townFrame 8 ts q x).bytes

deriving instance DecidableEq for Server.In
deriving instance DecidableEq for Server.Out
deriving instance DecidableEq for Server.Act
deriving instance DecidableEq for Client.In
deriving instance DecidableEq for Client.Out
deriving instance DecidableEq for Client.Job
deriving instance DecidableEq for Client.Result
deriving instance DecidableEq for Client.Event
deriving instance DecidableEq for Client.Act

/-- The steps of the client of connection 1, at time 3. -/
def townClient (is : List (Client.Input Nat)) : List (UInt64 × Event Nat) := is.map (fun i => (3, .client 1 i))

/-- Client 1 connects and does the handshake. -/
def townShake : List (UInt64 × Event Nat) :=
  [(1, .opened 1), (2, .server .confirm), (2, .toClient 1 100)] ++ townClient [.work, .work, .auth 0, .api true] ++
  [(4, .toServer 1 100), (4, .toClient 1 100)] ++ townClient [.work, .api true, .work, .work, .auth 0, .api true] ++
  [(5, .toServer 1 100), (5, .toClient 1 100)] ++ townClient [.work, .api true, .work, .work, .auth 0, .authMessage]

/-- It makes a request; the bytes come in two pieces. -/
def townCall : List (UInt64 × Event Nat) :=
  townClient [.call (.request townRequest) 41, .api true, .proceed 1, .api true, .authMessage, .proceed 1, .api true] ++
  [(6, .toServer 1 10), (6, .toServer 1 100), (7, .toClient 1 100)] ++
  townClient [.work, .api true, .work, .work, .proceed 1]

/-- The event `T` sends the broadcast `U`. -/
def townNews : List (UInt64 × Event Nat) :=
  [(8, .server (.event ['T'] 0)), (8, .toClient 1 100)] ++ townClient [.work, .api true, .work, .work]

/-- The client sends the beacon `B`. -/
def townBeat : List (UInt64 × Event Nat) :=
  townClient [.call (.beacon ['B']) 5, .api true, .proceed 2, .api true, .authMessage, .proceed 2, .api true] ++
  [(6, .toServer 1 100), (7, .toClient 1 100)] ++ townClient [.work, .api true, .work, .work, .proceed 2]

def townAll : List (UInt64 × Event Nat) := townShake ++ townCall ++ townNews ++ townBeat

/-- The history of the server after it all. -/
def townPast : List (Server.Act Nat) := [.deferred, .send 1 12 .beacon true, .beacon 1 ['B'] 12,
  .got 1 (.msg ['B'] 5) 12, .chunk 1, .deferred, .send 1 0 (.msg ['U'] 9) true, .event ['T'],
  .deferred, .send 1 11 (.msg ['R'] 42) true, .respond 1 ['Q'] 11, .got 1 (.msg ['Q'] 41) 11,
  .chunk 1, .chunk 1, .send 1 1 (.hash false) true, .got 1 (.hash ['p'] ['w']) 1, .chunk 1,
  .send 1 0 (.selfKey 1) true, .got 1 (.msg ['K'] 0) 0, .chunk 1,
  .send 1 0 .confirmation true, .confirmed 1, .opened 1, .event "connected".toList]

theorem town_past : (run town townAll .new).server.past = townPast := by decide +kernel

/-- The event `T` happens while the handshake is made. -/
def townLost : List (UInt64 × Event Nat) :=
  [(1, .opened 1), (2, .server .confirm), (2, .toClient 1 100)] ++ townClient [.work, .work, .auth 0, .api true] ++
  [(3, .server (.event ['T'] 0)), (4, .toClient 1 100), (4, .toServer 1 100)] ++
  townClient [.work, .api true, .work, .work, .auth 0, .authMessage]

theorem town_sees {es : List (UInt64 × Event Nat)} (f : Conn Nat → Bool) (h : ((run town es .new).find 1).any f = true) :
    ∃ c, (run town es .new).find 1 = some c ∧ f c = true := by
  cases e : (run town es .new).find 1 with
  | none => rw [e] at h; cases h
  | some c => exact ⟨c, rfl, by rwa [e] at h⟩

theorem find_mem {n : Net P} {u : Uuid} {c : Conn P} (h : n.find u = some c) : (u, c) ∈ n.conns := by
  unfold Net.find at h
  revert h
  induction n.conns with
  | nil => intro h; cases h
  | cons p l ih =>
    intro h
    obtain ⟨v, d⟩ := p
    rw [List.lookup_cons] at h
    split at h
    · rename_i e
      cases h
      cases beq_iff_eq.1 e
      exact List.mem_cons_self
    · exact List.mem_cons_of_mem _ (ih h)

/-- The message of a frame is unique. -/
theorem decodes_frame {T : Type} {d : Rust.Decoder T} {f : Frame} (hf : f.Ok) {m : T} (h : Decodes d f.bytes m) :
    ∃ x, Spec.delivered d f = some x ∧ x.msg = m := by
  obtain ⟨g, x, h1, h2, h3, h4⟩ := h
  obtain ⟨rfl, _⟩ := frame_inj (a := []) (b := []) hf h1 (by rw [h2])
  exact ⟨x, h3, h4⟩

theorem townFrame_ok (id : UInt32) (ts : UInt64) (q : UInt32) (x : Nat) : (townFrame id ts q x).Ok :=
  ⟨rfl, by show 1 + 26 < 2 ^ 64; decide⟩

theorem townFrame_is (id : UInt32) (ts : UInt64) (q : UInt32) (x : Nat) : IsFrame q (townFrame id ts q x).bytes :=
  ⟨_, townFrame_ok id ts q x, rfl, rfl⟩

/-- Every message is packed into a frame. -/
theorem town_framed (n : Net Nat) : Framed town n := by
  refine ⟨fun u q o _ ts => ?_, fun u c _ who q o _ ts => ?_⟩
  · cases o <;> simp only [town] <;> (try split) <;> (try split) <;> exact townFrame_is _ _ _ _
  · cases o <;> simp only [town] <;> (try split) <;> exact townFrame_is _ _ _ _

/-- Every message can be decoded. -/
theorem town_readable (n : Net Nat) : Readable town n := by
  have up : ∀ (id : UInt32) (ts : UInt64) (q : UInt32) (x : Nat) (m : Server.In Nat),
      townUp.getMsg id [UInt8.ofNat x] = .ok m → ∃ m, Decodes townUp (townFrame id ts q x).bytes m := by
    intro id ts q x m h
    refine ⟨m, townFrame id ts q x, ⟨(townFrame id ts q x).hdr, m⟩, townFrame_ok _ _ _ _, rfl, ?_, rfl⟩
    unfold Spec.delivered
    rw [if_pos (show townUp.signature = (townFrame id ts q x).hdr.signature from rfl)]
    rw [show townUp.getMsg (townFrame id ts q x).hdr.id (townFrame id ts q x).body = .ok m from h]
  have down : ∀ (id : UInt32) (ts : UInt64) (q : UInt32) (x : Nat) (m : Client.In Nat),
      townDown.getMsg id [UInt8.ofNat x] = .ok m → ∃ m, Decodes townDown (townFrame id ts q x).bytes m := by
    intro id ts q x m h
    refine ⟨m, townFrame id ts q x, ⟨(townFrame id ts q x).hdr, m⟩, townFrame_ok _ _ _ _, rfl, ?_, rfl⟩
    unfold Spec.delivered
    rw [if_pos (show townDown.signature = (townFrame id ts q x).hdr.signature from rfl)]
    rw [show townDown.getMsg (townFrame id ts q x).hdr.id (townFrame id ts q x).body = .ok m from h]
  refine ⟨fun u c _ who q o _ ts => ?_, fun u q o _ ts => ?_⟩
  · cases o <;> simp only [town] <;> (try split) <;> exact up _ _ _ _ _ rfl
  · cases o with
    | hash e => cases e <;> exact down _ _ _ _ _ rfl
    | _ => simp only [town] <;> (try split) <;> (try split) <;> exact down _ _ _ _ _ rfl

/-- Ids and numbers are bytes, and the names are declared. -/
def townSmallDown : Server.Act Nat → Bool
  | .send _ _ (.selfKey u) _ => u < 256
  | .send _ _ (.msg ref x) _ => ref ∈ [['R'], ['U'], ['E']] && x < 256
  | _ => true

def townSmallUp : Client.Act Nat → Bool
  | .sent _ _ (.msg _ ref x) => ref ∈ [['Q'], ['B']] && x < 256
  | _ => true

theorem town_faithful (n : Net Nat) (h1 : n.server.past.all townSmallDown = true)
    (h2 : n.conns.all (fun p => p.2.client.past.all townSmallUp) = true) :
    Faithful town (fun u => [Char.ofNat u]) (['p'], ['w']) n := by
  refine ⟨fun u c hc who q o hm ts m hd => ?_, fun u q o hm ts m hd => ?_⟩
  · have hs : townSmallUp (.sent who q o) = true := by
      rw [List.all_eq_true] at h2
      have := h2 (u, c) (find_mem hc)
      rw [List.all_eq_true] at this
      exact this _ hm
    have key : ∀ {id : UInt32} {x : Nat}, town.up ts q o = (townFrame id ts q x).bytes →
        townUp.getMsg id [UInt8.ofNat x] = .ok m := by
      intro id x e
      rw [e] at hd
      obtain ⟨y, k1, k2⟩ := decodes_frame (townFrame_ok _ _ _ _) hd
      unfold Spec.delivered at k1
      rw [if_pos (show town.server.decoder.signature = (townFrame id ts q x).hdr.signature from rfl)] at k1
      split at k1
      · rename_i t ht
        cases k1
        rw [← k2]
        exact ht
      · cases k1
    cases o with
    | selfKey =>
      have := key (id := 1) (x := 0) rfl
      exact ⟨0, by cases this; rfl⟩
    | hash =>
      have := key (id := 2) (x := 0) rfl
      cases this; rfl
    | msg a ref x =>
      simp only [townSmallUp, List.mem_cons, List.not_mem_nil, or_false, Bool.and_eq_true, decide_eq_true_eq] at hs
      obtain ⟨hr, hx⟩ := hs
      have hb : townByte [UInt8.ofNat x] = x := by
        show (UInt8.ofNat x).toNat = x
        simp [UInt8.toNat_ofNat']; omega
      rcases hr with rfl | rfl
      · have := key (id := 3) (x := x) rfl
        have e : townUp.getMsg 3 [UInt8.ofNat x] = .ok (.msg ['Q'] (townByte [UInt8.ofNat x])) := rfl
        rw [e, hb] at this
        cases this; rfl
      · have := key (id := 5) (x := x) rfl
        have e : townUp.getMsg 5 [UInt8.ofNat x] = .ok (.msg ['B'] (townByte [UInt8.ofNat x])) := rfl
        rw [e, hb] at this
        cases this; rfl
  · have hs : townSmallDown (.send u q o true) = true := by
      rw [List.all_eq_true] at h1
      exact h1 _ hm
    have key : ∀ {id : UInt32} {x : Nat}, town.down ts q o = (townFrame id ts q x).bytes →
        townDown.getMsg id [UInt8.ofNat x] = .ok m := by
      intro id x e
      rw [e] at hd
      obtain ⟨y, k1, k2⟩ := decodes_frame (townFrame_ok _ _ _ _) hd
      unfold Spec.delivered at k1
      rw [if_pos (show town.client.decoder.signature = (townFrame id ts q x).hdr.signature from rfl)] at k1
      split at k1
      · rename_i t ht
        cases k1
        rw [← k2]
        exact ht
      · cases k1
    have hb : ∀ x, x < 256 → townByte [UInt8.ofNat x] = x := by
      intro x hx
      show (UInt8.ofNat x).toNat = x
      simp [UInt8.toNat_ofNat']; omega
    cases o with
    | confirmation => have := key (id := 1) (x := 0) rfl; cases this; rfl
    | selfKey v =>
      have := key (id := 2) (x := v) rfl
      have e : townDown.getMsg 2 [UInt8.ofNat v] = .ok (.selfKey [Char.ofNat (townByte [UInt8.ofNat v])]) := rfl
      rw [e, hb v (by simpa [townSmallDown] using hs)] at this
      cases this; rfl
    | hash e =>
      cases e with
      | false => have := key (id := 3) (x := 0) rfl; cases this; rfl
      | true => have := key (id := 4) (x := 0) rfl; cases this; rfl
    | beacon => have := key (id := 5) (x := 0) rfl; cases this; rfl
    | msg ref x =>
      simp only [townSmallDown, List.mem_cons, List.not_mem_nil, or_false, Bool.and_eq_true, decide_eq_true_eq] at hs
      obtain ⟨hr, hx⟩ := hs
      rcases hr with rfl | rfl | rfl
      · have := key (id := 6) (x := x) rfl
        have e : townDown.getMsg 6 [UInt8.ofNat x] = .ok (.msg ['R'] (townByte [UInt8.ofNat x])) := rfl
        rw [e, hb x hx] at this
        cases this; rfl
      · have := key (id := 7) (x := x) rfl
        have e : townDown.getMsg 7 [UInt8.ofNat x] = .ok (.msg ['U'] (townByte [UInt8.ofNat x])) := rfl
        rw [e, hb x hx] at this
        cases this; rfl
      · have := key (id := 8) (x := x) rfl
        have e : townDown.getMsg 8 [UInt8.ofNat x] = .ok (.msg ['E'] (townByte [UInt8.ofNat x])) := rfl
        rw [e, hb x hx] at this
        cases this; rfl

/-- The witness for all theorems below: these hypotheses hold of the run. -/
theorem town_ok : Framed town (run town townAll .new) ∧
    Faithful town (fun u => [Char.ofNat u]) (['p'], ['w']) (run town townAll .new) :=
  ⟨town_framed _, town_faithful _ (by decide +kernel) (by decide +kernel)⟩

/-! ### C144 -/

/-- Calls have numbers other than 0. -/
theorem call_number {w : Setup P} {n : Net P} {u : Uuid} {c : Conn P} (hl : Links w n u c) {k : Nat} {q : UInt32}
    {o : Client.Out P} (h : .sent (.call k) q o ∈ c.client.past) : q ≠ 0 := by
  obtain ⟨is, his⟩ := hl.client
  rw [his] at h
  obtain ⟨a, b, e⟩ := List.append_of_mem h
  obtain ⟨h1, _, _, h2⟩ := C39_sequences w.client is
  have := (h1 q (h2 a b k q o e).1).1
  intro e
  rw [e] at this
  exact absurd this (by decide)

/-- **C144** In every run: if a request of a client ends with a conclusion or with the error of the
request, then the client sent this very request, the server looked at it and ran the code of the request
for this client with what user code of the client passed, user code of the server decided on this
answer, and the server sent it. -/
theorem C144_result_from_server (w : Setup P) (name : Uuid → List Char) (hashes : List Char × List Char)
    (es : List (UInt64 × Event P)) (hf : Framed w (run w es .new)) (hfa : Faithful w name hashes (run w es .new))
    {u : Uuid} {c : Conn P} (hc : (run w es .new).find u = some c) {k : Nat} {r : Client.Result P} {ref : Flow.Ref} {x : P}
    (he : .ended k r ∈ c.client.past) (hr : (∃ e, r = .conclusion e ref x) ∨ r = .error ref x) :
    ∃ req body id asked q, .called k (.request req) body ∈ c.client.past ∧ req.request.getD [] = asked ∧
      .sent (.call k) q (.msg id asked body) ∈ c.client.past ∧
      ∃ newer older, (run w es .new).server.past = newer ++ .send u q (.msg ref x) true ::
        .respond u asked q :: .got u (.msg asked body) q :: older ∧
      ∃ served s l, served ∈ w.server.workflow.requests ∧ served.request = some asked ∧
        s.past = .respond u asked q :: .got u (.msg asked body) q :: older ∧
        Server.Decides w.env served s u body (.msg ref x) l := by
  have hi := inv_run (w := w) es
  have hl := hi.conn u c hc
  have hlaw := lawful_of hl
  obtain ⟨a, b, e⟩ := List.append_of_mem he
  have hlaw' := hlaw
  rw [e] at hlaw'
  obtain ⟨_, job, body, h1, h2⟩ := hlaw'.at
  have up : ∀ y, y ∈ b → y ∈ c.client.past := fun y hy => by
    rw [e]; exact List.mem_append_right _ (List.mem_cons_of_mem _ hy)
  have hrep : ∃ q m, .delivered (.call k) q m ∈ b ∧ Client.Reports job m r := by
    rcases h2 with h2 | ⟨h2, _⟩ | h2
    · rcases hr with ⟨_, hr⟩ | hr <;> (rw [hr] at h2; cases h2)
    · rcases hr with ⟨_, hr⟩ | hr <;> (rw [hr] at h2; cases h2)
    · exact h2
  obtain ⟨q, m, h3, h4⟩ := hrep
  have hm : m = .msg ref x ∧ ∃ req, job = .request req := by
    rcases hr with ⟨e, hr⟩ | hr <;> (rw [hr] at h4; cases h4; exact ⟨rfl, _, rfl⟩)
  obtain ⟨rfl, req, rfl⟩ := hm
  have hq : q ≠ 0 := by
    obtain ⟨o, ho⟩ := Client.lawful_delivered hlaw (up _ h3)
    exact call_number hl ho
  obtain ⟨o, y, z, s1, ⟨ts, s2⟩, ⟨newer, h, s3, s4⟩, ⟨ts', s5⟩⟩ := linked_run es hf u c hc _ _ _ hq (up _ h3)
  obtain ⟨job', body', id, ref', t1, t2, t3, t4, _⟩ := Client.lawful_sent hlaw s1
  obtain ⟨e1, rfl⟩ := Client.called_unique hlaw (up _ h1) t1
  subst e1
  subst t4
  have hy := hfa.call u c hc _ _ _ s1 ts _ s2
  cases (show _ = _ from hy)
  have hz := hfa.answer u q z (by rw [s3]; simp) ts' _ s5
  cases z with
  | msg ref2 x2 =>
    cases (show _ = _ from hz)
    cases s4 with
    | request k1 k2 k3 k4 =>
      exact ⟨req, body, id, _, q, up _ h1, t3, s1, newer, _, s3, _, _, _, k1, k2, k3, k4⟩
  | _ => cases (show _ = _ from hz)

/-- The request `Q` with 41 is answered with `R` and 42. -/
example : ∃ c, (run town townAll .new).find 1 = some c ∧
    decide (.ended 1 (.conclusion (some ['Y']) ['R'] 42) ∈ c.client.past) = true :=
  town_sees _ (by decide +kernel)

/-- **C144** In every run: if a beacon of a client is confirmed, then the client sent this very beacon,
the server looked at it, user code of the server took it, and the server sent the confirmation. -/
theorem C144_beacon_from_server (w : Setup P) (name : Uuid → List Char) (hashes : List Char × List Char)
    (es : List (UInt64 × Event P)) (hf : Framed w (run w es .new)) (hfa : Faithful w name hashes (run w es .new))
    {u : Uuid} {c : Conn P} (hc : (run w es .new).find u = some c) {k : Nat}
    (he : .ended k .confirmed ∈ c.client.past) :
    ∃ ref body id q, .called k (.beacon ref) body ∈ c.client.past ∧
      .sent (.call k) q (.msg id ref body) ∈ c.client.past ∧
      ∃ newer older, (run w es .new).server.past = newer ++ .send u q .beacon true ::
        .beacon u ref q :: .got u (.msg ref body) q :: older ∧
      ∃ b s, b ∈ w.server.workflow.beacons ∧ b.reference = ref ∧
        s.past = .beacon u ref q :: .got u (.msg ref body) q :: older ∧ w.env.beacon s ref u body = .ok () := by
  have hi := inv_run (w := w) es
  have hl := hi.conn u c hc
  have hlaw := lawful_of hl
  obtain ⟨a, b, e⟩ := List.append_of_mem he
  have hlaw' := hlaw
  rw [e] at hlaw'
  obtain ⟨_, job, body, h1, h2⟩ := hlaw'.at
  have up : ∀ y, y ∈ b → y ∈ c.client.past := fun y hy => by
    rw [e]; exact List.mem_append_right _ (List.mem_cons_of_mem _ hy)
  obtain ⟨q, m, h3, h4⟩ : ∃ q m, .delivered (.call k) q m ∈ b ∧ Client.Reports job m .confirmed := by
    rcases h2 with h2 | ⟨h2, _⟩ | h2
    · cases h2
    · cases h2
    · exact h2
  cases h4
  rename_i ref
  have hq : q ≠ 0 := by
    obtain ⟨o, ho⟩ := Client.lawful_delivered hlaw (up _ h3)
    exact call_number hl ho
  obtain ⟨o, y, z, s1, ⟨ts, s2⟩, ⟨newer, h, s3, s4⟩, ⟨ts', s5⟩⟩ := linked_run es hf u c hc _ _ _ hq (up _ h3)
  obtain ⟨job', body', id, ref', t1, t2, t3, t4, _⟩ := Client.lawful_sent hlaw s1
  obtain ⟨e1, rfl⟩ := Client.called_unique hlaw (up _ h1) t1
  subst e1
  subst t4
  cases (show _ = _ from hfa.call u c hc _ _ _ s1 ts _ s2)
  have hz := hfa.answer u q z (by rw [s3]; simp) ts' _ s5
  cases t3
  cases z with
  | beacon =>
    cases s4 with
    | beacon k1 k2 k3 => exact ⟨_, body, id, q, up _ h1, s1, newer, _, s3, _, _, k1, rfl, k2, k3⟩
    | request _ _ _ hd => cases hd
  | _ => cases (show _ = _ from hz)

/-- The beacon `B` is confirmed. -/
example : ∃ c, (run town townAll .new).find 1 = some c ∧ decide (.ended 2 .confirmed ∈ c.client.past) = true :=
  town_sees _ (by decide +kernel)

/-! ### C145 -/

/-- **C145** In every run: the messages of a client the server looks at are messages the client sent, in
order, each one once, with their numbers. If all messages can be decoded, they are the first ones the
client sent: none is left out. -/
theorem C145_calls_in_order (w : Setup P) (name : Uuid → List Char) (hashes : List Char × List Char)
    (es : List (UInt64 × Event P)) (hf : Framed w (run w es .new)) (hfa : Faithful w name hashes (run w es .new))
    {u : Uuid} {c : Conn P} (hc : (run w es .new).find u = some c) :
    let same (x : UInt32 × Client.Who × Client.Out P) (y : UInt32 × Server.In P) :=
      x.1 = y.1 ∧ SameCall w hashes x.2.2 y.2
    let got := heard u (run w es .new).server.past
    Sub same (sents c.client.past) got ∧
    (Readable w (run w es .new) → Pairs same ((sents c.client.past).take got.length) got) := by
  intro same got
  have hi := inv_run (w := w) es
  have hl := hi.conn u c hc
  have key : ∀ (x : UInt32 × Client.Who × Client.Out P) (y : UInt32 × Server.In P), x ∈ sents c.client.past →
      x.1 = y.1 ∧ Arrives w.up w.server.decoder x.1 x.2.2 y.2 → same x y := by
    rintro ⟨q, who, o⟩ ⟨q', m⟩ hx ⟨h1, ts, h2⟩
    exact ⟨h1, hfa.call u c hc who q o (mem_sents.1 hx) ts m h2⟩
  refine ⟨(heard_sub hl hc hf).mono (fun x y hx _ h => key x y hx h), fun hr => ?_⟩
  obtain ⟨fs, h1, more, h2⟩ := heard_prefix hl hc hf
  have := pairs_of_readable (d := w.server.decoder) (num := fun x : UInt32 × Client.Who × Client.Out P => x.1)
    (out := fun x => x.2.2) h1 (by
      rintro ⟨q, who, o⟩ hx ts
      exact hr.call u c hc who q o (mem_sents.1 hx) ts)
  rw [← h2] at this
  exact this.take.mono (fun x y hx h => key x y (List.mem_of_mem_take hx) h)

/-- **C145** In every run: the messages a client looks at are messages the server sent to it, in order,
each one once, with their numbers. If all messages can be decoded, they are the first ones the server
sent to it: none is left out. -/
theorem C145_answers_in_order (w : Setup P) (name : Uuid → List Char) (hashes : List Char × List Char)
    (es : List (UInt64 × Event P)) (hf : Framed w (run w es .new)) (hfa : Faithful w name hashes (run w es .new))
    {u : Uuid} {c : Conn P} (hc : (run w es .new).find u = some c) :
    let same (x : UInt32 × Server.Out P) (y : UInt32 × Client.In P) := x.1 = y.1 ∧ SameAnswer name x.2 y.2
    let sent := sends u (run w es .new).server.past
    let got := Client.looked c.client.past
    Sub same sent got ∧ (Readable w (run w es .new) → Pairs same (sent.take got.length) got) := by
  intro same sent got
  have hi := inv_run (w := w) es
  have hl := hi.conn u c hc
  have key : ∀ (x : UInt32 × Server.Out P) (y : UInt32 × Client.In P), x ∈ sent →
      x.1 = y.1 ∧ Arrives w.down w.client.decoder x.1 x.2 y.2 → same x y := by
    rintro ⟨q, o⟩ ⟨q', m⟩ hx ⟨h1, ts, h2⟩
    exact ⟨h1, hfa.answer u q o (mem_sends.1 hx) ts m h2⟩
  refine ⟨(looked_sub hl hf).mono (fun x y hx _ h => key x y hx h), fun hr => ?_⟩
  obtain ⟨fs, h1, more, h2⟩ := looked_prefix hl hf
  have := pairs_of_readable (d := w.client.decoder) (num := fun x : UInt32 × Server.Out P => x.1)
    (out := fun x => x.2) h1 (by
      rintro ⟨q, o⟩ hx ts
      exact hr.answer u q o (mem_sends.1 hx) ts)
  rw [← h2] at this
  exact this.take.mono (fun x y hx h => key x y (List.mem_of_mem_take hx) h)

/-- Four messages of the client, five of the server. -/
example : heard 1 (run town townAll .new).server.past =
      [(0, .msg ['K'] 0), (1, .hash ['p'] ['w']), (11, .msg ['Q'] 41), (12, .msg ['B'] 5)] ∧
    ∃ c, (run town townAll .new).find 1 = some c ∧
      decide (Client.looked c.client.past = [(0, .confirmation), (0, .selfKey [Char.ofNat 1]), (1, .hash false),
        (11, .msg ['R'] 42), (0, .msg ['U'] 9), (12, .beacon false)] ∧ (sents c.client.past).length = 4) = true := by
  refine ⟨by rw [town_past]; rfl, town_sees _ (by decide +kernel)⟩

/-! ### C146 -/

theorem delivs_append (a b : List (Client.Act P)) : delivs (a ++ b) = delivs b ++ delivs a := by
  induction a with
  | nil => simp [delivs]
  | cons x a ih => cases x <;> simp [delivs, ih]

/-- **C146** In every run: when a client tells that it is connected, or has sent a call with an id, then
the server answered its handshake: first with the id of this very connection, then with the hash of the
client found right. So the client has protocol and workflow of the server, and the id it has is that of
its connection. -/
theorem C146_handshake_with_server (w : Setup P) (name : Uuid → List Char) (hashes : List Char × List Char)
    (es : List (UInt64 × Event P)) (hf : Framed w (run w es .new)) (hfa : Faithful w name hashes (run w es .new))
    {u : Uuid} {c : Conn P} (hc : (run w es .new).find u = some c) :
    let ok (v : List Char) := hashes = (w.server.protocolHash, w.server.workflowHash) ∧
      w.client.parseUuid (name u) = some v ∧ ∃ newer mid older k, (run w es .new).server.past =
        newer ++ .send u 1 (.hash false) true :: .got u (.hash hashes.1 hashes.2) 1 :: mid ++
          .send u 0 (.selfKey u) true :: .got u (.msg w.server.selfKey k) 0 :: older
    (.emitted .connected ∈ c.client.past → ∃ v, ok v) ∧
    ∀ k q v ref body, .sent (.call k) q (.msg (some v) ref body) ∈ c.client.past → ok v := by
  intro ok
  have hi := inv_run (w := w) es
  have hl := hi.conn u c hc
  have hlaw := lawful_of hl
  obtain ⟨is, his⟩ := hl.client
  have key : ∀ {newer older : List (Client.Act P)} {x : Client.Act P}, c.client.past = newer ++ x :: older →
      ∀ v n x, w.client.parseUuid x = some v → (∃ a b c d e f g,
        older = a ++ .delivered (.auth n) 1 (.hash false) :: b ++ .sent (.auth n) 1 .hash :: c ++
        .delivered (.auth n) 0 (.selfKey x) :: d ++ .sent (.auth n) 0 .selfKey :: e ++ .authStarted n ::
        f ++ g) → ok v := by
    rintro newer older y e v n x hx ⟨a, b, d, e1, f, g, h, rfl⟩
    have hself : .delivered (.auth n) 0 (.selfKey x) ∈ c.client.past := by rw [e]; simp
    obtain ⟨rfl, _⟩ := selfKey_own hi hf hfa hc hself
    -- the two answers in the order of the looks
    have hlk : ∃ A B C, Client.looked c.client.past = A ++ (0, .selfKey (name u)) :: B ++ (1, .hash false) :: C := by
      obtain ⟨st, hh⟩ := handled_of hl
      have hs := (delivs_looked hh).1
      have hd : [((0 : UInt32), Client.Who.auth n, Client.In.selfKey (name u)), (1, .auth n, .hash false)].Sublist
          (delivs c.client.past) := by
        have e' : c.client.past = (newer ++ y :: a) ++ .delivered (.auth n) 1 (.hash false) ::
            ((b ++ .sent (.auth n) 1 .hash :: d) ++ .delivered (.auth n) 0 (.selfKey (name u)) ::
            (e1 ++ .sent (.auth n) 0 .selfKey :: f ++ .authStarted n :: g ++ h)) := by rw [e]; simp
        rw [e', delivs_append, delivs, delivs_append, delivs]
        refine List.sublist_append_of_sublist_left ?_
        refine List.Sublist.append (l₁ := [((0 : UInt32), Client.Who.auth n, Client.In.selfKey (name u))]) ?_ (List.Sublist.refl _)
        refine List.sublist_append_of_sublist_left ?_
        exact List.sublist_append_right _ _
      have hd' := (hd.map (fun x => (x.1, x.2.2))).trans hs
      obtain ⟨r1, r2, e3, m1, m2⟩ := List.cons_sublist_iff.1 hd'
      obtain ⟨A, B, rfl⟩ := List.append_of_mem m1
      obtain ⟨B', C, rfl⟩ := List.append_of_mem (List.singleton_sublist.1 m2)
      exact ⟨A, B ++ B', C, by rw [e3]; simp⟩
    obtain ⟨A, B, C, hlk⟩ := hlk
    have hsub := looked_sub hl hf
    rw [hlk] at hsub
    obtain ⟨as1, ⟨q1, o1⟩, as2, k1, ⟨k2, ts1, k3⟩, k4, _⟩ := hsub.split
    dsimp only at k2 k3
    subst k2
    obtain ⟨bs1, ⟨q0, o0⟩, bs2, j1, ⟨j2, ts0, j3⟩, _, _⟩ := k4.split
    dsimp only at j2 j3
    subst j2
    have hm1 := mem_sends.1 (show (1, o1) ∈ sends u (run w es .new).server.past by rw [k1]; simp)
    have hm0 := mem_sends.1 (show (0, o0) ∈ sends u (run w es .new).server.past by rw [k1, j1]; simp)
    have ho1 := hfa.answer u _ _ hm1 _ _ k3
    have ho0 := hfa.answer u _ _ hm0 _ _ j3
    obtain ⟨n1, p1, e2, e3⟩ := sends_split k1
    rw [j1] at e3
    obtain ⟨n0, p0, e4, _⟩ := sends_split e3
    have hj : Justified w.server w.env (run w es .new).server.past := hi.just
    have ho1' : o1 = .hash false := by
      cases o1 <;> cases (show _ = _ from ho1)
      rfl
    subst ho1'
    have ho0' : ∃ v, o0 = .selfKey v := by
      cases o0 <;> first | exact ⟨_, rfl⟩ | cases (show _ = _ from ho0)
    obtain ⟨v0, rfl⟩ := ho0'
    have hj1 := hj
    rw [e2] at hj1
    have hj0 := hj
    rw [e2, e4, ← List.cons_append, ← List.append_assoc] at hj0
    rcases justified_at hj0 with ⟨_, k | ⟨_, _, k⟩⟩ | ⟨m0, a0⟩
    · cases k
    · cases k
    rcases justified_at hj1 with ⟨k, _⟩ | ⟨m1, a1⟩
    · exact absurd k (by decide)
    have hp0 : v0 = u ∧ ∃ k h, p0 = .got u (.msg w.server.selfKey k) 0 :: h := by
      cases a0 with
      | selfKey => exact ⟨rfl, _, _, rfl⟩
      | request _ _ _ hd => cases hd
    have hp1 : ∃ h, p1 = .got u (.hash w.server.protocolHash w.server.workflowHash) 1 :: h := by
      cases a1 with
      | hash => exact ⟨_, rfl⟩
      | request _ _ _ hd => cases hd
    obtain ⟨rfl, k, h0, rfl⟩ := hp0
    obtain ⟨h1, hp1⟩ := hp1
    have hh : hashes = (w.server.protocolHash, w.server.workflowHash) := by
      obtain ⟨who, o', g1, g2⟩ := got_sent hi hf hfa hc
        (show Server.Act.got v0 (.hash w.server.protocolHash w.server.workflowHash) 1 ∈ _ by rw [e2, hp1]; simp)
      cases o' with
      | hash =>
        have := show _ = _ from g2
        injection this with t1 t2
        exact Prod.ext t1.symm t2.symm
      | selfKey => obtain ⟨_, g2⟩ := g2; cases g2
      | msg => cases (show _ = _ from g2)
    refine ⟨hh, hx, n1, ?_⟩
    rw [hp1] at e4
    cases n0 with
    | nil => cases e4
    | cons z n0 =>
      simp only [List.cons_append] at e4
      injection e4 with t1 t2
      subst t2
      exact ⟨n0, h0, k, by rw [e2, hp1, hh]; simp⟩
  refine ⟨fun h => ?_, fun k q v ref body h => ?_⟩
  · obtain ⟨newer, older, e⟩ := List.append_of_mem h
    have := e
    rw [his] at this
    obtain ⟨v, n, x, h1, h2⟩ := (C43_connected_after_handshake w.client is this).1 rfl
    exact ⟨v, key e v n x h1 h2⟩
  · obtain ⟨newer, older, e⟩ := List.append_of_mem h
    have := e
    rw [his] at this
    obtain ⟨n, x, h1, h2⟩ := (C43_connected_after_handshake w.client is this).2 k q v ref body rfl
    exact key e v n x h1 h2

/-- The client tells that it is connected, and sends a call with the id. -/
example : ∃ c, (run town townAll .new).find 1 = some c ∧
    decide (.emitted .connected ∈ c.client.past ∧
      .sent (.call 1) 11 (.msg (some [Char.ofNat 1]) ['Q'] 41) ∈ c.client.past) = true :=
  town_sees _ (by decide +kernel)

/-! ### C147 -/

/-- **C147** (violated) The client has protocol and workflow of the server, all messages can be packed,
and nothing has stopped. An event sends a broadcast to the client while it makes the handshake: the
handshake fails, and the client gives up. -/
theorem C147_handshake_succeeds_violated :
    (∀ o, town.client.packs o = true) ∧ (['p'], ['w']) = (town.server.protocolHash, town.server.workflowHash) ∧
    Framed town (run town townLost .new) ∧
    Faithful town (fun u => [Char.ofNat u]) (['p'], ['w']) (run town townLost .new) ∧
    Readable town (run town townLost .new) ∧
    ∃ c, (run town townLost .new).find 1 = some c ∧
      decide (.authEnded 0 none ∈ c.client.past ∧ .messagesEnded false ∈ c.client.past ∧
        .apiEnded true ∉ c.client.past ∧ .apiEnded false ∉ c.client.past) = true :=
  ⟨fun _ => rfl, rfl, town_framed _, town_faithful _ (by decide +kernel) (by decide +kernel), town_readable _,
    town_sees _ (by decide +kernel)⟩


/-- **C147** (partial) In every run: a handshake fails only if a message of it cannot be packed, the task
of the client that sends has ended, the client has another protocol or workflow than the server, or the
server sent a broadcast or another message of the protocol with the number 0 to this client. The full
property has no exception for broadcasts. (The message that asks for the id is no beacon.) -/
theorem C147_handshake_succeeds_partial (w : Setup P) (name : Uuid → List Char) (hashes : List Char × List Char)
    (es : List (UInt64 × Event P)) (hf : Framed w (run w es .new)) (hfa : Faithful w name hashes (run w es .new))
    (hb : ∀ b ∈ w.server.workflow.beacons, b.reference ≠ w.server.selfKey)
    {u : Uuid} {c : Conn P} (hc : (run w es .new).find u = some c) {n : Nat} (h : .authEnded n none ∈ c.client.past) :
    w.client.packs .selfKey = false ∨ w.client.packs .hash = false ∨ (∃ ok, .apiEnded ok ∈ c.client.past) ∨
    hashes ≠ (w.server.protocolHash, w.server.workflowHash) ∨
    ∃ ref x, .send u 0 (.msg ref x) true ∈ (run w es .new).server.past := by
  have hi := inv_run (w := w) es
  have hl := hi.conn u c hc
  have hlaw := lawful_of hl
  obtain ⟨is, his⟩ := hl.client
  have hbr := (C42_broadcast_in_handshake_partial w.client is).1 n (his ▸ h)
  rw [← his] at hbr
  rcases hbr with k | k | k | ⟨m, k, k2⟩ | ⟨m, k, k2⟩
  · exact .inl k
  · exact .inr (.inl k)
  · exact .inr (.inr (.inl k))
  · right; right; right; right
    obtain ⟨⟨q, o⟩, h1, h2, ts, h3⟩ := (looked_sub hl hf).mem (delivered_looked hl k)
    dsimp only at h2 h3
    subst h2
    have hs := mem_sends.1 h1
    have ho := hfa.answer u _ o hs ts _ h3
    rcases justified_mem hi.just hs with ⟨_, rfl | ⟨ref, x, rfl⟩⟩ | ⟨newer, older, m', j1, j2⟩
    · cases (show _ = _ from ho)
      obtain ⟨a, b, e⟩ := List.append_of_mem k
      rw [his] at e
      exact absurd rfl (C40_response_to_its_request w.client is e).2.2.2.1
    · exact ⟨ref, x, hs⟩
    · have hg : .got u m' 0 ∈ (run w es .new).server.past := by
        rw [j1]; exact List.mem_append_right _ (List.mem_cons_of_mem _ j2.got)
      obtain ⟨who, o', g1, g2⟩ := got_sent hi hf hfa hc hg
      have : o' = .selfKey := by
        cases who with
        | call k => exact absurd rfl (call_number hl g1)
        | auth k =>
          rcases (Client.lawful_sent hlaw g1).2 with ⟨_, rfl⟩ | ⟨e, _⟩
          · rfl
          · exact absurd e (by decide)
      subst this
      obtain ⟨kk, hm'⟩ := g2
      cases j2 with
      | selfKey => exact absurd (show m = _ from ho) (k2 _)
      | request _ _ _ hd => 
        cases o with
        | msg ref x => exact ⟨ref, x, hs⟩
        | _ => cases hd
      | beacon k1 _ _ =>
        injection hm' with t
        exact absurd t (hb _ k1)
      | hash => cases hm'
      | wrongHash => cases hm'
  · right; right; right; left
    obtain ⟨o, y, z, s1, ⟨ts, s2⟩, ⟨newer, h, s3, s4⟩, ⟨ts', s5⟩⟩ := linked_run es hf u c hc _ _ _ (by decide) k
    have : o = .hash := by
      rcases (Client.lawful_sent hlaw s1).2 with ⟨e, _⟩ | ⟨_, rfl, _⟩
      · exact absurd e (by decide)
      · rfl
    subst this
    have hy : y = .hash hashes.1 hashes.2 := hfa.call u c hc _ _ _ s1 ts _ s2
    have hz := hfa.answer u 1 z (by rw [s3]; simp) ts' _ s5
    intro e
    rw [e] at hy
    cases s4 with
    | hash => exact k2 hz
    | wrongHash hd =>
      injection hy with t1 t2
      rcases hd with hd | hd
      · exact hd t1
      · exact hd t2
    | selfKey => cases hy
    | request => cases hy
    | beacon => cases hy

/-- A handshake fails because the client has another workflow. -/
example : ∃ c, (run { town with server := { town.server with workflowHash := ['v'] } } townShake .new).find 1 = some c ∧
    decide (.authEnded 0 none ∈ c.client.past) = true := by
  have h : ((run { town with server := { town.server with workflowHash := ['v'] } } townShake .new).find 1).any
      (fun c => decide (.authEnded 0 none ∈ c.client.past)) = true := by decide +kernel
  cases e : (run { town with server := { town.server with workflowHash := ['v'] } } townShake .new).find 1 with
  | none => rw [e] at h; cases h
  | some c => exact ⟨c, rfl, by rwa [e] at h⟩

/-! ### C148 -/

/-- **C148** In every run: the broadcasts a client hands to user code are messages the server sent to
this client, in order, each one once. -/
theorem C148_broadcasts_from_server (w : Setup P) (name : Uuid → List Char) (hashes : List Char × List Char)
    (es : List (UInt64 × Event P)) (hf : Framed w (run w es .new)) (hfa : Faithful w name hashes (run w es .new))
    {u : Uuid} {c : Conn P} (hc : (run w es .new).find u = some c) :
    Sub (fun x y => x.2 = .msg y.1 y.2) (sends u (run w es .new).server.past) (casts c.client.past) := by
  have hi := inv_run (w := w) es
  have hl := hi.conn u c hc
  obtain ⟨st, hh⟩ := handled_of hl
  refine (looked_sub hl hf).trans (casts_looked hh).1 ?_
  rintro ⟨q, o⟩ ⟨q', m⟩ ⟨ref, x⟩ hx ⟨_, ts, h2⟩ h3
  cases (show m = _ from h3)
  have := hfa.answer u q o (mem_sends.1 hx) ts _ h2
  cases o <;> cases (show _ = _ from this)
  rfl

/-- The broadcast `U` with 9 is handed to user code. -/
example : ∃ c, (run town townAll .new).find 1 = some c ∧ decide (casts c.client.past = [(['U'], 9)]) = true :=
  town_sees _ (by decide +kernel)

end Verif.Props
