import Verif.Model.SystemCodec
import Verif.Props.System
import Verif.Props.RustStream
set_option autoImplicit false
/-!
Property theorems: generated Rust clients and server with the generated Rust codec between them.
-/
namespace Verif.Props

open Verif Verif.Spec Verif.System

/-- A message of a declared type, with a value for which transport is exact (C54), of less than 2^64
bytes. -/
def CanSend (cd : Codec) (m : Rust.Msg) : Prop :=
  SendOk cd.protocol m ∧ ∀ b, cd.protocol.pack m 0 0 = .ok b → b.length < 2 ^ 64

/-- Declarations have different ids, the structs `Config::close` adds are declared, the fields of
`HashRequest` have different ids, the key of the client is no `HashRequest`, and no service message has
2^64 bytes. -/
structure CodecOk (cd : Codec) : Prop where
  distinct : IdsDistinct cd.protocol
  confirmation : (cd.confirmation, Fields.nil) ∈ cd.protocol.structs
  selfKeyResponse : (cd.selfKeyResponse.1, oneText cd.selfKeyResponse.2) ∈ cd.protocol.structs
  hashRequest : (cd.hashRequest.1, hashFields cd.hashRequest.2.1 cd.hashRequest.2.2) ∈ cd.protocol.structs
  hashResponse : (cd.hashResponse.1, maybeText cd.hashResponse.2) ∈ cd.protocol.structs
  beaconConfirmation : (cd.beaconConfirmation.1, maybeText cd.beaconConfirmation.2) ∈ cd.protocol.structs
  services : [cd.confirmation, cd.selfKeyResponse.1, cd.hashResponse.1, cd.beaconConfirmation.1].Nodup
  fields : cd.hashRequest.2.1 ≠ cd.hashRequest.2.2
  key : SendOk cd.protocol cd.key ∧ msgId cd.key ≠ cd.hashRequest.1
  smallCall : ∀ o, (∀ id ref body, o ≠ .msg id ref body) → ∀ b, cd.protocol.pack (cd.call o) 0 0 = .ok b → b.length < 2 ^ 64
  smallAnswer : ∀ o, (∀ ref body, o ≠ .msg ref body) → ∀ b, cd.protocol.pack (cd.answer o) 0 0 = .ok b → b.length < 2 ^ 64

/-- What user code has sent so far has the type it is sent as (the compiler sees to it), and is no message
of the group `InternalServiceGroup`. -/
structure Typed (cd : Codec) (n : Net Rust.Msg) : Prop where
  call : ∀ u c, n.find u = some c → ∀ who q id ref body, .sent who q (.msg id ref body) ∈ c.client.past →
    CanSend cd body ∧ cd.name (msgId body) = ref ∧ msgId body ≠ cd.hashRequest.1
  answer : ∀ u q ref body, .send u q (.msg ref body) true ∈ n.server.past →
    CanSend cd body ∧ cd.name (msgId body) = ref ∧
      msgId body ∉ [cd.confirmation, cd.selfKeyResponse.1, cd.hashResponse.1, cd.beaconConfirmation.1]

/-- A packed message is a frame that is decoded to it. -/
theorem codec_frame {cd : Codec} (hd : IdsDistinct cd.protocol) {m : Rust.Msg} (hm : CanSend cd m) (q : UInt32) (ts : UInt64) :
    ∃ f : Frame, f.Ok ∧ cd.pack m q ts = f.bytes ∧ f.hdr.sequence = q ∧
      Spec.delivered cd.protocol.decoder f = some ⟨f.hdr, m⟩ := by
  obtain ⟨hok, hs⟩ := hm
  have frame : ∀ (id : UInt32) (body : Bytes),
      (∀ q ts, cd.protocol.pack m q ts = .ok (Rust.packBuffer id cd.protocol.signature q ts body)) →
      (body.length < 2 ^ 64 → cd.protocol.getMsg id body = .ok m) →
      ∃ f : Frame, f.Ok ∧ cd.pack m q ts = f.bytes ∧ f.hdr.sequence = q ∧
        Spec.delivered cd.protocol.decoder f = some ⟨f.hdr, m⟩ := by
    intro id body hb hget
    have hbl : body.length + 26 < 2 ^ 64 := by
      have := hs _ (hb 0 0)
      simp [Rust.packBuffer] at this
      omega
    have hm : (UInt64.ofNat body.length).toNat = body.length := by
      simp only [UInt64.toNat_ofNat']; exact Nat.mod_eq_of_lt (by omega)
    refine ⟨⟨⟨id, cd.protocol.signature, q, ts, UInt64.ofNat body.length⟩, body⟩, ⟨hm, hbl⟩, ?_, rfl, ?_⟩
    · unfold Codec.pack
      rw [hb]
      simp only [Rust.packBuffer, Frame.bytes, hm]
    · simp [Spec.delivered, Rust.Protocol.decoder, hget (by omega)]
  cases m with
  | struct id fs v =>
    obtain ⟨hmem, hfs, hv⟩ := hok
    obtain ⟨b, e1, e2⟩ := C01_rust_round_trip fs v hfs hv
    refine frame id b (fun q ts => ?_) (fun hl => ?_)
    · simp [Rust.Protocol.pack, e1]
    · rw [((C21_rust_dispatch cd.protocol hd id b).2.1 fs hmem), e2 hl]
      simp
  | enum id vs v =>
    obtain ⟨hmem, hvs, hv⟩ := hok
    cases v with
    | none => simp [ElemClean] at hv
    | some x =>
      simp only [ElemOk] at hvs
      simp only [ElemClean] at hv
      obtain ⟨b, e1, e2⟩ := C03_enum_round_trip_partial vs x hvs.1 hvs.2 hv
      refine frame id b (fun q ts => ?_) (fun hl => ?_)
      · simp [Rust.Protocol.pack, e1]
      · rw [((C21_rust_dispatch cd.protocol hd id b).1 vs hmem), e2 hl]
        simp

theorem delivered_map {A B : Type} (d : Rust.Decoder A) (g : A → B) (f : Frame) :
    Spec.delivered (mapDecoder d g) f = (Spec.delivered d f).map (fun x => ⟨x.header, g x.msg⟩) := by
  unfold Spec.delivered mapDecoder
  dsimp only
  by_cases h : d.signature = f.hdr.signature
  · rw [if_pos h, if_pos h]
    cases d.getMsg f.hdr.id f.body <;> rfl
  · rw [if_neg h, if_neg h]; rfl

/-- What is sent is decoded to what the receiver sees of it, and to nothing else. -/
theorem codec_decodes {cd : Codec} (hd : IdsDistinct cd.protocol) {m : Rust.Msg} (hm : CanSend cd m) (q : UInt32) (ts : UInt64)
    {B : Type} (g : Rust.Msg → B) (x : B) :
    Decodes (mapDecoder cd.protocol.decoder g) (cd.pack m q ts) x ↔ x = g m := by
  obtain ⟨f, h1, h2, h3, h4⟩ := codec_frame hd hm q ts
  constructor
  · intro h
    rw [h2] at h
    obtain ⟨y, k1, k2⟩ := decodes_frame h1 h
    rw [delivered_map, h4] at k1
    cases k1
    exact k2.symm
  · rintro rfl
    exact ⟨f, ⟨f.hdr, g m⟩, h1, h2, by rw [delivered_map, h4]; rfl, rfl⟩

/-- User code of a client may send this as `ref`. -/
def CallOk (cd : Codec) (ref : Flow.Ref) (body : Rust.Msg) : Prop :=
  CanSend cd body ∧ cd.name (msgId body) = ref ∧ msgId body ≠ cd.hashRequest.1

/-- User code of the server may send this as `ref`. -/
def AnswerOk (cd : Codec) (ref : Flow.Ref) (body : Rust.Msg) : Prop :=
  CanSend cd body ∧ cd.name (msgId body) = ref ∧
    msgId body ∉ [cd.confirmation, cd.selfKeyResponse.1, cd.hashResponse.1, cd.beaconConfirmation.1]

theorem canSend_out {cd : Codec} (ok : CodecOk cd) {o : Client.Out Rust.Msg}
    (h : ∀ id ref body, o = .msg id ref body → CallOk cd ref body) : CanSend cd (cd.call o) := by
  cases o with
  | selfKey => exact ⟨ok.key.1, ok.smallCall _ (by intros; simp)⟩
  | hash =>
    refine ⟨⟨ok.hashRequest, ?_, ?_⟩, ok.smallCall _ (by intros; simp)⟩
    · simp [hashFields, FieldsOk, ElemOk, Fields.ids, ok.fields]
    · simp [hashFields, FieldsClean, ElemClean]
  | msg id ref body => exact (h id ref body rfl).1

theorem canSend_in {cd : Codec} (ok : CodecOk cd) {o : Server.Out Rust.Msg} (h : ∀ ref body, o = .msg ref body → AnswerOk cd ref body) :
    CanSend cd (cd.answer o) := by
  cases o with
  | confirmation =>
    exact ⟨⟨ok.confirmation, by simp [FieldsOk], by simp [FieldsClean]⟩, ok.smallAnswer _ (by intros; simp)⟩
  | selfKey v =>
    refine ⟨⟨ok.selfKeyResponse, ?_, ?_⟩, ok.smallAnswer _ (by intros; simp)⟩
    · simp [oneText, FieldsOk, ElemOk, Fields.ids]
    · simp [oneText, FieldsClean, ElemClean]
  | hash e =>
    refine ⟨⟨ok.hashResponse, ?_, ?_⟩, ok.smallAnswer _ (by intros; simp)⟩
    · simp [maybeText, FieldsOk, ElemOk, Fields.ids]
    · have ht : wrongHashText ≠ [] := by decide
      generalize wrongHashText = t at ht
      cases e <;> simp [maybeText, FieldsClean, ElemClean, NoContent, ht]
  | beacon =>
    refine ⟨⟨ok.beaconConfirmation, ?_, ?_⟩, ok.smallAnswer _ (by intros; simp)⟩
    · simp [maybeText, FieldsOk, ElemOk, Fields.ids]
    · simp [maybeText, FieldsClean]
  | msg ref body => exact (h ref body rfl).1

/-- All that is sent can be sent. -/
theorem canSend_call {cd : Codec} (ok : CodecOk cd) {n : Net Rust.Msg} (ht : Typed cd n) {u : Uuid} {c : Conn Rust.Msg}
    (hc : n.find u = some c) {who : Client.Who} {q : UInt32} {o : Client.Out Rust.Msg}
    (h : .sent who q o ∈ c.client.past) : CanSend cd (cd.call o) :=
  canSend_out ok (fun id ref body e => ht.call u c hc who q id ref body (e ▸ h))

theorem canSend_answer {cd : Codec} (ok : CodecOk cd) {n : Net Rust.Msg} (ht : Typed cd n) {u : Uuid}
    {q : UInt32} {o : Server.Out Rust.Msg} (h : .send u q o true ∈ n.server.past) : CanSend cd (cd.answer o) :=
  canSend_in ok (fun ref body e => ht.answer u q ref body (e ▸ h))

/-! ### C149 -/

/-- What the server makes of a message of a client. -/
def asHeard (cd : Codec) : Client.Out Rust.Msg → Server.In Rust.Msg
  | .selfKey => .msg (cd.name (msgId cd.key)) cd.key
  | .hash => .hash cd.hashes.1 cd.hashes.2
  | .msg _ ref body => .msg ref body

/-- What a client makes of a message of the server. -/
def asLooked (cd : Codec) : Server.Out Rust.Msg → Client.In Rust.Msg
  | .confirmation => .confirmation
  | .selfKey u => .selfKey (cd.uuid u)
  | .hash e => .hash e
  | .beacon => .beacon false
  | .msg ref body => .msg ref body

theorem seen_out {cd : Codec} (ok : CodecOk cd) {o : Client.Out Rust.Msg}
    (h : ∀ id ref body, o = .msg id ref body → CallOk cd ref body) : cd.seenByServer (cd.call o) = asHeard cd o := by
  cases o with
  | selfKey => simp [Codec.seenByServer, Codec.call, asHeard, ok.key.2]
  | hash => simp [Codec.seenByServer, Codec.call, asHeard, msgId, msgTexts, hashFields, texts]
  | msg id ref body =>
    obtain ⟨_, h1, h2⟩ := h id ref body rfl
    simp [Codec.seenByServer, Codec.call, asHeard, h1, h2]

theorem seen_in {cd : Codec} (ok : CodecOk cd) {o : Server.Out Rust.Msg} (h : ∀ ref body, o = .msg ref body → AnswerOk cd ref body) :
    cd.seenByClient (cd.answer o) = asLooked cd o := by
  have hs := ok.services
  simp only [List.nodup_cons, List.mem_cons, List.not_mem_nil, or_false, not_or] at hs
  obtain ⟨⟨a1, a2, a3⟩, ⟨b1, b2⟩, c1, _⟩ := hs
  cases o with
  | confirmation => simp [Codec.seenByClient, Codec.answer, asLooked, msgId]
  | selfKey v => simp [Codec.seenByClient, Codec.answer, asLooked, msgId, msgTexts, oneText, texts, Ne.symm a1]
  | hash e =>
    cases e <;>
    simp [Codec.seenByClient, Codec.answer, asLooked, msgId, msgTexts, maybeText, texts, Ne.symm a2, Ne.symm b1]
  | beacon =>
    simp [Codec.seenByClient, Codec.answer, asLooked, msgId, msgTexts, maybeText, texts, Ne.symm a3, Ne.symm b2, Ne.symm c1]
  | msg ref body =>
    obtain ⟨_, h1, h2⟩ := h ref body rfl
    simp only [List.mem_cons, List.not_mem_nil, or_false, not_or] at h2
    simp [Codec.seenByClient, Codec.answer, asLooked, h1, h2]

theorem seen_call {cd : Codec} (ok : CodecOk cd) {n : Net Rust.Msg} (ht : Typed cd n) {u : Uuid} {c : Conn Rust.Msg}
    (hc : n.find u = some c) {who : Client.Who} {q : UInt32} {o : Client.Out Rust.Msg}
    (h : .sent who q o ∈ c.client.past) : cd.seenByServer (cd.call o) = asHeard cd o :=
  seen_out ok (fun id ref body e => ht.call u c hc who q id ref body (e ▸ h))

theorem seen_answer {cd : Codec} (ok : CodecOk cd) {n : Net Rust.Msg} (ht : Typed cd n) {u : Uuid}
    {q : UInt32} {o : Server.Out Rust.Msg} (h : .send u q o true ∈ n.server.past) :
    cd.seenByClient (cd.answer o) = asLooked cd o :=
  seen_in ok (fun ref body e => ht.answer u q ref body (e ▸ h))

/-- **C149** With the generated codec, all hypotheses about codecs hold: what is sent is packed into frames
and decoded to exactly what it is. -/
theorem C149_codec_faithful (cd : Codec) (ok : CodecOk cd) (w : Setup Rust.Msg) (n : Net Rust.Msg) (ht : Typed cd n) :
    Framed (cd.setup w) n ∧ Faithful (cd.setup w) cd.uuid cd.hashes n ∧ Readable (cd.setup w) n := by
  refine ⟨⟨fun u q o h ts => ?_, fun u c hc who q o h ts => ?_⟩, ⟨fun u c hc who q o h ts m hm => ?_, fun u q o h ts m hm => ?_⟩,
    ⟨fun u c hc who q o h ts => ?_, fun u q o h ts => ?_⟩⟩
  · obtain ⟨f, h1, h2, h3, _⟩ := codec_frame ok.distinct (canSend_answer ok ht h) q ts
    exact ⟨f, h1, h3, h2⟩
  · obtain ⟨f, h1, h2, h3, _⟩ := codec_frame ok.distinct (canSend_call ok ht hc h) q ts
    exact ⟨f, h1, h3, h2⟩
  · have := (codec_decodes ok.distinct (canSend_call ok ht hc h) q ts cd.seenByServer m).1 hm
    rw [seen_call ok ht hc h] at this
    subst this
    cases o with
    | selfKey => exact ⟨_, rfl⟩
    | hash => rfl
    | msg => rfl
  · have := (codec_decodes ok.distinct (canSend_answer ok ht h) q ts cd.seenByClient m).1 hm
    rw [seen_answer ok ht h] at this
    subst this
    cases o <;> rfl
  · exact ⟨_, (codec_decodes ok.distinct (canSend_call ok ht hc h) q ts cd.seenByServer _).2 rfl⟩
  · exact ⟨_, (codec_decodes ok.distinct (canSend_answer ok ht h) q ts cd.seenByClient _).2 rfl⟩

theorem pairs_map {α β : Type} {R : α → β → Prop} {f : α → β} {as : List α} {bs : List β} (h : Pairs R as bs)
    (hr : ∀ a b, a ∈ as → R a b → b = f a) : bs = as.map f := by
  induction h with
  | nil => rfl
  | cons r _ ih =>
    rw [List.map_cons, hr _ _ List.mem_cons_self r, ih (fun a b ha => hr a b (List.mem_cons_of_mem _ ha))]

/-- **C149** In every run with the generated codec: what the server looks at for a connection are the
first messages its client sent, unchanged; and what the client looks at are the first messages the
server sent to it, unchanged. -/
theorem C149_values_unchanged (cd : Codec) (ok : CodecOk cd) (w : Setup Rust.Msg) (es : List (UInt64 × Event Rust.Msg))
    (ht : Typed cd (run (cd.setup w) es .new)) {u : Uuid} {c : Conn Rust.Msg}
    (hc : (run (cd.setup w) es .new).find u = some c) :
    let past := (run (cd.setup w) es .new).server.past
    (∃ k, heard u past = ((sents c.client.past).take k).map (fun x => (x.1, asHeard cd x.2.2))) ∧
    ∃ k, Client.looked c.client.past = ((sends u past).take k).map (fun x => (x.1, asLooked cd x.2)) := by
  intro past
  obtain ⟨hf, hfa, hr⟩ := C149_codec_faithful cd ok w _ ht
  have hi := inv_run (w := cd.setup w) es
  have hl := hi.conn u c hc
  constructor
  · obtain ⟨fs, h1, more, h2⟩ := heard_prefix hl hc hf
    have := pairs_of_readable (d := (cd.setup w).server.decoder)
      (num := fun x : UInt32 × Client.Who × Client.Out Rust.Msg => x.1) (out := fun x => x.2.2) h1 (by
        rintro ⟨q, who, o⟩ hx ts
        exact hr.call u c hc who q o (mem_sents.1 hx) ts)
    rw [← h2] at this
    refine ⟨_, pairs_map this.take ?_⟩
    rintro ⟨q, who, o⟩ ⟨q', m⟩ hx ⟨e, ts, hd⟩
    have hs := mem_sents.1 (List.mem_of_mem_take hx)
    have := (codec_decodes ok.distinct (canSend_call ok ht hc hs) q ts cd.seenByServer m).1 hd
    rw [seen_call ok ht hc hs] at this
    exact Prod.ext e.symm this
  · obtain ⟨fs, h1, more, h2⟩ := looked_prefix hl hf
    have := pairs_of_readable (d := (cd.setup w).client.decoder)
      (num := fun x : UInt32 × Server.Out Rust.Msg => x.1) (out := fun x => x.2) h1 (by
        rintro ⟨q, o⟩ hx ts
        exact hr.answer u q o (mem_sends.1 hx) ts)
    rw [← h2] at this
    refine ⟨_, pairs_map this.take ?_⟩
    rintro ⟨q, o⟩ ⟨q', m⟩ hx ⟨e, ts, hd⟩
    have hs := mem_sends.1 (List.mem_of_mem_take hx)
    have := (codec_decodes ok.distinct (canSend_answer ok ht hs) q ts cd.seenByClient m).1 hd
    rw [seen_answer ok ht hs] at this
    exact Prod.ext e.symm this

/-- **C149** In every run with the generated codec: a request that ends with a conclusion or the declared
error returns the value that user code of the server decided on, for the value that user code of the
client passed. -/
theorem C149_request_end_to_end (cd : Codec) (ok : CodecOk cd) (w : Setup Rust.Msg) (es : List (UInt64 × Event Rust.Msg))
    (ht : Typed cd (run (cd.setup w) es .new)) {u : Uuid} {c : Conn Rust.Msg}
    (hc : (run (cd.setup w) es .new).find u = some c) {k : Nat} {r : Client.Result Rust.Msg} {ref : Flow.Ref} {x : Rust.Msg}
    (he : .ended k r ∈ c.client.past) (hr : (∃ e, r = .conclusion e ref x) ∨ r = .error ref x) :
    ∃ req body, .called k (.request req) body ∈ c.client.past ∧ cd.name (msgId body) = req.request.getD [] ∧
      cd.name (msgId x) = ref ∧ ∃ served s l, served ∈ w.server.workflow.requests ∧
        served.request = some (req.request.getD []) ∧ Server.Decides w.env served s u body (.msg ref x) l := by
  obtain ⟨hf, hfa, _⟩ := C149_codec_faithful cd ok w _ ht
  obtain ⟨req, body, id, asked, q, h1, rfl, h3, newer, older, h4, served, s, l, h5, h6, h7, h8⟩ :=
    C144_result_from_server (cd.setup w) _ _ es hf hfa hc he hr
  refine ⟨req, body, h1, (ht.call u c hc _ _ _ _ _ h3).2.1, (ht.answer u q ref x (by rw [h4]; simp)).2.1,
    served, s, l, h5, h6, h8⟩

/-! The witness: the workflow `townFlow` with numbers of type `u8`. -/

def cityCodec : Codec where
  protocol := ⟨7, [], [(1, .nil), (2, oneText 3), (4, hashFields 5 6), (7, maybeText 8), (9, maybeText 10), (11, maybeText 12),
    (13, .cons 14 (.num .u8) false false .nil), (15, .cons 16 (.num .u8) false false .nil)]⟩
  names := [(11, ['K']), (13, ['Q']), (15, ['R'])]
  confirmation := 1
  selfKeyResponse := (2, 3)
  hashRequest := (4, 5, 6)
  hashResponse := (7, 8)
  beaconConfirmation := (9, 10)
  key := .struct 11 (maybeText 12) (none, ())
  hashes := (['p'], ['w'])
  uuid u := if u = 1 then ['1'] else ['2']

/-- A number as `Q` or `R`. -/
def cityMsg (id : UInt32) (f : UInt16) (x : Fin 256) : Rust.Msg := .struct id (.cons f (.num .u8) false false .nil) (x, ())

def cityEnv : Server.Env Rust.Msg where
  send _ _ _ _ := true
  drop _ _ := true
  conclude _ _ _ _ := some (.error (cityMsg 15 16 0))
  reply _ _ _ _ := some (.response (cityMsg 15 16 42))
  beacon _ _ _ _ := .ok ()
  emit _ _ _ := .err
  error _ _ := .ok ()
  ready _ := .ok ()

def city : Setup Rust.Msg where
  server := ⟨⟨0, fun _ _ => .err⟩, townFlow, [], ['p'], ['w'], fun _ => true, fun _ k => k, fun _ k => k⟩
  env := cityEnv
  opts := .new
  client := ⟨⟨0, fun _ _ => .err⟩, townFlow, fun _ => true, some⟩
  up _ _ _ := []
  down _ _ _ := []

def cityClient (is : List (Client.Input Rust.Msg)) : List (UInt64 × Event Rust.Msg) := is.map (fun i => (3, .client 1 i))

/-- Client 1 connects, does the handshake and makes a request. -/
def cityRun : List (UInt64 × Event Rust.Msg) :=
  [(1, .opened 1), (2, .server .confirm), (2, .toClient 1 100)] ++ cityClient [.work, .work, .auth 0, .api true] ++
  [(4, .toServer 1 100), (4, .toClient 1 100)] ++ cityClient [.work, .api true, .work, .work, .auth 0, .api true] ++
  [(5, .toServer 1 100), (5, .toClient 1 100)] ++ cityClient [.work, .api true, .work, .work, .auth 0, .authMessage] ++
  cityClient [.call (.request townRequest) (cityMsg 13 14 41), .api true, .proceed 1, .api true, .authMessage,
    .proceed 1, .api true] ++
  [(6, .toServer 1 10), (6, .toServer 1 100), (7, .toClient 1 100)] ++
  cityClient [.work, .api true, .work, .work, .proceed 1]

/-- The declaration and the number of a message with one number. -/
def cityNumber : Rust.Msg → Option (UInt32 × UInt16 × Num × Nat)
  | .struct id (.cons f (.num n) false false .nil) v => some (id, f, n, v.1.val)
  | _ => none

theorem cityNumber_eq {m : Rust.Msg} {id : UInt32} {f : UInt16} {x : Nat} (h : cityNumber m = some (id, f, .u8, x)) :
    ∃ y : Fin 256, m = cityMsg id f y ∧ y.val = x := by
  unfold cityNumber at h
  split at h
  · injection h with h
    injection h with h1 h
    injection h with h2 h
    injection h with h3 h
    subst h1 h2 h3
    rename_i v
    exact ⟨v.1, rfl, h⟩
  · cases h

/-- Only `R` with 42 is sent. -/
def cityDown : Server.Act Rust.Msg → Bool
  | .send _ _ (.msg ref m) _ => ref == ['R'] && cityNumber m == some (15, 16, .u8, 42)
  | _ => true

/-- Only `Q` with 41 is sent. -/
def cityUp : Client.Act Rust.Msg → Bool
  | .sent _ _ (.msg _ ref m) => ref == ['Q'] && cityNumber m == some (13, 14, .u8, 41)
  | _ => true

theorem city_ok : CodecOk cityCodec where
  distinct := by unfold IdsDistinct; decide
  confirmation := by simp [cityCodec]
  selfKeyResponse := by simp [cityCodec]
  hashRequest := by simp [cityCodec]
  hashResponse := by simp [cityCodec]
  beaconConfirmation := by simp [cityCodec]
  services := by decide
  fields := by decide
  key := ⟨⟨by simp [cityCodec], by simp [maybeText, FieldsOk, ElemOk, Fields.ids], by simp [maybeText, FieldsClean]⟩, by decide⟩
  smallCall o ho b hb := by
    cases o with
    | selfKey => cases hb; decide
    | hash => cases hb; decide
    | msg id ref body => exact absurd rfl (ho id ref body)
  smallAnswer o ho b hb := by
    cases o with
    | confirmation => cases hb; decide
    | selfKey u =>
      by_cases hu : u = 1
      · rw [show cityCodec.answer (.selfKey u) = .struct 2 (oneText 3) (['1'], ()) by
          simp [Codec.answer, cityCodec, hu]] at hb
        cases hb; decide
      · rw [show cityCodec.answer (.selfKey u) = .struct 2 (oneText 3) (['2'], ()) by
          simp [Codec.answer, cityCodec, hu]] at hb
        cases hb; decide
    | hash e => cases e <;> (cases hb; decide)
    | beacon => cases hb; decide
    | msg ref body => exact absurd rfl (ho ref body)

theorem city_typed : Typed cityCodec (run (cityCodec.setup city) cityRun .new) := by
  have h1 : (run (cityCodec.setup city) cityRun .new).server.past.all cityDown = true := by decide +kernel
  have h2 : (run (cityCodec.setup city) cityRun .new).conns.all (fun p => p.2.client.past.all cityUp) = true := by
    decide +kernel
  refine ⟨fun u c hc who q id ref body h => ?_, fun u q ref body h => ?_⟩
  · rw [List.all_eq_true] at h2
    have := h2 (u, c) (find_mem hc)
    rw [List.all_eq_true] at this
    have := this _ h
    simp only [cityUp, Bool.and_eq_true, beq_iff_eq] at this
    obtain ⟨rfl, k⟩ := this
    obtain ⟨y, rfl, ky⟩ := cityNumber_eq k
    cases (show y = 41 from Fin.ext ky)
    refine ⟨⟨⟨?_, ?_, ?_⟩, fun b hb => ?_⟩, rfl, by decide⟩
    · simp [cityCodec]
    · simp [FieldsOk, ElemOk, Fields.ids]
    · simp [FieldsClean, ElemClean]
    · cases hb; decide
  · rw [List.all_eq_true] at h1
    have := h1 _ h
    simp only [cityDown, Bool.and_eq_true, beq_iff_eq] at this
    obtain ⟨rfl, k⟩ := this
    obtain ⟨y, rfl, ky⟩ := cityNumber_eq k
    cases (show y = 42 from Fin.ext ky)
    refine ⟨⟨⟨?_, ?_, ?_⟩, fun b hb => ?_⟩, rfl, by decide⟩
    · simp [cityCodec]
    · simp [FieldsOk, ElemOk, Fields.ids]
    · simp [FieldsClean, ElemClean]
    · cases hb; decide

/-- The request is answered. -/
example : ∃ c, (run (cityCodec.setup city) cityRun .new).find 1 = some c ∧
    .ended 1 (.conclusion (some ['Y']) ['R'] (cityMsg 15 16 42)) ∈ c.client.past := by
  have h : ((run (cityCodec.setup city) cityRun .new).find 1).any (fun c => c.client.past.any (fun a => match a with
    | .ended 1 (.conclusion e ref m) => e == some ['Y'] && ref == ['R'] && cityNumber m == some (15, 16, .u8, 42)
    | _ => false)) = true := by decide +kernel
  cases e : (run (cityCodec.setup city) cityRun .new).find 1 with
  | none => rw [e] at h; cases h
  | some c =>
    rw [e] at h
    obtain ⟨a, ha, h⟩ := List.any_eq_true.1 (show List.any _ _ = true from h)
    refine ⟨c, rfl, ?_⟩
    split at h
    · simp only [Bool.and_eq_true, beq_iff_eq] at h
      obtain ⟨⟨rfl, rfl⟩, k⟩ := h
      obtain ⟨y, rfl, ky⟩ := cityNumber_eq k
      cases (show y = 42 from Fin.ext ky)
      exact ha
    · cases h

end Verif.Props
