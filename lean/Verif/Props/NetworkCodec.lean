import Verif.Proofs.NetworkCodec
import Verif.Props.SystemCodec
import Verif.Props.CrossLanguage
import Verif.Props.Network
import Verif.Props.NetworkTsTs
set_option autoImplicit false
/-!
Property theorems: generated TypeScript clients with a generated Rust server (C176), and with a generated
TypeScript server (C177), with the generated codecs between them.
-/
namespace Verif.Props

open Verif Verif.Spec Verif.Network
open Verif.System (msgId)

/-- The name of a struct of the group that `Config::close` adds. -/
def serviceRef (name : String) : Flow.Ref := "InternalServiceGroup".toList ++ '.' :: name.toList

/-- What is asked of the generated codec: that of the Rust code (`CodecOk`), with names: the declarations
of both languages are the same, names of fields, options and declarations are different, the added structs
have their names, fields of the added structs have ids below 256, and the key of the client, the hashes and
the ids are texts that both languages transport exactly. -/
structure NamedOk (cd : Network.Codec) : Prop where
  rust : CodecOk cd.codec
  enums : cd.codec.protocol.enums = cd.enums.map (fun p => (p.1, p.2.erase))
  structs : cd.codec.protocol.structs = cd.structs.map (fun p => (p.1, p.2.erase))
  enumNames : ∀ p ∈ cd.enums, NamesEnum p.2
  structNames : ∀ p ∈ cd.structs, NamesFields p.2
  named : ∀ id, id ∈ cd.enums.map Prod.fst ∨ id ∈ cd.structs.map Prod.fst → ∃ ref, cd.codec.names.lookup id = some ref
  refs : (cd.codec.names.map Prod.snd).Nodup
  confirmation : cd.codec.name cd.codec.confirmation = serviceRef "ConnectConfirmationBeacon" ∧
    (cd.codec.confirmation, .nil) ∈ cd.structs
  selfKeyResponse : cd.codec.name cd.codec.selfKeyResponse.1 = serviceRef "SelfKeyResponse" ∧
    (cd.codec.selfKeyResponse.1, .cons "uuid".toList cd.codec.selfKeyResponse.2 .str false false .nil) ∈ cd.structs
  hashRequest : cd.codec.name cd.codec.hashRequest.1 = serviceRef "HashRequest" ∧
    (cd.codec.hashRequest.1, .cons "protocol".toList cd.codec.hashRequest.2.1 .str false false
      (.cons "workflow".toList cd.codec.hashRequest.2.2 .str false false .nil)) ∈ cd.structs
  hashResponse : cd.codec.name cd.codec.hashResponse.1 = serviceRef "HashResponse" ∧
    (cd.codec.hashResponse.1, .cons "error".toList cd.codec.hashResponse.2 .str false true .nil) ∈ cd.structs
  beaconConfirmation : cd.codec.name cd.codec.beaconConfirmation.1 = serviceRef "BeaconConfirmation" ∧
    (cd.codec.beaconConfirmation.1, .cons "error".toList cd.codec.beaconConfirmation.2 .str false true .nil) ∈ cd.structs
  ids : ∀ f ∈ [cd.codec.selfKeyResponse.2, cd.codec.hashRequest.2.1, cd.codec.hashRequest.2.2, cd.codec.hashResponse.2,
    cd.codec.beaconConfirmation.2], f.toNat < 256
  key : BothOk cd.codec.protocol cd.codec.key
  hashes : NoBom cd.codec.hashes.1 ∧ NoBom cd.codec.hashes.2
  uuids : ∀ u, NoBom (cd.codec.uuid u)
  smallHash : ∀ (e : Bool) b, cd.codec.protocol.pack (.struct cd.codec.hashResponse.1 (System.maybeText cd.codec.hashResponse.2)
    (if e then some invalidHashText else none, ())) 0 0 = .ok b → b.length < 2 ^ 64

/-- A message of a declared type, with a value for which transport between the languages is exact (C60), of
less than 2^64 bytes. -/
def Portable (cd : Network.Codec) (m : Rust.Msg) : Prop :=
  BothOk cd.codec.protocol m ∧ ∀ b, cd.codec.protocol.pack m 0 0 = .ok b → b.length < 2 ^ 64

theorem Portable.canSend {cd : Network.Codec} {m : Rust.Msg} (h : Portable cd m) : CanSend cd.codec m := ⟨h.1.sendOk, h.2⟩

/-- The object that TypeScript code makes of a decoded message. -/
inductive Stands (cd : Network.Codec) : Rust.Msg → TsServer.Js → Prop
  | struct {id : UInt32} {fs : Ts.NFields} {v : fs.erase.Val} : (id, fs) ∈ cd.structs →
      Stands cd (.struct id fs.erase v) (.obj (showFields fs v))
  | enum {id : UInt32} {vs : Ts.NVariants} {v : Option vs.erase.Val} : (id, vs) ∈ cd.enums →
      Stands cd (.enum id vs.erase v) (.obj (showEnum vs v))

theorem stands_looks {cd : Network.Codec} (ok : NamedOk cd) {m : Rust.Msg} {x : TsServer.Js} (h : Stands cd m x) : Looks cd m x := by
  cases h with
  | struct h => exact .struct h (looksFields_show _ _ (ok.structNames _ h) _ (fun n _ => rfl))
  | enum h => exact .enum h (looksEnum_show _ _ (ok.enumNames _ h) _ (fun n _ => rfl))

theorem NamedOk.distinct {cd : Network.Codec} (ok : NamedOk cd) : (cd.enums.map Prod.fst ++ cd.structs.map Prod.fst).Nodup := by
  have := ok.rust.distinct
  unfold IdsDistinct at this
  rw [ok.enums, ok.structs, List.map_map, List.map_map] at this
  exact this

theorem enum_found {cd : Network.Codec} (ok : NamedOk cd) {id : UInt32} {vs : Ts.NVariants} (h : (id, vs) ∈ cd.enums) :
    cd.enums.lookup id = some vs :=
  lookup_of_mem (List.nodup_append.1 ok.distinct).1 h

theorem struct_found {cd : Network.Codec} (ok : NamedOk cd) {id : UInt32} {fs : Ts.NFields} (h : (id, fs) ∈ cd.structs) :
    cd.enums.lookup id = none ∧ cd.structs.lookup id = some fs := by
  obtain ⟨_, h1, h2⟩ := List.nodup_append.1 ok.distinct
  exact ⟨lookup_none_of_not_mem (fun hc => h2 _ hc _ (List.mem_map.mpr ⟨_, h, rfl⟩) rfl), lookup_of_mem h1 h⟩

theorem mem_of_lookup {α β : Type} [BEq α] [LawfulBEq α] {a : α} {b : β} : ∀ {l : List (α × β)}, l.lookup a = some b → (a, b) ∈ l
  | (k, x) :: l, h => by
    rw [List.lookup_cons] at h
    split at h
    · rename_i e
      cases h
      rw [eq_of_beq e]; simp
    · exact List.mem_cons_of_mem _ (mem_of_lookup h)

theorem snd_unique {α β : Type} : ∀ {l : List (α × β)} {a a' : α} {b : β}, (l.map Prod.snd).Nodup → (a, b) ∈ l → (a', b) ∈ l → a = a'
  | (k, x) :: l, a, a', b, hn, h, h' => by
    rw [List.map_cons, List.nodup_cons] at hn
    rcases List.mem_cons.1 h with e | h <;> rcases List.mem_cons.1 h' with e' | h'
    · cases e; cases e'; rfl
    · cases e; exact absurd (List.mem_map.mpr ⟨_, h', rfl⟩) hn.1
    · cases e'; exact absurd (List.mem_map.mpr ⟨_, h, rfl⟩) hn.1
    · exact snd_unique hn.2 h h'

/-- What user code passes is packed as what it is. -/
theorem read_looks {cd : Network.Codec} (ok : NamedOk cd) {m : Rust.Msg} {x : TsServer.Js} (h : Looks cd m x) :
    cd.read (cd.codec.name (msgId m)) x = some m := by
  have found : ∀ id, id ∈ cd.enums.map Prod.fst ∨ id ∈ cd.structs.map Prod.fst →
      ∃ ref, cd.codec.names.find? (fun p => p.2 == cd.codec.name id) = some (id, ref) := by
    intro id hid
    obtain ⟨ref, hr⟩ := ok.named id hid
    have hn : cd.codec.name id = ref := by rw [System.Codec.name, hr]; rfl
    have hm : (id, ref) ∈ cd.codec.names := mem_of_lookup hr
    rw [hn]
    cases hf : cd.codec.names.find? (fun p => p.2 == ref) with
    | none => exact absurd (List.find?_eq_none.1 hf _ hm) (by simp)
    | some p =>
      have h1 := List.find?_some hf
      have h2 := List.mem_of_find?_eq_some hf
      obtain ⟨id', ref'⟩ := p
      have h1 : ref' = ref := by simpa using h1
      subst h1
      exact ⟨ref', by rw [show id' = id from snd_unique ok.refs h2 hm]⟩
  cases h with
  | struct h1 h2 =>
    obtain ⟨ref, hf⟩ := found _ (.inr (List.mem_map.mpr ⟨_, h1, rfl⟩))
    obtain ⟨g1, g2⟩ := struct_found ok h1
    simp only [Network.Codec.read, msgId, hf, g1, g2, readFields_looks _ _ _ h2, Option.map_some]
  | enum h1 h2 =>
    obtain ⟨ref, hf⟩ := found _ (.inl (List.mem_map.mpr ⟨_, h1, rfl⟩))
    simp only [Network.Codec.read, msgId, hf, enum_found ok h1, readEnum_looks _ _ _ h2, Option.map_some]

/-- TypeScript packs like Rust. -/
theorem pack_portable {cd : Network.Codec} {m : Rust.Msg} (h : Portable cd m) (q : UInt32) (ts : UInt64) :
    cd.pack (some m) q ts = cd.codec.pack m q ts := by
  simp only [Network.Codec.pack, System.Codec.pack, pack_same _ _ h.1]
  rfl

/-- A packed message is a frame that TypeScript code decodes to the object. -/
theorem named_frame {cd : Network.Codec} (ok : NamedOk cd) {m : Rust.Msg} (hm : Portable cd m) :
    ∃ x, Stands cd m x ∧ ∀ q ts, ∃ f : Frame, f.Ok ∧ cd.codec.pack m q ts = f.bytes ∧ f.hdr.sequence = q ∧
      Spec.delivered cd.decoder f = some ⟨f.hdr, ⟨Flow.splitDot (cd.codec.name (msgId m)), x⟩⟩ := by
  obtain ⟨hok, hs⟩ := hm
  have frame : ∀ (id : UInt32) (body : Bytes) (y : TsServer.Msg),
      (∀ q ts, cd.codec.protocol.pack m q ts = .ok (Rust.packBuffer id cd.codec.protocol.signature q ts body)) →
      (body.length < 2 ^ 64 → cd.getMsg id body = .ok y) → ∀ q ts,
      ∃ f : Frame, f.Ok ∧ cd.codec.pack m q ts = f.bytes ∧ f.hdr.sequence = q ∧
        Spec.delivered cd.decoder f = some ⟨f.hdr, y⟩ := by
    intro id body y hb hget q ts
    have hbl : body.length + 26 < 2 ^ 64 := by
      have := hs _ (hb 0 0)
      simp [Rust.packBuffer] at this
      omega
    have hm : (UInt64.ofNat body.length).toNat = body.length := by
      simp only [UInt64.toNat_ofNat']; exact Nat.mod_eq_of_lt (by omega)
    refine ⟨⟨⟨id, cd.codec.protocol.signature, q, ts, UInt64.ofNat body.length⟩, body⟩, ⟨hm, hbl⟩, ?_, rfl, ?_⟩
    · unfold System.Codec.pack
      rw [hb]
      simp only [Rust.packBuffer, Frame.bytes, hm]
    · simp [Spec.delivered, Network.Codec.decoder, hget (by omega)]
  cases m with
  | struct id fs v =>
    obtain ⟨hmem, h1, h2, h3, h4⟩ := hok
    rw [ok.structs] at hmem
    obtain ⟨⟨id', nfs⟩, hn, e⟩ := List.mem_map.1 hmem
    cases e
    obtain ⟨b, e1, _, e2⟩ := C18_wire_partial nfs.erase v h1 h2 h3 h4
    refine ⟨_, .struct hn, frame id' b _ (fun q ts => ?_) (fun hl => ?_)⟩
    · simp [Rust.Protocol.pack, e1]
    · obtain ⟨g1, g2⟩ := struct_found ok hn
      simp only [Network.Codec.getMsg, g1, g2, (e2 hl).2]
      rfl
  | enum id vs v =>
    obtain ⟨hmem, h1, h2, h3, h4⟩ := hok
    rw [ok.enums] at hmem
    obtain ⟨⟨id', nvs⟩, hn, e⟩ := List.mem_map.1 hmem
    cases e
    cases v with
    | none => simp [ElemClean] at h3
    | some w =>
      simp only [ElemOk] at h1
      simp only [TsElemOk] at h2
      simp only [ElemClean] at h3
      simp only [TsElemClean] at h4
      obtain ⟨b, e1, _, e2⟩ := C18_wire_enum_partial nvs.erase w h1.1 h2.1 h1.2 h3 h4
      refine ⟨_, .enum hn, frame id' b _ (fun q ts => ?_) (fun hl => ?_)⟩
      · simp [Rust.Protocol.pack, e1]
      · simp only [Network.Codec.getMsg, enum_found ok hn, (e2 hl).2]
        rfl

/-- What is sent is decoded by TypeScript code to the object, and to nothing else. -/
theorem named_decodes {cd : Network.Codec} (ok : NamedOk cd) {m : Rust.Msg} (hm : Portable cd m) :
    ∃ x, Stands cd m x ∧ ∀ q ts y, System.Decodes cd.decoder (cd.codec.pack m q ts) y ↔
      y = ⟨Flow.splitDot (cd.codec.name (msgId m)), x⟩ := by
  obtain ⟨x, hx, h⟩ := named_frame ok hm
  refine ⟨x, hx, fun q ts y => ?_⟩
  obtain ⟨f, h1, h2, h3, h4⟩ := h q ts
  constructor
  · intro h
    rw [h2] at h
    obtain ⟨z, k1, k2⟩ := decodes_frame h1 h
    rw [h4] at k1
    cases k1
    exact k2.symm
  · rintro rfl
    exact ⟨f, _, h1, h2, h4, rfl⟩

/-! ### Service messages -/

theorem split_two {a b : List Char} (ha : '.' ∉ a) (hb : '.' ∉ b) : Flow.splitDot (a ++ '.' :: b) = [a, b] := by
  rw [TsServer.splitDot_append _ _ ha, TsServer.splitDot_nodot _ hb]

theorem group_nodot : '.' ∉ "InternalServiceGroup".toList := by decide +kernel

theorem serviceRef_split {name : String} (h : '.' ∉ name.toList) :
    Flow.splitDot (serviceRef name) = ["InternalServiceGroup".toList, name.toList] :=
  split_two group_nodot h

theorem portable_hash {cd : Network.Codec} (ok : NamedOk cd) : Portable cd (cd.codec.call .hash) := by
  refine ⟨⟨ok.rust.hashRequest, ?_, ?_, ?_, ?_⟩, ok.rust.smallCall _ (by intros; simp)⟩
  · simp [System.hashFields, FieldsOk, ElemOk, Fields.ids, ok.rust.fields]
  · simp [System.hashFields, TsFieldsOk, TsElemOk, Fields.ids, ok.rust.fields, ok.ids]
  · simp [System.hashFields, FieldsClean, ElemClean]
  · simp [System.hashFields, TsFieldsClean, TsElemClean, ok.hashes]

theorem portable_text {cd : Network.Codec} {id : UInt32} {f : UInt16} (hd : (id, System.maybeText f) ∈ cd.codec.protocol.structs)
    (hf : f.toNat < 256) {x : Option (List Char)} (hx : ∀ y, x = some y → y ≠ [] ∧ NoBom y)
    (hs : ∀ b, cd.codec.protocol.pack (.struct id (System.maybeText f) (x, ())) 0 0 = .ok b → b.length < 2 ^ 64) :
    Portable cd (.struct id (System.maybeText f) (x, ())) := by
  refine ⟨⟨hd, ?_, ?_, ?_, ?_⟩, hs⟩
  · simp [System.maybeText, FieldsOk, ElemOk, Fields.ids]
  · simp [System.maybeText, TsFieldsOk, TsElemOk, Fields.ids, hf]
  · simp only [System.maybeText, FieldsClean]
    exact ⟨fun y hy => ⟨by simp [ElemClean], by simp [NoContent, (hx y hy).1]⟩, trivial⟩
  · simp only [System.maybeText, TsFieldsClean]
    exact ⟨fun y hy => ⟨by simp [TsElemClean, (hx y hy).2], by simp [TsNoContent, (hx y hy).1]⟩, trivial⟩

/-- What the Rust server sends on its own. -/
theorem portable_answer {cd : Network.Codec} (ok : NamedOk cd) {o : Server.Out Rust.Msg} (h : ∀ ref body, o = .msg ref body → Portable cd body) :
    Portable cd (cd.codec.answer o) := by
  cases o with
  | confirmation =>
    exact ⟨⟨ok.rust.confirmation, by simp [FieldsOk], by simp [TsFieldsOk], by simp [FieldsClean], by simp [TsFieldsClean]⟩,
      ok.rust.smallAnswer _ (by intros; simp)⟩
  | selfKey v =>
    refine ⟨⟨ok.rust.selfKeyResponse, ?_, ?_, ?_, ?_⟩, ok.rust.smallAnswer _ (by intros; simp)⟩
    · simp [System.oneText, FieldsOk, ElemOk, Fields.ids]
    · simp [System.oneText, TsFieldsOk, TsElemOk, Fields.ids, ok.ids]
    · simp [System.oneText, FieldsClean, ElemClean]
    · simp [System.oneText, TsFieldsClean, TsElemClean, ok.uuids]
  | hash e =>
    refine portable_text ok.rust.hashResponse (ok.ids _ (by simp)) (fun y hy => ?_) (ok.rust.smallAnswer (.hash e) (by intros; simp))
    cases e with
    | false => cases hy
    | true => cases hy; exact ⟨by decide, by unfold NoBom; decide⟩
  | beacon =>
    exact portable_text ok.rust.beaconConfirmation (ok.ids _ (by simp)) (fun y hy => by cases hy)
      (ok.rust.smallAnswer .beacon (by intros; simp))
  | msg ref body => exact h ref body rfl

/-- The object of a struct. -/
theorem stands_struct {cd : Network.Codec} (ok : NamedOk cd) {id : UInt32} {fs : Ts.NFields} (h : (id, fs) ∈ cd.structs)
    {v : fs.erase.Val} {x : TsServer.Js} (hx : Stands cd (.struct id fs.erase v) x) : x = .obj (showFields fs v) := by
  generalize hm : Rust.Msg.struct id fs.erase v = m at hx
  cases hx with
  | struct h' =>
    injection hm with e1 e2 e3
    subst e1
    have := (struct_found ok h).2.symm.trans (struct_found ok h').2
    injection this with this
    subst this
    rw [eq_of_heq e3]
  | enum => cases hm

theorem show_text (n : List Char) (f : UInt16) (s : List Char) :
    showFields (.cons n f .str false false .nil) (s, ()) = [(n, .str s)] := rfl

theorem show_texts (n n' : List Char) (f f' : UInt16) (s s' : List Char) :
    showFields (.cons n f .str false false (.cons n' f' .str false false .nil)) (s, s', ()) = [(n, .str s), (n', .str s')] := rfl

theorem show_some (n : List Char) (f : UInt16) (s : List Char) :
    showFields (.cons n f .str false true .nil) (some s, ()) = [(n, .str s)] := rfl

theorem show_none (n : List Char) (f : UInt16) : showFields (.cons n f .str false true .nil) (none, ()) = [] := rfl

theorem is_service {r : Flow.Ref} {name : String} (hr : r = serviceRef name) (h : '.' ∉ name.toList) (b : TsServer.Js) :
    IsService ⟨Flow.splitDot r, b⟩ name := by
  rw [hr, serviceRef_split h]; rfl

theorem hash_error {o : Option (List Char)} {e : Bool} (h : (e = true ∧ ∃ s, o = some s) ∨ (e = false ∧ o = none)) (n : List Char) (f : UInt16) :
    (e = true ↔ ∃ s, (showFields (.cons n f .str false true .nil) (o, ())).lookup n = some (.str s)) ∧
    (e = false ↔ (showFields (.cons n f .str false true .nil) (o, ())).lookup n = none) := by
  rcases h with ⟨rfl, s, rfl⟩ | ⟨rfl, rfl⟩
  · rw [show_some, List.lookup_cons_self]; simp
  · rw [show_none]; simp

/-! ### A codec for witnesses: the workflow `townFlow`, where `Q` has a number, an array of texts and an
optional enum, and `R` has a number -/

def dockQFields : Ts.NFields :=
  .cons ['n'] 14 (.num .u8) false false (.cons ['t'] 17 .str true false
    (.cons ['k'] 18 (.enum (.cons ['a'] (.num .u8) false (.cons ['b'] .str false .nil))) false true .nil))

def dockRFields : Ts.NFields := .cons ['n'] 16 (.num .u8) false false .nil

def dockStructs : List (UInt32 × Ts.NFields) :=
  [(1, .nil), (2, .cons "uuid".toList 3 .str false false .nil),
   (4, .cons "protocol".toList 5 .str false false (.cons "workflow".toList 6 .str false false .nil)),
   (7, .cons "error".toList 8 .str false true .nil), (9, .cons "error".toList 10 .str false true .nil),
   (11, .cons ['x'] 12 .str false true .nil), (13, dockQFields), (15, dockRFields)]

def dock : Network.Codec where
  codec := {
    protocol := ⟨7, [], dockStructs.map (fun p => (p.1, p.2.erase))⟩
    names := [(1, serviceRef "ConnectConfirmationBeacon"), (2, serviceRef "SelfKeyResponse"), (4, serviceRef "HashRequest"),
      (7, serviceRef "HashResponse"), (9, serviceRef "BeaconConfirmation"), (11, ['K']), (13, ['Q']), (15, ['R'])]
    confirmation := 1
    selfKeyResponse := (2, 3)
    hashRequest := (4, 5, 6)
    hashResponse := (7, 8)
    beaconConfirmation := (9, 10)
    key := .struct 11 (System.maybeText 12) (none, ())
    hashes := (['p'], ['w'])
    uuid u := if u = 1 then ['1'] else ['2'] }
  enums := []
  structs := dockStructs

def dockQVal : dockQFields.erase.Val := ((41 : Fin 256), [['x'], []], some (some (.inr (.inl ['z']))), ())

/-- The message of the client. -/
def dockQ : Rust.Msg := .struct 13 dockQFields.erase dockQVal

/-- The same in JavaScript. -/
def dockQJs : TsServer.Js :=
  .obj [(['n'], .num 41), (['t'], .obj [(['0'], .str ['x']), (['1'], .str [])]), (['k'], .obj [(['b'], .str ['z'])])]

/-- The answer. -/
def dockR : Rust.Msg := cityMsg 15 16 42

/-- The same in JavaScript. -/
def dockRJs : TsServer.Js := .obj [(['n'], .num 42)]

theorem dock_ok : NamedOk dock where
  rust := {
    distinct := by unfold IdsDistinct; decide
    confirmation := by simp [dock, dockStructs]
    selfKeyResponse := by simp [dock, dockStructs, System.oneText]
    hashRequest := by simp [dock, dockStructs, System.hashFields]
    hashResponse := by simp [dock, dockStructs, System.maybeText]
    beaconConfirmation := by simp [dock, dockStructs, System.maybeText]
    services := by decide
    fields := by decide
    key := ⟨⟨by simp [dock, dockStructs, System.maybeText], by simp [System.maybeText, FieldsOk, ElemOk, Fields.ids],
      by simp [System.maybeText, FieldsClean]⟩, by decide⟩
    smallCall := fun o ho b hb => by
      cases o with
      | selfKey => cases hb; decide
      | hash => cases hb; decide
      | msg id ref body => exact absurd rfl (ho id ref body)
    smallAnswer := fun o ho b hb => by
      cases o with
      | confirmation => cases hb; decide
      | selfKey u =>
        by_cases hu : u = 1
        · rw [show dock.codec.answer (.selfKey u) = .struct 2 (System.oneText 3) (['1'], ()) by
            simp [System.Codec.answer, dock, hu]] at hb
          cases hb; decide
        · rw [show dock.codec.answer (.selfKey u) = .struct 2 (System.oneText 3) (['2'], ()) by
            simp [System.Codec.answer, dock, hu]] at hb
          cases hb; decide
      | hash e => cases e <;> (cases hb; decide)
      | beacon => cases hb; decide
      | msg ref body => exact absurd rfl (ho ref body) }
  enums := rfl
  structs := rfl
  enumNames p hp := by cases hp
  structNames p hp := by
    simp only [dock, dockStructs, List.mem_cons, List.not_mem_nil, or_false] at hp
    rcases hp with rfl | rfl | rfl | rfl | rfl | rfl | rfl | rfl
    · simp [NamesFields]
    · simp [NamesFields, NamesOne, Ts.NFields.names]
    · simp only [NamesFields, NamesOne, Ts.NFields.names, List.mem_singleton, List.not_mem_nil, not_false_eq_true, true_and, and_true]
      decide +kernel
    · simp [NamesFields, NamesOne, Ts.NFields.names]
    · simp [NamesFields, NamesOne, Ts.NFields.names]
    · simp [NamesFields, NamesOne, Ts.NFields.names]
    · simp [dockQFields, NamesFields, NamesOne, NamesEnum, Ts.NFields.names, Ts.NVariants.names]
    · simp [dockRFields, NamesFields, NamesOne, Ts.NFields.names]
  named id hid := by
    rcases hid with h | h
    · cases h
    · simp only [dock, dockStructs, List.map_cons, List.map_nil, List.mem_cons, List.not_mem_nil, or_false] at h
      rcases h with rfl | rfl | rfl | rfl | rfl | rfl | rfl | rfl <;> exact ⟨_, rfl⟩
  refs := by decide +kernel
  confirmation := ⟨rfl, by simp [dock, dockStructs]⟩
  selfKeyResponse := ⟨rfl, by simp [dock, dockStructs]⟩
  hashRequest := ⟨rfl, by simp [dock, dockStructs]⟩
  hashResponse := ⟨rfl, by simp [dock, dockStructs]⟩
  beaconConfirmation := ⟨rfl, by simp [dock, dockStructs]⟩
  ids := by decide
  key := ⟨by simp [dock, dockStructs, System.maybeText], by simp [System.maybeText, FieldsOk, ElemOk, Fields.ids],
    by simp [System.maybeText, TsFieldsOk, TsElemOk, Fields.ids],
    by simp [System.maybeText, FieldsClean], by simp [System.maybeText, TsFieldsClean]⟩
  hashes := by constructor <;> (unfold NoBom; decide)
  uuids u := by
    by_cases hu : u = 1
    · simp [dock, hu, NoBom]
    · simp [dock, hu, NoBom]
  smallHash e b hb := by cases e <;> (cases hb; decide)

theorem dockQ_portable : Portable dock dockQ := by
  refine ⟨⟨?_, ?_, ?_, ?_, ?_⟩, fun b hb => ?_⟩
  · simp [dock, dockStructs]
  · simp [dockQFields, FieldsOk, ElemOk, VariantsOk, Fields.ids, Variants.count]
  · simp [dockQFields, TsFieldsOk, TsElemOk, TsVariantsOk, Fields.ids, Variants.count]
  · refine ⟨trivial, fun s hs => ?_, fun y hy => ?_, trivial⟩
    · have : s ∈ [['x'], []] := hs
      simp only [List.mem_cons, List.not_mem_nil, or_false] at this
      rcases this with rfl | rfl <;> decide
    · cases hy
      exact ⟨⟨trivial, fun h => by cases (h : ['z'] = [])⟩, fun h => h⟩
  · refine ⟨trivial, fun s hs => ?_, fun y hy => ?_, trivial⟩
    · have : s ∈ [['x'], []] := hs
      simp only [List.mem_cons, List.not_mem_nil, or_false] at this
      rcases this with rfl | rfl <;> exact ⟨by unfold NoBom; decide, by decide⟩
    · cases hy
      exact ⟨(by unfold NoBom; decide : NoBom ['z']), fun h => by cases h⟩
  · cases hb; decide

theorem dockR_portable : Portable dock dockR := by
  refine ⟨⟨?_, ?_, ?_, ?_, ?_⟩, fun b hb => ?_⟩
  · simp [dock, dockStructs, dockRFields]
  · simp [FieldsOk, ElemOk, Fields.ids]
  · simp [TsFieldsOk, TsElemOk, Fields.ids]
  · simp [FieldsClean, ElemClean]
  · simp [TsFieldsClean, TsElemClean]
  · cases hb; decide

theorem dockQ_stands : Stands dock dockQ dockQJs :=
  .struct (cd := dock) (id := 13) (fs := dockQFields) (v := dockQVal) (by simp [dock, dockStructs])

theorem dockR_stands : Stands dock dockR dockRJs :=
  .struct (cd := dock) (id := 15) (fs := dockRFields) (v := ((42 : Fin 256), ())) (by simp [dock, dockStructs])

mutual
/-- Equality of values. -/
def jsSame : TsServer.Js → TsServer.Js → Bool
  | .str s, .str t => s == t
  | .num a, .num b => a == b
  | .bool a, .bool b => a == b
  | .other, .other => true
  | .obj ps, .obj qs => propsSame ps qs
  | _, _ => false
def propsSame : List (List Char × TsServer.Js) → List (List Char × TsServer.Js) → Bool
  | [], [] => true
  | (n, x) :: ps, (m, y) :: qs => n == m && jsSame x y && propsSame ps qs
  | _, _ => false
end

mutual
theorem jsSame_eq : ∀ (x y : TsServer.Js), jsSame x y = true → x = y
  | .str s, .str t, h => by simp only [jsSame, beq_iff_eq] at h; rw [h]
  | .num a, .num b, h => by simp only [jsSame, beq_iff_eq] at h; rw [h]
  | .bool a, .bool b, h => by simp only [jsSame, beq_iff_eq] at h; rw [h]
  | .other, .other, _ => rfl
  | .obj ps, .obj qs, h => by simp only [jsSame] at h; rw [propsSame_eq ps qs h]
  | .str _, .num _, h | .str _, .bool _, h | .str _, .other, h | .str _, .obj _, h => by simp [jsSame] at h
  | .num _, .str _, h | .num _, .bool _, h | .num _, .other, h | .num _, .obj _, h => by simp [jsSame] at h
  | .bool _, .num _, h | .bool _, .str _, h | .bool _, .other, h | .bool _, .obj _, h => by simp [jsSame] at h
  | .other, .num _, h | .other, .str _, h | .other, .bool _, h | .other, .obj _, h => by simp [jsSame] at h
  | .obj _, .num _, h | .obj _, .str _, h | .obj _, .bool _, h | .obj _, .other, h => by simp [jsSame] at h
theorem propsSame_eq : ∀ (ps qs : List (List Char × TsServer.Js)), propsSame ps qs = true → ps = qs
  | [], [], _ => rfl
  | (n, x) :: ps, (m, y) :: qs, h => by
    simp only [propsSame, Bool.and_eq_true, beq_iff_eq] at h
    rw [h.1.1, jsSame_eq x y h.1.2, propsSame_eq ps qs h.2]
  | [], _ :: _, h => by simp [propsSame] at h
  | _ :: _, [], h => by simp [propsSame] at h
end

/-- Only `Q` is sent. -/
def dockUp : TsClient.Act → Bool
  | .sent _ _ (.msg ref b) => ref == ['Q'] && jsSame b dockQJs
  | _ => true

theorem dockUp_all {h : List TsClient.Act} (hh : h.all dockUp = true) {w : TsClient.Waiter} {q : Nat} {ref : Flow.Ref} {b : TsServer.Js}
    (hm : .sent w q (.msg ref b) ∈ h) : ref = ['Q'] ∧ b = dockQJs := by
  have := List.all_eq_true.1 hh _ hm
  simp only [dockUp, Bool.and_eq_true, beq_iff_eq] at this
  exact ⟨this.1, jsSame_eq _ _ this.2⟩

def dockCfg : TsClient.Cfg := ⟨quayDown, townFlow, fun _ => true⟩

abbrev DockClient : ClientProg := dock.tsClient dockCfg pierEnv

/-- The answer is 42. -/
def dockEnv : Server.Env Rust.Msg := { cityEnv with reply := fun _ _ _ _ => some (.response dockR) }

abbrev DockServer : ServerProg := dock.rustServer city.server dockEnv .new

/-! ### C176 -/

section
variable {cd : Network.Codec} {cfg : Server.Cfg Rust.Msg} {env : Server.Env Rust.Msg} {opts : Server.Options}
  {ccfg : TsClient.Cfg} {cenv : TsClient.Env}

/-- The client passes this object as `ref`; it is the message `m`, which can be sent, and is no
`HashRequest`. -/
def Passes (cd : Network.Codec) (ref : Flow.Ref) (body : TsServer.Js) (m : Rust.Msg) : Prop :=
  Looks cd m body ∧ Portable cd m ∧ cd.codec.name (msgId m) = ref ∧ msgId m ≠ cd.codec.hashRequest.1

/-- What user code has sent so far has the type it is sent as (the compilers see to it) and values for which
transport is exact. -/
structure TsRustTyped (cd : Network.Codec) {cfg : Server.Cfg Rust.Msg} {env : Server.Env Rust.Msg} {opts : Server.Options}
    {ccfg : TsClient.Cfg} {cenv : TsClient.Env} (n : Net (cd.rustServer cfg env opts) (cd.tsClient ccfg cenv)) : Prop where
  call : ∀ u c, n.find u = some c → ∀ who q ref body, .sent who q (.msg ref body) ∈ c.client.2.past →
    ∃ m, Passes cd ref body m
  answer : ∀ u q ref m, .send u q (.msg ref m) true ∈ n.server.2.past → Portable cd m ∧ cd.codec.name (msgId m) = ref

/-- What both sides agree on. -/
def named (cd : Network.Codec) : Terms Rust.Msg := ⟨Looks cd, cd.codec.uuid, cd.codec.hashes⟩

/-- What a client sends is a message that can be sent. -/
theorem named_call (ok : NamedOk cd) {o : TsClient.Out} (h : ∀ ref body, o = .msg ref body → ∃ m, Passes cd ref body m) :
    ∃ m, cd.call o = some m ∧ Portable cd m ∧ SameUp (named cd) { cfg with selfKey := cd.codec.name (msgId cd.codec.key) } o (cd.codec.seenByServer m) := by
  cases o with
  | selfKey =>
    refine ⟨_, rfl, ⟨ok.key, ok.rust.smallCall .selfKey (by intros; simp)⟩, cd.codec.key, ?_⟩
    exact seen_out ok.rust (o := .selfKey) (by intros; contradiction)
  | hash =>
    refine ⟨_, rfl, portable_hash ok, ?_⟩
    exact seen_out ok.rust (o := .hash) (by intros; contradiction)
  | msg ref body =>
    obtain ⟨m, h1, h2, rfl, h4⟩ := h ref body rfl
    refine ⟨m, read_looks ok h1, h2, m, ?_, h1⟩
    rw [System.Codec.seenByServer, if_neg h4]

/-- What the server sends is what the client makes of it. -/
theorem named_answer (ok : NamedOk cd) {o : Server.Out Rust.Msg} (h : ∀ ref m, o = .msg ref m → Portable cd m ∧ cd.codec.name (msgId m) = ref)
    {x : TsServer.Js} (hx : Stands cd (cd.codec.answer o) x) :
    SameDown (named cd) o ⟨Flow.splitDot (cd.codec.name (msgId (cd.codec.answer o))), x⟩ := by
  cases o with
  | confirmation =>
    have := stands_struct ok ok.confirmation.2 (v := ()) hx
    subst this
    exact ⟨is_service ok.confirmation.1 (by decide +kernel) _, _, rfl⟩
  | selfKey v =>
    have := stands_struct ok ok.selfKeyResponse.2 (v := (cd.codec.uuid v, ())) hx
    subst this
    refine ⟨is_service ok.selfKeyResponse.1 (by decide +kernel) _, _, rfl, ?_⟩
    rw [show_text, List.lookup_cons_self]; rfl
  | hash e =>
    have := stands_struct ok ok.hashResponse.2 (v := (if e then some System.wrongHashText else none, ())) hx
    subst this
    refine ⟨is_service ok.hashResponse.1 (by decide +kernel) _, _, rfl, hash_error ?_ _ _⟩
    cases e with
    | true => exact .inl ⟨rfl, _, rfl⟩
    | false => exact .inr ⟨rfl, rfl⟩
  | beacon =>
    have := stands_struct ok ok.beaconConfirmation.2 (v := (none, ())) hx
    subst this
    exact ⟨is_service ok.beaconConfirmation.1 (by decide +kernel) _, _, rfl, by rw [show_none]; rfl⟩
  | msg ref m =>
    obtain ⟨_, rfl⟩ := h ref m rfl
    exact ⟨TsServer.spells_splitDot _, stands_looks ok hx⟩

/-- **C176** With the generated codecs of both languages, all hypotheses about codecs hold: what a TypeScript
client and a Rust server send to each other is packed into frames and decoded to exactly what it is. -/
theorem C176_codecs_faithful (cd : Network.Codec) (ok : NamedOk cd) {cfg : Server.Cfg Rust.Msg} {env : Server.Env Rust.Msg}
    {opts : Server.Options} {ccfg : TsClient.Cfg} {cenv : TsClient.Env} (n : Net (cd.rustServer cfg env opts) (cd.tsClient ccfg cenv))
    (ht : TsRustTyped cd n) : Network.Framed n ∧ Network.Faithful (named cd) n ∧ Network.Readable n := by
  have up : ∀ u c, n.find u = some c → ∀ w q o, .sent w q o ∈ c.client.2.past →
      ∃ m, cd.call o = some m ∧ Portable cd m ∧
        SameUp (named cd) { cfg with selfKey := cd.codec.name (msgId cd.codec.key) } o (cd.codec.seenByServer m) :=
    fun u c hc w q o h => named_call ok (fun ref body e => ht.call u c hc w q ref body (e ▸ h))
  have down : ∀ u q o, .send u q o true ∈ n.server.2.past → Portable cd (cd.codec.answer o) :=
    fun u q o h => portable_answer ok (fun ref m e => (ht.answer u q ref m (e ▸ h)).1)
  refine ⟨⟨fun u q o h ts => ?_, fun u c hc q o h ts => ?_⟩, ⟨fun u c hc w q o h ts m hm => ?_, fun u q o h ts m hm => ?_⟩,
    ⟨fun u c hc w q o h ts => ?_, fun u q o h ts => ?_⟩⟩
  · obtain ⟨f, h1, h2, h3, _⟩ := codec_frame ok.rust.distinct (down u q o (mem_rustSent.1 h)).canSend q ts
    exact ⟨f, h1, h3, h2⟩
  · obtain ⟨w, k, h', rfl⟩ := mem_tsSent.1 h
    obtain ⟨m, e, hp, _⟩ := up u c hc w k o h'
    obtain ⟨f, h1, h2, h3, _⟩ := codec_frame ok.rust.distinct hp.canSend k.toUInt32 ts
    refine ⟨f, h1, h3, ?_⟩
    dsimp only
    rw [e, pack_portable hp]
    exact h2
  · obtain ⟨m', e, hp, hsame⟩ := up u c hc w q o h
    dsimp only at hm
    rw [e, pack_portable hp, codec_decodes ok.rust.distinct hp.canSend] at hm
    subst hm
    exact hsame
  · obtain ⟨x, hx, hd⟩ := named_decodes ok (down u q o h)
    have := (hd q ts m).1 hm
    subst this
    exact named_answer ok (fun ref m e => ht.answer u q ref m (e ▸ h)) hx
  · obtain ⟨m', e, hp, _⟩ := up u c hc w q o h
    refine ⟨cd.codec.seenByServer m', ?_⟩
    dsimp only
    rw [e, pack_portable hp, codec_decodes ok.rust.distinct hp.canSend]
  · obtain ⟨x, _, hd⟩ := named_decodes ok (down u q o h)
    exact ⟨_, (hd q ts _).2 rfl⟩

/-- What the server looks at has the name it is looked at as. -/
theorem got_named (ok : NamedOk cd) (es : List (UInt64 × Event (cd.rustServer cfg env opts) (cd.tsClient ccfg cenv)))
    (ht : TsRustTyped cd (run es .new)) {u : Network.Uuid} {c : Conn (cd.tsClient ccfg cenv)}
    (hc : (run es .new).find u = some c) {ref : Flow.Ref} {p : Rust.Msg} {q : UInt32}
    (h : .got u (.msg ref p) q ∈ (run es .new).server.2.past) : cd.codec.name (msgId p) = ref := by
  obtain ⟨hf, _, _⟩ := C176_codecs_faithful cd ok _ ht
  obtain ⟨es', hi⟩ := inv_run growing_tsRust es
  obtain ⟨⟨q', o⟩, h1, _, ts, h2⟩ := (tsRust_up hi hf hc).mem (System.mem_heard.2 h)
  obtain ⟨w, k, h1', rfl⟩ := mem_tsSent.1 h1
  obtain ⟨m, e, hp, _⟩ := named_call (cfg := cfg) (o := o) ok (fun ref body e => ht.call u c hc w k ref body (e ▸ h1'))
  dsimp only at h2
  rw [e, pack_portable hp, codec_decodes ok.rust.distinct hp.canSend, System.Codec.seenByServer] at h2
  split at h2
  · cases h2
  · injection h2 with e1 e2
    rw [e1, e2]

/-- **C176** An object is the same as at most one message with this name. -/
theorem C176_one_message (cd : Network.Codec) (ok : NamedOk cd) {m m' : Rust.Msg} {b : TsServer.Js} (h : Looks cd m b) (h' : Looks cd m' b)
    (hn : cd.codec.name (msgId m) = cd.codec.name (msgId m')) : m = m' := by
  have h1 := read_looks ok h
  rw [hn, read_looks ok h'] at h1
  exact (Option.some.inj h1).symm

/-- **C176** In every run with the generated codecs: if a request of a TypeScript client is resolved, then
user code of the Rust server was called with the same value that user code of the client passed, and the
client returns the same value that user code of the server decided on. -/
theorem C176_request_end_to_end (cd : Network.Codec) (ok : NamedOk cd)
    (es : List (UInt64 × Event (cd.rustServer cfg env opts) (cd.tsClient ccfg cenv)))
    (ht : TsRustTyped cd (run es .new)) (hs : Network.Small (run es .new)) {u : Network.Uuid} {c : Conn (cd.tsClient ccfg cenv)}
    (hc : (run es .new).find u = some c) {k o : Nat} {r : Flow.Request} {b v : TsServer.Js} {ref : Flow.Ref}
    (h1 : .created o (.request r) b ∈ c.client.2.past) (h2 : .called k o ∈ c.client.2.past)
    (h3 : .ended k (.resolved ref v) ∈ c.client.2.past) (hd : Distinct cfg.workflow r) :
    ∃ p x served s l, AnswerOf r ref ∧ Looks cd p b ∧ cd.codec.name (msgId p) = r.request.getD [] ∧
      Looks cd x v ∧ cd.codec.name (msgId x) = ref ∧
      served ∈ cfg.workflow.requests ∧ served.request = some (r.request.getD []) ∧
      Server.Decides env served s u p (.msg ref x) l := by
  obtain ⟨hf, hfa, _⟩ := C176_codecs_faithful cd ok _ ht
  obtain ⟨g0, q, asked, p, x, newer, older, served, s, l, rfl, g1, g2, g3, g4, g5, g6, g7, g8⟩ :=
    C157_result_from_server (named cd) es hf hs hfa hc h1 h2 h3 hd
  exact ⟨p, x, served, s, l, g0, g3, got_named ok es ht hc (q := q) (by rw [g2]; simp), g4,
    (ht.answer u q ref x (by rw [g2]; simp)).2, g5, g6, g8⟩

/-- Client 1 connects, does the handshake, and sends `Q`; the server answers with `R`. -/
def dockRun : List (UInt64 × Event DockServer DockClient) :=
  [(1, .opened 1), (2, .server .confirm), (3, .client 1 .connected), (4, .toServer 1 500), (4, .toClient 1 500),
   (5, .client 1 (.work 0)), (5, .client 1 (.work 0)), (6, .toServer 1 500), (6, .toClient 1 500), (7, .client 1 (.work 0)),
   (8, .client 1 (.user (.create (.request townRequest) dockQJs))), (8, .client 1 (.user (.send 1))),
   (8, .toServer 1 30), (8, .toServer 1 500), (8, .toClient 1 500), (8, .client 1 (.work 0))]

theorem dock_typed {n : Net DockServer DockClient} (h1 : n.server.2.past.all cityDown = true)
    (h2 : n.conns.all (fun p => p.2.client.2.past.all dockUp) = true) : TsRustTyped dock n := by
  refine ⟨fun u c hc who q ref body h => ?_, fun u q ref m h => ?_⟩
  · obtain ⟨rfl, rfl⟩ := dockUp_all (List.all_eq_true.1 h2 (u, c) (conn_mem hc)) h
    exact ⟨dockQ, stands_looks dock_ok dockQ_stands, dockQ_portable, rfl, by decide⟩
  · have := List.all_eq_true.1 h1 _ h
    simp only [cityDown, Bool.and_eq_true, beq_iff_eq] at this
    obtain ⟨rfl, k⟩ := this
    obtain ⟨y, rfl, ky⟩ := cityNumber_eq k
    cases (show y = 42 from Fin.ext ky)
    exact ⟨dockR_portable, rfl⟩

theorem dock_small {S : ServerProg} {C : ClientProg} {n : Net S C}
    (h : n.conns.all (fun p => decide (p.2.gotUp.length < 2 ^ 64) && decide (p.2.gotDown.length < 2 ^ 64)) = true) : Network.Small n := by
  intro u c hc
  have := List.all_eq_true.1 h _ (conn_mem hc)
  simpa using this

theorem dock_sees {S : ServerProg} {C : ClientProg} {n : Net S C} (f : Conn C → Bool) (h : (n.find 1).any f = true) :
    ∃ c, n.find 1 = some c ∧ f c = true := by
  cases e : n.find 1 with
  | none => rw [e] at h; cases h
  | some c => exact ⟨c, rfl, by rwa [e] at h⟩

/-- The request is resolved, and the hypotheses hold. -/
example : NamedOk dock ∧ TsRustTyped dock (run dockRun .new) ∧ Network.Small (run dockRun .new) ∧
    Distinct city.server.workflow townRequest ∧ ∃ c, (run dockRun .new).find 1 = some c ∧
      (c.client.2.past.any (fun | .created 1 (.request _) b => jsSame b dockQJs | _ => false) &&
       c.client.2.past.any (fun | .called 2 1 => true | _ => false) &&
       c.client.2.past.any (fun | .ended 2 (.resolved ref v) => ref == ['R'] && jsSame v dockRJs | _ => false)) = true :=
  ⟨dock_ok, dock_typed (by decide +kernel) (by decide +kernel), dock_small (by decide +kernel), town_distinct, dock_sees _ (by decide +kernel)⟩

/-- **C176** In every run with the generated codecs: what the server looks at for a connection are the first
messages its TypeScript client sent, the same, with their numbers; and what the client looks at are the
first messages the server sent to it, the same, with their numbers. -/
theorem C176_values_unchanged (cd : Network.Codec) (ok : NamedOk cd)
    (es : List (UInt64 × Event (cd.rustServer cfg env opts) (cd.tsClient ccfg cenv)))
    (ht : TsRustTyped cd (run es .new)) (hs : Network.Small (run es .new)) {u : Network.Uuid} {c : Conn (cd.tsClient ccfg cenv)}
    (hc : (run es .new).find u = some c) :
    (∃ k, System.Pairs (fun x y => x.1 = y.1.toNat ∧
        SameUp (named cd) { cfg with selfKey := cd.codec.name (msgId cd.codec.key) } x.2 y.2)
      ((tsSents c.client.2.past).take k) (System.heard u (run es .new).server.2.past)) ∧
    ∃ k, System.Pairs (fun x y => x.1 = y.1 ∧ SameDown (named cd) x.2 y.2)
      ((System.sends u (run es .new).server.2.past).take k) (TsClient.looked c.client.2.past) := by
  obtain ⟨hf, hfa, hr⟩ := C176_codecs_faithful cd ok _ ht
  exact ⟨⟨_, (C158_calls_in_order (named cd) es hf hfa hc).2 hr⟩, _, (C158_answers_in_order (named cd) es hf hs hfa hc).2 hr⟩

end

/-! ### C177 -/

/-- A message of a declared type, with a value for which transport between TypeScript programs is exact
(C56), of less than 2^64 bytes. -/
def TsPortable (cd : Network.Codec) (m : Rust.Msg) : Prop :=
  (match m with
    | .enum id vs v => (id, vs) ∈ cd.codec.protocol.enums ∧ TsVariantsOk vs ∧ vs.count ≤ 65536 ∧ ∃ w, v = some w ∧ TsVariantsClean vs w
    | .struct id fs v => (id, fs) ∈ cd.codec.protocol.structs ∧ TsFieldsOk fs ∧ TsFieldsClean fs v) ∧
  ∀ b, Ts.pack cd.codec.protocol m 0 0 = .ok b → b.length < 2 ^ 64

theorem Portable.ts {cd : Network.Codec} {m : Rust.Msg} (h : Portable cd m) : TsPortable cd m := by
  obtain ⟨h1, h2⟩ := h
  refine ⟨?_, by rw [pack_same _ _ h1]; exact h2⟩
  cases m with
  | struct id fs v => exact ⟨h1.1, h1.2.2.1, h1.2.2.2.2⟩
  | enum id vs v =>
    obtain ⟨k1, k2, k3, k4, k5⟩ := h1
    simp only [TsElemOk] at k3
    cases v with
    | none => simp [ElemClean] at k4
    | some w =>
      simp only [TsElemClean] at k5
      exact ⟨k1, k3.1, k3.2, w, rfl, k5⟩

/-- A message packed by TypeScript code is a frame that TypeScript code decodes to the object. -/
theorem ts_frame {cd : Network.Codec} (ok : NamedOk cd) {m : Rust.Msg} (hm : TsPortable cd m) :
    ∃ x, Stands cd m x ∧ ∀ q ts, ∃ f : Frame, f.Ok ∧ cd.pack (some m) q ts = f.bytes ∧ f.hdr.sequence = q ∧
      Spec.delivered cd.decoder f = some ⟨f.hdr, ⟨Flow.splitDot (cd.codec.name (msgId m)), x⟩⟩ := by
  obtain ⟨hok, hs⟩ := hm
  have frame : ∀ (id : UInt32) (body : Bytes) (y : TsServer.Msg),
      (∀ q ts, Ts.pack cd.codec.protocol m q ts = .ok (Ts.frameBytes id cd.codec.protocol.signature q ts body)) →
      (body.length < 2 ^ 64 → cd.getMsg id body = .ok y) → ∀ q ts,
      ∃ f : Frame, f.Ok ∧ cd.pack (some m) q ts = f.bytes ∧ f.hdr.sequence = q ∧
        Spec.delivered cd.decoder f = some ⟨f.hdr, y⟩ := by
    intro id body y hb hget q ts
    have hbl : body.length + 26 < 2 ^ 64 := by
      have := hs _ (hb 0 0)
      simp [Ts.frameBytes] at this
      omega
    have hm : (UInt64.ofNat body.length).toNat = body.length := by
      simp only [UInt64.toNat_ofNat']; exact Nat.mod_eq_of_lt (by omega)
    refine ⟨⟨⟨id, cd.codec.protocol.signature, q, ts, UInt64.ofNat body.length⟩, body⟩, ⟨hm, hbl⟩, ?_, rfl, ?_⟩
    · simp only [Network.Codec.pack]
      rw [hb]
      simp [Ts.frameBytes, Frame.bytes, hm]
    · simp [Spec.delivered, Network.Codec.decoder, hget (by omega)]
  cases m with
  | struct id fs v =>
    obtain ⟨hmem, h2, h4⟩ := hok
    rw [ok.structs] at hmem
    obtain ⟨⟨id', nfs⟩, hn, e⟩ := List.mem_map.1 hmem
    cases e
    obtain ⟨b, e1, e2⟩ := C56_ts_round_trip_partial nfs.erase v h2 h4
    refine ⟨_, .struct hn, frame id' b _ (fun q ts => ?_) (fun hl => ?_)⟩
    · simp [Ts.pack, e1]
    · obtain ⟨g1, g2⟩ := struct_found ok hn
      simp only [Network.Codec.getMsg, g1, g2, e2 hl]
      rfl
  | enum id vs v =>
    obtain ⟨hmem, h2, h3, w, rfl, h4⟩ := hok
    rw [ok.enums] at hmem
    obtain ⟨⟨id', nvs⟩, hn, e⟩ := List.mem_map.1 hmem
    cases e
    obtain ⟨b, e1, e2⟩ := C56_ts_enum_round_trip_partial nvs.erase w h2 h3 h4
    refine ⟨_, .enum hn, frame id' b _ (fun q ts => ?_) (fun hl => ?_)⟩
    · simp [Ts.pack, e1]
    · simp only [Network.Codec.getMsg, enum_found ok hn, e2 hl]
      rfl

theorem ts_decodes {cd : Network.Codec} (ok : NamedOk cd) {m : Rust.Msg} (hm : TsPortable cd m) :
    ∃ x, Stands cd m x ∧ ∀ q ts y, System.Decodes cd.decoder (cd.pack (some m) q ts) y ↔
      y = ⟨Flow.splitDot (cd.codec.name (msgId m)), x⟩ := by
  obtain ⟨x, hx, h⟩ := ts_frame ok hm
  refine ⟨x, hx, fun q ts y => ?_⟩
  obtain ⟨f, h1, h2, h3, h4⟩ := h q ts
  constructor
  · intro h
    rw [h2] at h
    obtain ⟨z, k1, k2⟩ := decodes_frame h1 h
    rw [h4] at k1
    cases k1
    exact k2.symm
  · rintro rfl
    exact ⟨f, _, h1, h2, h4, rfl⟩

theorem stands_unique {cd : Network.Codec} (ok : NamedOk cd) {m : Rust.Msg} {x y : TsServer.Js} (hx : Stands cd m x) (hy : Stands cd m y) :
    x = y := by
  cases hx with
  | struct h => exact (stands_struct ok h hy).symm
  | enum h =>
    rename_i id vs v
    generalize hm : Rust.Msg.enum id vs.erase v = m at hy
    cases hy with
    | enum h' =>
      injection hm with e1 e2 e3
      subst e1
      have := (enum_found ok h).symm.trans (enum_found ok h')
      injection this with this
      subst this
      rw [eq_of_heq e3]
    | struct => cases hm

section
variable {cd : Network.Codec} {cfg : TsServer.Cfg} {env : TsServer.Env} {opts : Server.Options}
  {takes : List TsServer.Act → Network.Uuid → UInt32 → TsServer.Out → Bool} {ccfg : TsClient.Cfg} {cenv : TsClient.Env}

/-- User code passes this object as `ref`; it is an object of a message with this name that can be sent. -/
def TsPasses (cd : Network.Codec) (ref : Flow.Ref) (body : TsServer.Js) : Prop :=
  ∃ m, Stands cd m body ∧ TsPortable cd m ∧ cd.codec.name (msgId m) = ref

/-- What user code has sent so far has the type it is sent as and values for which transport is exact. -/
structure TsTsTyped (cd : Network.Codec) {cfg : TsServer.Cfg} {env : TsServer.Env} {opts : Server.Options}
    {takes : List TsServer.Act → Network.Uuid → UInt32 → TsServer.Out → Bool} {ccfg : TsClient.Cfg} {cenv : TsClient.Env}
    (n : Net (cd.tsServer cfg env opts takes) (cd.tsClient ccfg cenv)) : Prop where
  call : ∀ u c, n.find u = some c → ∀ who q ref body, .sent who q (.msg ref body) ∈ c.client.2.past → TsPasses cd ref body
  answer : ∀ f u q ref body, .send f u q (.msg ref body) ∈ n.server.2.past → TsPasses cd ref body

def tsNamed (cd : Network.Codec) : TsTerms := ⟨cd.codec.uuid, cd.codec.hashes⟩

theorem ts_named_call (ok : NamedOk cd) {o : TsClient.Out} (h : ∀ ref body, o = .msg ref body → TsPasses cd ref body) :
    ∃ m, cd.call o = some m ∧ TsPortable cd m ∧ ∀ x, Stands cd m x →
      TsSameUp (tsNamed cd) { cfg with selfKey := cd.codec.name (msgId cd.codec.key) } o ⟨Flow.splitDot (cd.codec.name (msgId m)), x⟩ := by
  cases o with
  | selfKey =>
    exact ⟨_, rfl, Portable.ts ⟨ok.key, ok.rust.smallCall .selfKey (by intros; simp)⟩, fun x _ => TsServer.spells_splitDot _⟩
  | hash =>
    refine ⟨_, rfl, (portable_hash ok).ts, fun x hx => ?_⟩
    have := stands_struct ok ok.hashRequest.2 (v := (cd.codec.hashes.1, cd.codec.hashes.2, ())) hx
    subst this
    refine ⟨is_service ok.hashRequest.1 (by decide +kernel) _, _, rfl, ?_, ?_⟩
    · rw [show_texts, List.lookup_cons_self]; rfl
    · rw [show_texts, lookup_ne (by decide +kernel), List.lookup_cons_self]; rfl
  | msg ref body =>
    obtain ⟨m, h1, h2, rfl⟩ := h ref body rfl
    exact ⟨m, read_looks ok (stands_looks ok h1), h2, fun x hx => ⟨TsServer.spells_splitDot _, stands_unique ok hx h1⟩⟩

theorem ts_named_answer (ok : NamedOk cd) {o : TsServer.Out} (h : ∀ ref body, o = .msg ref body → TsPasses cd ref body) :
    ∃ m, cd.answer o = some m ∧ TsPortable cd m ∧ ∀ x, Stands cd m x →
      TsSameDown (tsNamed cd) o ⟨Flow.splitDot (cd.codec.name (msgId m)), x⟩ := by
  cases o with
  | selfKey v =>
    refine ⟨_, rfl, (portable_answer ok (o := .selfKey v) (by intros; contradiction)).ts, fun x hx => ?_⟩
    have := stands_struct ok ok.selfKeyResponse.2 (v := (cd.codec.uuid v, ())) hx
    subst this
    refine ⟨is_service ok.selfKeyResponse.1 (by decide +kernel) _, _, rfl, ?_⟩
    rw [show_text, List.lookup_cons_self]; rfl
  | hash e =>
    refine ⟨_, rfl, (portable_text ok.rust.hashResponse (ok.ids _ (by simp)) (fun y hy => ?_) (ok.smallHash e)).ts, fun x hx => ?_⟩
    · cases e with
      | false => cases hy
      | true => cases hy; exact ⟨by decide, by unfold NoBom; decide⟩
    · have := stands_struct ok ok.hashResponse.2 (v := (if e then some invalidHashText else none, ())) hx
      subst this
      refine ⟨is_service ok.hashResponse.1 (by decide +kernel) _, _, rfl, hash_error ?_ _ _⟩
      cases e with
      | true => exact .inl ⟨rfl, _, rfl⟩
      | false => exact .inr ⟨rfl, rfl⟩
  | beacon =>
    refine ⟨_, rfl, (portable_answer ok (o := .beacon) (by intros; contradiction)).ts, fun x hx => ?_⟩
    have := stands_struct ok ok.beaconConfirmation.2 (v := (none, ())) hx
    subst this
    exact ⟨is_service ok.beaconConfirmation.1 (by decide +kernel) _, _, rfl, by rw [show_none]; rfl⟩
  | msg ref body =>
    obtain ⟨m, h1, h2, rfl⟩ := h ref body rfl
    exact ⟨m, read_looks ok (stands_looks ok h1), h2, fun x hx => ⟨TsServer.spells_splitDot _, stands_unique ok hx h1⟩⟩

/-- **C177** With the generated TypeScript codec, all hypotheses about codecs hold: what TypeScript clients
and a TypeScript server send to each other is packed into frames and decoded to exactly what it is. -/
theorem C177_codec_faithful (cd : Network.Codec) (ok : NamedOk cd) {cfg : TsServer.Cfg} {env : TsServer.Env} {opts : Server.Options}
    {takes : List TsServer.Act → Network.Uuid → UInt32 → TsServer.Out → Bool} {ccfg : TsClient.Cfg} {cenv : TsClient.Env}
    (n : Net (cd.tsServer cfg env opts takes) (cd.tsClient ccfg cenv)) (ht : TsTsTyped cd n) :
    Network.Framed n ∧ TsFaithful (tsNamed cd) n ∧ TsReadable n := by
  have up : ∀ u c, n.find u = some c → ∀ w q o, .sent w q o ∈ c.client.2.past →
      ∃ m, cd.call o = some m ∧ TsPortable cd m ∧ ∀ x, Stands cd m x →
        TsSameUp (tsNamed cd) { cfg with selfKey := cd.codec.name (msgId cd.codec.key) } o ⟨Flow.splitDot (cd.codec.name (msgId m)), x⟩ :=
    fun u c hc w q o h => ts_named_call ok (fun ref body e => ht.call u c hc w q ref body (e ▸ h))
  have down : ∀ f u q o, .send f u q o ∈ n.server.2.past → ∃ m, cd.answer o = some m ∧ TsPortable cd m ∧ ∀ x, Stands cd m x →
      TsSameDown (tsNamed cd) o ⟨Flow.splitDot (cd.codec.name (msgId m)), x⟩ :=
    fun f u q o h => ts_named_answer ok (fun ref body e => ht.answer f u q ref body (e ▸ h))
  refine ⟨⟨fun u q o h ts => ?_, fun u c hc q o h ts => ?_⟩, ⟨fun u c hc w q o h ts m hm => ?_, fun f u q o h ts m hm => ?_⟩,
    ⟨fun u c hc w q o h ts => ?_, fun f u q o h ts => ?_⟩⟩
  · obtain ⟨g, h'⟩ := mem_tsServerSent h
    obtain ⟨m, e, hp, _⟩ := down g u q o h'
    obtain ⟨x, _, hfr⟩ := ts_frame ok hp
    obtain ⟨f, h1, h2, h3, _⟩ := hfr q ts
    refine ⟨f, h1, h3, ?_⟩
    dsimp only
    rw [e]
    exact h2
  · obtain ⟨w, k, h', rfl⟩ := mem_tsSent.1 h
    obtain ⟨m, e, hp, _⟩ := up u c hc w k o h'
    obtain ⟨x, _, hfr⟩ := ts_frame ok hp
    obtain ⟨f, h1, h2, h3, _⟩ := hfr k.toUInt32 ts
    refine ⟨f, h1, h3, ?_⟩
    dsimp only
    rw [e]
    exact h2
  · obtain ⟨m', e, hp, hsame⟩ := up u c hc w q o h
    obtain ⟨x, hx, hd⟩ := ts_decodes ok hp
    dsimp only at hm
    rw [e, hd] at hm
    subst hm
    exact hsame x hx
  · obtain ⟨m', e, hp, hsame⟩ := down f u q o h
    obtain ⟨x, hx, hd⟩ := ts_decodes ok hp
    dsimp only at hm
    rw [e, hd] at hm
    subst hm
    exact hsame x hx
  · obtain ⟨m', e, hp, _⟩ := up u c hc w q o h
    obtain ⟨x, _, hd⟩ := ts_decodes ok hp
    refine ⟨⟨Flow.splitDot (cd.codec.name (msgId m')), x⟩, ?_⟩
    dsimp only
    rw [e, hd]
  · obtain ⟨m', e, hp, _⟩ := down f u q o h
    obtain ⟨x, _, hd⟩ := ts_decodes ok hp
    refine ⟨⟨Flow.splitDot (cd.codec.name (msgId m')), x⟩, ?_⟩
    dsimp only
    rw [e, hd]

abbrev DockTsServer : ServerProg := dock.tsServer wharfCfg wharfEnv .new (fun _ _ _ _ => true)

/-- Client 1 connects, does the handshake, and sends `Q`; the server answers with `R`. -/
def dockTsRun : List (UInt64 × Event DockTsServer DockClient) :=
  [(1, .opened 1), (3, .client 1 .connected), (4, .toServer 1 500), (4, .toClient 1 500),
   (5, .client 1 (.work 0)), (5, .client 1 (.work 0)), (6, .toServer 1 500), (6, .toClient 1 500), (7, .client 1 (.work 0)),
   (8, .client 1 (.user (.create (.request townRequest) dockQJs))), (8, .client 1 (.user (.send 1))),
   (8, .toServer 1 30), (8, .toServer 1 500), (9, .server (.settled 1 (.answer ['R'] dockRJs []))),
   (9, .server (.settled 1 (.sent true))), (9, .toClient 1 500), (9, .client 1 (.work 0))]

/-- Only `R` is sent. -/
def dockDown : TsServer.Act → Bool
  | .send _ _ _ (.msg ref b) => ref == ['R'] && jsSame b dockRJs
  | _ => true

theorem dock_ts_typed {n : Net DockTsServer DockClient} (h1 : n.server.2.past.all dockDown = true)
    (h2 : n.conns.all (fun p => p.2.client.2.past.all dockUp) = true) : TsTsTyped dock n := by
  refine ⟨fun u c hc who q ref body h => ?_, fun f u q ref b h => ?_⟩
  · obtain ⟨rfl, rfl⟩ := dockUp_all (List.all_eq_true.1 h2 (u, c) (conn_mem hc)) h
    exact ⟨dockQ, dockQ_stands, dockQ_portable.ts, rfl⟩
  · have := List.all_eq_true.1 h1 _ h
    simp only [dockDown, Bool.and_eq_true, beq_iff_eq] at this
    obtain ⟨rfl, k⟩ := this
    cases jsSame_eq _ _ k
    exact ⟨dockR, dockR_stands, dockR_portable.ts, rfl⟩

/-- The request is resolved, and the hypotheses hold. -/
example : NamedOk dock ∧ TsTsTyped dock (run dockTsRun .new) ∧ Network.Small (run dockTsRun .new) ∧
    Clear wharfCfg.workflow townRequest ∧ ∃ c, (run dockTsRun .new).find 1 = some c ∧
      (c.client.2.past.any (fun | .created 1 (.request _) b => jsSame b dockQJs | _ => false) &&
       c.client.2.past.any (fun | .called 2 1 => true | _ => false) &&
       c.client.2.past.any (fun | .ended 2 (.resolved ref v) => ref == ['R'] && jsSame v dockRJs | _ => false)) = true :=
  ⟨dock_ok, dock_ts_typed (by decide +kernel) (by decide +kernel), dock_small (by decide +kernel), wharf_clear, dock_sees _ (by decide +kernel)⟩

/-- **C177** In every run with the generated codec: if a request of a TypeScript client is resolved, then user
code of the TypeScript server was called with the object that user code of the client passed, and the client
returns the object that user code of the server decided on. -/
theorem C177_request_end_to_end (cd : Network.Codec) (ok : NamedOk cd)
    (es : List (UInt64 × Event (cd.tsServer cfg env opts takes) (cd.tsClient ccfg cenv)))
    (ht : TsTsTyped cd (run es .new)) (hs : Network.Small (run es .new)) {u : Network.Uuid} {c : Conn (cd.tsClient ccfg cenv)}
    (hc : (run es .new).find u = some c) {k o : Nat} {r : Flow.Request} {b v : TsServer.Js} {ref : Flow.Ref}
    (h1 : .created o (.request r) b ∈ c.client.2.past) (h2 : .called k o ∈ c.client.2.past)
    (h3 : .ended k (.resolved ref v) ∈ c.client.2.past) (hd : Clear cfg.workflow r) :
    AnswerOf r ref ∧ TsServed es u (run es .new).server.2.past c.client.2.past k o r b ref v := by
  obtain ⟨hf, hfa, _⟩ := C177_codec_faithful cd ok _ ht
  exact C163_result_from_server (tsNamed cd) es hf hs hfa hc h1 h2 h3 hd

/-- **C177** In every run with the generated codec: what the server looks at for a connection are the first
messages its TypeScript client sent, unchanged, with their numbers; and what the client looks at are the
first messages the transport took for it, unchanged, with their numbers. -/
theorem C177_values_unchanged (cd : Network.Codec) (ok : NamedOk cd)
    (es : List (UInt64 × Event (cd.tsServer cfg env opts takes) (cd.tsClient ccfg cenv)))
    (ht : TsTsTyped cd (run es .new)) (hs : Network.Small (run es .new)) {u : Network.Uuid} {c : Conn (cd.tsClient ccfg cenv)}
    (hc : (run es .new).find u = some c) :
    (∃ k, System.Pairs (fun x y => x.1 = y.1.toNat ∧
        TsSameUp (tsNamed cd) { cfg with selfKey := cd.codec.name (msgId cd.codec.key) } x.2 y.2)
      ((tsSents c.client.2.past).take k) (tsHeard u (run es .new).server.2.past)) ∧
    ∃ k, System.Pairs (fun x y => x.1 = y.1 ∧ TsSameDown (tsNamed cd) x.2 y.2)
      ((tsPosted takes u (run es .new).server.2.past).take k) (TsClient.looked c.client.2.past) := by
  obtain ⟨hf, hfa, hr⟩ := C177_codec_faithful cd ok _ ht
  exact ⟨⟨_, (C164_calls_in_order (tsNamed cd) es hf hs hfa hc).2 hr⟩, _, (C164_answers_in_order (tsNamed cd) es hf hs hfa hc).2 hr⟩

end

end Verif.Props
