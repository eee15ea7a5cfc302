import Verif.Props.TsCodec
import Verif.Props.TsStream
import Verif.Model.TsDispatch
set_option autoImplicit false
/-!
Property theorem C60: whole messages between Rust and TypeScript peers.
-/
namespace Verif.Props

open Verif Verif.Spec Verif.Rust

/-- The message belongs to the protocol, both generators support its declaration, and its value is
one that both languages transport exactly. -/
def BothOk (p : Protocol) : Msg → Prop
  | .enum id vs v => (id, vs) ∈ p.enums ∧ ElemOk (.enum vs) ∧ TsElemOk (.enum vs) ∧
    ElemClean (.enum vs) v ∧ TsElemClean (.enum vs) v
  | .struct id fs v => (id, fs) ∈ p.structs ∧ FieldsOk fs ∧ TsFieldsOk fs ∧
    FieldsClean fs v ∧ TsFieldsClean fs v

theorem BothOk.sendOk {p : Protocol} {m : Msg} (h : BothOk p m) : SendOk p m := by
  cases m with
  | enum id vs v => exact ⟨h.1, h.2.1, h.2.2.2.1⟩
  | struct id fs v => exact ⟨h.1, h.2.1, h.2.2.2.1⟩

theorem frameBytes_eq (id : UInt32) (sg : UInt16) (sq : UInt32) (ts : UInt64) (b : Bytes) :
    Ts.frameBytes id sg sq ts b = packBuffer id sg sq ts b := by
  simp [Ts.frameBytes, packBuffer]

theorem pack_same (p : Protocol) (m : Msg) (h : BothOk p m) (sq : UInt32) (ts : UInt64) :
    Ts.pack p m sq ts = p.pack m sq ts := by
  cases m with
  | struct id fs v =>
    obtain ⟨_, _, h2, h3, _⟩ := h
    have := C18_same_bytes fs v h2 (fields_clean fs v h3).1
    simp only [Ts.pack, Protocol.pack, this, frameBytes_eq]
  | enum id vs v =>
    obtain ⟨_, _, h2, h3, _⟩ := h
    cases v with
    | none => simp [ElemClean] at h3
    | some w =>
      simp only [TsElemOk] at h2
      simp only [ElemClean] at h3
      have := C18_same_bytes_enum vs w h2.1 (variants_clean vs w h3).1
      simp only [Ts.pack, Protocol.pack, this, frameBytes_eq]

theorem ts_dispatch (p : Protocol) (hd : IdsDistinct p) (id : UInt32) (body : Bytes) :
    (∀ vs, (id, vs) ∈ p.enums →
      Ts.getMessage p id body = (do let v ← Ts.decodeEnum vs body; pure (.enum id vs v))) ∧
    (∀ fs, (id, fs) ∈ p.structs →
      Ts.getMessage p id body = (do let v ← Ts.decode fs body; pure (.struct id fs v))) := by
  unfold IdsDistinct at hd
  rw [List.nodup_append] at hd
  refine ⟨fun vs h => ?_, fun fs h => ?_⟩
  · simp only [Ts.getMessage, lookup_of_mem hd.1 h]
  · have hno : id ∉ p.enums.map Prod.fst := fun hc =>
      hd.2.2 _ hc _ (List.mem_map.mpr ⟨(id, fs), h, rfl⟩) rfl
    simp only [Ts.getMessage, lookup_none_of_not_mem hno, lookup_of_mem hd.2.1 h]

/-- Who sent a message. -/
inductive Lang where
  | rust
  | typescript

/-- The bytes a sender of this language puts on the wire. -/
def Lang.pack (l : Lang) (p : Protocol) (m : Msg) (sq : UInt32) (ts : UInt64) : Res Bytes :=
  match l with
  | .rust => p.pack m sq ts
  | .typescript => Ts.pack p m sq ts

/-- One packed message. -/
structure Sent where
  lang : Lang
  msg : Msg
  seq : UInt32
  ts : UInt64
  bytes : Bytes

/-- **C60** Messages packed by Rust or TypeScript senders (in any mix) and read by a Rust reader or
by a TypeScript reader of the same protocol, in any chunks, arrive as exactly the same messages in
order, with their sequence numbers. The TypeScript reader returns from every call without error. -/
theorem C60_cross_language (p : Protocol) (hd : IdsDistinct p) (sent : List Sent)
    (hsent : ∀ s ∈ sent, BothOk p s.msg ∧ s.lang.pack p s.msg s.seq s.ts = .ok s.bytes ∧
      s.bytes.length < 2 ^ 64)
    (ops : List ReadOp) (hf : fed ops = (sent.map Sent.bytes).flatten) :
    (let o := observe p.decoder ops Reader.new
     (∀ x ∈ o.results, x = .ok) ∧
     (o.got ++ o.reader.queue).map Income.msg = sent.map Sent.msg ∧
     (o.got ++ o.reader.queue).map (fun m => m.header.sequence) = sent.map Sent.seq ∧
     bufLen o.reader = 0) ∧
    (∃ es got r', TsRun (Ts.decoder p) ops Reader.new es got r') ∧
    ∀ es got r', TsRun (Ts.decoder p) ops Reader.new es got r' →
      (∀ e ∈ es, e = .returned []) ∧
      (got ++ r'.queue).map Income.msg = sent.map Sent.msg ∧
      (got ++ r'.queue).map (fun m => m.header.sequence) = sent.map Sent.seq ∧
      Ts.len r' = 0 := by
  have hrust : ∀ s ∈ sent, p.pack s.msg s.seq s.ts = .ok s.bytes := by
    intro s hs
    obtain ⟨h1, h2, _⟩ := hsent s hs
    cases hl : s.lang with
    | rust => rw [hl] at h2; exact h2
    | typescript => rw [hl] at h2; rw [← pack_same p s.msg h1]; exact h2
  refine ⟨?_, ?_⟩
  · have := C54_rust_end_to_end p hd (sent.map (fun s => (s.msg, s.seq, s.ts, s.bytes))) (by
      intro t ht
      obtain ⟨s, hs, rfl⟩ := List.mem_map.mp ht
      exact ⟨(hsent s hs).1.sendOk, hrust s hs, (hsent s hs).2.2⟩) ops (by
      rw [hf, List.map_map]; rfl)
    simpa [List.map_map, Function.comp_def] using this
  · have key : ∀ s ∈ sent, ∃ f : Frame, s.bytes = f.bytes ∧ Good (Ts.decoder p) f ∧
        f.hdr.sequence = s.seq ∧ delivered (Ts.decoder p) f = some ⟨f.hdr, s.msg⟩ := by
      intro s hs
      obtain ⟨hok, _, hlen⟩ := hsent s hs
      have hpack := hrust s hs
      have frame : ∀ (id : UInt32) (body : Bytes),
          packBuffer id p.signature s.seq s.ts body = s.bytes →
          (body.length < 2 ^ 64 → Ts.getMessage p id body = .ok s.msg) →
          ∃ f : Frame, s.bytes = f.bytes ∧ Good (Ts.decoder p) f ∧ f.hdr.sequence = s.seq ∧
            delivered (Ts.decoder p) f = some ⟨f.hdr, s.msg⟩ := by
        intro id body hb hget
        have hbl : body.length + 26 < 2 ^ 64 := by
          have := congrArg List.length hb
          simp [packBuffer] at this
          omega
        have hm : (UInt64.ofNat body.length).toNat = body.length := by
          simp only [UInt64.toNat_ofNat']; exact Nat.mod_eq_of_lt (by omega)
        refine ⟨⟨⟨id, p.signature, s.seq, s.ts, UInt64.ofNat body.length⟩, body⟩, ?_,
          ⟨⟨hm, hbl⟩, rfl, s.msg, hget (by omega)⟩, rfl, ?_⟩
        · rw [← hb]; simp only [packBuffer, Frame.bytes, hm]
        · simp [delivered, Ts.decoder, hget (by omega)]
      cases hmsg : s.msg with
      | struct id fs v =>
        rw [hmsg] at hok hpack
        obtain ⟨hmem, h1, h2, h3, h4⟩ := hok
        simp only [Protocol.pack, Res.bind_eq_ok, Res.pure_eq, Res.ok.injEq] at hpack
        obtain ⟨body, hb, hp⟩ := hpack
        obtain ⟨f, g1, g2, g3, g4⟩ := frame id body hp (fun hl => by
          obtain ⟨b', e1, _, e2⟩ := C18_wire_partial fs v h1 h2 h3 h4
          rw [hb, Res.ok.injEq] at e1
          subst e1
          rw [((ts_dispatch p hd id body).2 fs hmem), (e2 hl).2]
          simp [hmsg])
        exact ⟨f, g1, g2, g3, by rw [g4, hmsg]⟩
      | enum id vs v =>
        rw [hmsg] at hok hpack
        obtain ⟨hmem, h1, h2, h3, h4⟩ := hok
        simp only [Protocol.pack, Res.bind_eq_ok, Res.pure_eq, Res.ok.injEq] at hpack
        obtain ⟨body, hb, hp⟩ := hpack
        cases v with
        | none => simp [ElemClean] at h3
        | some w =>
          obtain ⟨f, g1, g2, g3, g4⟩ := frame id body hp (fun hl => by
            simp only [ElemOk] at h1
            simp only [TsElemOk] at h2
            simp only [ElemClean] at h3
            simp only [TsElemClean] at h4
            obtain ⟨b', e1, _, e2⟩ := C18_wire_enum_partial vs w h1.1 h2.1 h1.2 h3 h4
            rw [hb, Res.ok.injEq] at e1
            subst e1
            rw [((ts_dispatch p hd id body).1 vs hmem), (e2 hl).2]
            simp [hmsg])
          exact ⟨f, g1, g2, g3, by rw [g4, hmsg]⟩
    have hall : ∃ fs : List Frame, (∀ f ∈ fs, Good (Ts.decoder p) f) ∧
        (sent.map Sent.bytes).flatten = stream fs ∧
        (fs.filterMap (delivered (Ts.decoder p))).map Income.msg = sent.map Sent.msg ∧
        (fs.filterMap (delivered (Ts.decoder p))).map (fun m => m.header.sequence)
          = sent.map Sent.seq := by
      clear hsent hf hrust
      induction sent with
      | nil => exact ⟨[], by simp, by simp [stream], by simp, by simp⟩
      | cons s rest ih =>
        obtain ⟨f, h1, h2, h3, h4⟩ := key s (by simp)
        obtain ⟨fs, g1, g2, g3, g4⟩ := ih (fun x hx => key x (by simp [hx]))
        refine ⟨f :: fs, ?_, ?_, ?_, ?_⟩
        · intro g hg
          rcases List.mem_cons.mp hg with rfl | hg
          · exact h2
          · exact g1 g hg
        · rw [List.map_cons, List.flatten_cons, g2, h1, stream_cons]
        · simp [h4, g3]
        · simp [h4, g4, h3]
    obtain ⟨fs, g1, g2, g3, g4⟩ := hall
    obtain ⟨k1, k2⟩ := C15_ts_chunking (Ts.decoder p) fs g1 ops (by rw [hf, g2])
    refine ⟨k1, fun es got r' hrun => ?_⟩
    obtain ⟨m1, m2, _, m4⟩ := k2 es got r' hrun
    exact ⟨m1, by rw [m2, g3], by rw [m2, g4], m4⟩

example : BothOk demoProtocol (.struct 1 demoFields demoVal) :=
  ⟨by simp [demoProtocol], demo_ok, demo_tsOk, demo_clean, demo_tsClean⟩

end Verif.Props
