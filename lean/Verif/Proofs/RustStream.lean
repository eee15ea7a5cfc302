import Verif.Spec.Stream
namespace Verif.Rust

open Verif Verif.Spec

theorem u16_ofNat_leNat (i : UInt16) : UInt16.ofNat (leNat (leBytes 2 i.toNat)) = i := by
  have := i.toNat_lt
  rw [leNat_leBytes_of_lt (by simpa using this)]; simp
theorem u32_ofNat_leNat (i : UInt32) : UInt32.ofNat (leNat (leBytes 4 i.toNat)) = i := by
  have := i.toNat_lt
  rw [leNat_leBytes_of_lt (by simpa using this)]; simp
theorem u64_ofNat_leNat (i : UInt64) : UInt64.ofNat (leNat (leBytes 8 i.toNat)) = i := by
  have := i.toNat_lt
  rw [leNat_leBytes_of_lt (by simpa using this)]; simp

theorem frame_length (f : Frame) : f.bytes.length = 26 + f.body.length := by
  simp [Frame.bytes]; omega

/-- The 26 header bytes followed by anything. -/
theorem getHeader_bytes (h : Header) (rest : Bytes) :
    getHeader (leBytes 4 h.id.toNat ++ leBytes 2 h.signature.toNat ++ leBytes 4 h.sequence.toNat ++
      leBytes 8 h.ts.toNat ++ leBytes 8 h.len.toNat ++ rest) = h := by
  have e1 : (leBytes 4 h.id.toNat).length = 4 := by simp
  have e2 : (leBytes 2 h.signature.toNat).length = 2 := by simp
  have e3 : (leBytes 4 h.sequence.toNat).length = 4 := by simp
  have e4 : (leBytes 8 h.ts.toNat).length = 8 := by simp
  have e5 : (leBytes 8 h.len.toNat).length = 8 := by simp
  obtain ⟨id, sg, sq, ts, ln⟩ := h
  simp only at e1 e2 e3 e4 e5
  simp only [getHeader, List.append_assoc, Header.mk.injEq]
  refine ⟨?_, ?_, ?_, ?_, ?_⟩
  · rw [List.take_left' e1, u32_ofNat_leNat]
  · rw [List.drop_left' e1, List.take_left' e2, u16_ofNat_leNat]
  · rw [show (6:Nat) = 4 + 2 from rfl, ← List.drop_drop, List.drop_left' e1, List.drop_left' e2,
      List.take_left' e3, u32_ofNat_leNat]
  · rw [show (10:Nat) = 4 + 2 + 4 from rfl, ← List.drop_drop, ← List.drop_drop, List.drop_left' e1,
      List.drop_left' e2, List.drop_left' e3, List.take_left' e4, u64_ofNat_leNat]
  · rw [show (18:Nat) = 4 + 2 + 4 + 8 from rfl, ← List.drop_drop, ← List.drop_drop,
      ← List.drop_drop, List.drop_left' e1, List.drop_left' e2, List.drop_left' e3,
      List.drop_left' e4, List.take_left' e5, u64_ofNat_leNat]

theorem getHeader_frame (f : Frame) (rest : Bytes) : getHeader (f.bytes ++ rest) = f.hdr := by
  rw [Frame.bytes, List.append_assoc]
  exact getHeader_bytes f.hdr (f.body ++ rest)

/-- Only the first 26 bytes matter. -/
theorem getHeader_append (b t : Bytes) (h : 26 ≤ b.length) : getHeader (b ++ t) = getHeader b := by
  unfold getHeader
  congr 1
  · rw [List.take_append_of_le_length (by omega)]
  · rw [List.drop_append_of_le_length (by omega), List.take_append_of_le_length (by simp; omega)]
  · rw [List.drop_append_of_le_length (by omega), List.take_append_of_le_length (by simp; omega)]
  · rw [List.drop_append_of_le_length (by omega), List.take_append_of_le_length (by simp; omega)]
  · rw [List.drop_append_of_le_length (by omega), List.take_append_of_le_length (by simp; omega)]

/-- The first 26 bytes of a buffer are its header. -/
theorem header_bytes_eq (b : Bytes) (h : 26 ≤ b.length) :
    b = leBytes 4 (getHeader b).id.toNat ++ leBytes 2 (getHeader b).signature.toNat ++
      leBytes 4 (getHeader b).sequence.toNat ++ leBytes 8 (getHeader b).ts.toNat ++
      leBytes 8 (getHeader b).len.toNat ++ b.drop 26 := by
  have key : ∀ (k o : Nat), o + k ≤ 26 → leBytes k (leNat ((b.drop o).take k)) = (b.drop o).take k := by
    intro k o hk
    have := leBytes_leNat ((b.drop o).take k)
    rwa [List.length_take, List.length_drop, Nat.min_eq_left (by omega)] at this
  have bnd : ∀ (k o : Nat), o + k ≤ 26 → leNat ((b.drop o).take k) < 256 ^ k := by
    intro k o hk
    have := leNat_lt ((b.drop o).take k)
    rwa [List.length_take, List.length_drop, Nat.min_eq_left (by omega)] at this
  have h1 : leBytes 4 (getHeader b).id.toNat = b.take 4 := by
    have h := bnd 4 0 (by omega)
    have := key 4 0 (by omega)
    simp only [List.drop_zero] at this h
    simp only [getHeader, UInt32.toNat_ofNat']
    rw [Nat.mod_eq_of_lt (by omega), this]
  have h2 : leBytes 2 (getHeader b).signature.toNat = (b.drop 4).take 2 := by
    have h := bnd 2 4 (by omega)
    simp only [getHeader, UInt16.toNat_ofNat']
    rw [Nat.mod_eq_of_lt (by omega), key 2 4 (by omega)]
  have h3 : leBytes 4 (getHeader b).sequence.toNat = (b.drop 6).take 4 := by
    have h := bnd 4 6 (by omega)
    simp only [getHeader, UInt32.toNat_ofNat']
    rw [Nat.mod_eq_of_lt (by omega), key 4 6 (by omega)]
  have h4 : leBytes 8 (getHeader b).ts.toNat = (b.drop 10).take 8 := by
    have h := bnd 8 10 (by omega)
    simp only [getHeader, UInt64.toNat_ofNat']
    rw [Nat.mod_eq_of_lt (by omega), key 8 10 (by omega)]
  have h5 : leBytes 8 (getHeader b).len.toNat = (b.drop 18).take 8 := by
    have h := bnd 8 18 (by omega)
    simp only [getHeader, UInt64.toNat_ofNat']
    rw [Nat.mod_eq_of_lt (by omega), key 8 18 (by omega)]
  rw [h1, h2, h3, h4, h5]
  simp only [List.append_assoc]
  rw [show b.drop 26 = (b.drop 18).drop 8 by simp, List.take_append_drop,
    show b.drop 18 = (b.drop 10).drop 8 by simp, List.take_append_drop,
    show b.drop 10 = (b.drop 6).drop 4 by simp, List.take_append_drop,
    show b.drop 6 = (b.drop 4).drop 2 by simp, List.take_append_drop, List.take_append_drop]

/-- A buffer with a complete frame in front. -/
theorem frame_of_buffer (b : Bytes) (h : 26 ≤ b.length)
    (hl : (getHeader b).len.toNat + 26 ≤ b.length) (hov : (getHeader b).len.toNat + 26 < 2 ^ 64) :
    ∃ f : Frame, f.Ok ∧ f.hdr = getHeader b ∧ f.body = (b.drop 26).take (getHeader b).len.toNat ∧
      b = f.bytes ++ b.drop (26 + (getHeader b).len.toNat) := by
  refine ⟨⟨getHeader b, (b.drop 26).take (getHeader b).len.toNat⟩, ⟨?_, ?_⟩, rfl, rfl, ?_⟩
  · simp; omega
  · simp; omega
  · simp only [Frame.bytes]
    rw [List.append_assoc, ← List.drop_drop, List.take_append_drop]
    exact header_bytes_eq b h

theorem hasHeader_iff (b : Bytes) : hasHeader b = true ↔ 26 ≤ b.length := by
  unfold hasHeader; exact decide_eq_true_iff

theorem hasHeader_false_iff (b : Bytes) : hasHeader b = false ↔ b.length < 26 := by
  rw [← Bool.not_eq_true, hasHeader_iff]; omega

section
variable {T : Type} (d : Decoder T)

/-- One round of the loop on a buffer with a complete frame in front. -/
theorem chunkLoop_frame (fuel : Nat) (f : Frame) (hf : f.Ok) (rest : Bytes) (q : List (Income T)) :
    chunkLoop d (fuel + 1) ⟨f.bytes ++ rest, q⟩ =
      if d.signature ≠ f.hdr.signature then (.signature, ⟨rest, q⟩)
      else match d.getMsg f.hdr.id f.body with
        | .ok msg =>
          if rest.isEmpty then (.ok, ⟨rest, q ++ [⟨f.hdr, msg⟩]⟩)
          else chunkLoop d fuel ⟨rest, q ++ [⟨f.hdr, msg⟩]⟩
        | .err => (.parsing, ⟨rest, q⟩)
        | .panic => (.panic, ⟨rest, q⟩) := by
  obtain ⟨h1, h2⟩ := hf
  have hl := frame_length f
  have hb : (f.bytes ++ rest).drop 26 = f.body ++ rest := by
    rw [Frame.bytes, List.append_assoc, List.drop_left' (by simp)]
  have hr : (f.bytes ++ rest).drop (26 + f.body.length) = rest := by
    rw [List.drop_left' (by omega)]
  rw [chunkLoop]
  have hh : hasHeader (f.bytes ++ rest) = true := by
    rw [hasHeader_iff, List.length_append]; omega
  simp only [hh, Bool.not_true, Bool.false_eq_true, if_false, getHeader_frame, headerLen, h1]
  rw [if_neg (by omega), if_neg (by simp only [List.length_append]; omega)]
  simp only [show 4 + 2 + 4 + 8 + 8 = 26 from rfl, hb, hr, List.take_left' rfl]
  rfl

/-- A buffer that does not hold a complete frame stays as it is. -/
theorem chunkLoop_wait (fuel : Nat) (f : Frame) (hf : f.Ok) (b t : Bytes) (hbt : f.bytes = b ++ t)
    (ht : t ≠ []) (q : List (Income T)) : chunkLoop d fuel ⟨b, q⟩ = (.ok, ⟨b, q⟩) := by
  cases fuel with
  | zero => rfl
  | succ fuel =>
    rw [chunkLoop]
    by_cases h : 26 ≤ b.length
    · have hh : hasHeader b = true := (hasHeader_iff b).mpr h
      have hg : getHeader b = f.hdr := by
        have := getHeader_frame f []
        rw [List.append_nil, hbt, getHeader_append _ _ h] at this
        exact this
      obtain ⟨h1, h2⟩ := hf
      have hl := frame_length f
      rw [hbt, List.length_append] at hl
      have htl := List.length_pos_iff.mpr ht
      simp only [hh, Bool.not_true, Bool.false_eq_true, if_false, hg, headerLen, h1]
      rw [if_neg (by omega), if_pos (by omega)]
    · have hh : hasHeader b = false := (hasHeader_false_iff b).mpr (by omega)
      simp [hh]

theorem chunkLoop_empty (fuel : Nat) (q : List (Income T)) :
    chunkLoop d fuel ⟨[], q⟩ = (.ok, ⟨[], q⟩) := by
  cases fuel with
  | zero => rfl
  | succ fuel => simp [chunkLoop, hasHeader, headerLen]

theorem stream_cons (f : Frame) (fs : List Frame) : stream (f :: fs) = f.bytes ++ stream fs := rfl
theorem stream_append (fs gs : List Frame) : stream (fs ++ gs) = stream fs ++ stream gs := by
  simp [stream]
theorem stream_length_le (fs : List Frame) : fs.length ≤ (stream fs).length := by
  induction fs with
  | nil => simp
  | cons f fs ih =>
    rw [stream_cons, List.length_append, frame_length]; simp; omega

/-- Messages of good frames. -/
theorem delivered_good {f : Frame} (h : Good d f) :
    ∃ t, d.getMsg f.hdr.id f.body = .ok t ∧ delivered d f = some ⟨f.hdr, t⟩ := by
  obtain ⟨_, hs, t, ht⟩ := h
  exact ⟨t, ht, by simp [delivered, hs, ht]⟩

/-- Good frames followed by a tail: the good frames are delivered, then the loop continues with
the tail. -/
theorem chunkLoop_good (fs : List Frame) (hg : ∀ f ∈ fs, Good d f) (fuel : Nat) (tail : Bytes)
    (htail : tail ≠ []) (q : List (Income T)) :
    chunkLoop d (fuel + fs.length) ⟨stream fs ++ tail, q⟩ =
      chunkLoop d fuel ⟨tail, q ++ fs.filterMap (delivered d)⟩ := by
  induction fs generalizing q with
  | nil => simp [stream]
  | cons f fs ih =>
    obtain ⟨t, ht, hd⟩ := delivered_good d (hg f (by simp))
    rw [stream_cons, List.append_assoc, List.length_cons, ← Nat.add_assoc,
      chunkLoop_frame d _ f (hg f (by simp)).1, if_neg (by simp [(hg f (by simp)).2.1]), ht]
    have hne : (stream fs ++ tail).isEmpty = false := by
      rw [List.isEmpty_eq_false_iff]; simp [htail]
    simp only [hne, Bool.false_eq_true, if_false]
    rw [ih (fun g hg' => hg g (by simp [hg']))]
    simp [hd]

theorem chunkLoop_good_all (fs : List Frame) (hg : ∀ f ∈ fs, Good d f) (fuel : Nat)
    (hf : fs.length ≤ fuel) (q : List (Income T)) :
    chunkLoop d fuel ⟨stream fs, q⟩ = (.ok, ⟨[], q ++ fs.filterMap (delivered d)⟩) := by
  induction fs generalizing q fuel with
  | nil => simpa [stream] using chunkLoop_empty d fuel q
  | cons f fs ih =>
    cases fuel with
    | zero => simp at hf
    | succ fuel =>
      obtain ⟨t, ht, hd⟩ := delivered_good d (hg f (by simp))
      rw [stream_cons, chunkLoop_frame d _ f (hg f (by simp)).1,
        if_neg (by simp [(hg f (by simp)).2.1]), ht]
      simp only
      split
      · rename_i he
        simp only [List.isEmpty_iff] at he
        have : fs = [] := by
          cases fs with
          | nil => rfl
          | cons g gs =>
            have := stream_length_le (g :: gs)
            rw [he] at this; simp at this
        subst this
        simp [stream, hd]
      · rw [ih (fun g hg' => hg g (by simp [hg'])) fuel (by simpa using hf)]
        simp [hd]

/-- Enough fuel is enough. -/
theorem chunkLoop_fuel : ∀ (f g : Nat) (r : Reader T), r.buffer.length ≤ f → r.buffer.length ≤ g →
    chunkLoop d f r = chunkLoop d g r
  | 0, 0, _, _, _ => rfl
  | 0, g + 1, ⟨b, q⟩, hf, _ => by
    have : b = [] := List.length_eq_zero_iff.mp (by simpa using hf)
    rw [this, chunkLoop_empty, chunkLoop_empty]
  | f + 1, 0, ⟨b, q⟩, _, hg => by
    have : b = [] := List.length_eq_zero_iff.mp (by simpa using hg)
    rw [this, chunkLoop_empty, chunkLoop_empty]
  | f + 1, g + 1, ⟨b, q⟩, hf, hg => by
    simp only at hf hg
    rw [chunkLoop, chunkLoop]
    split
    · rfl
    · rename_i hh
      have h26 : 26 ≤ b.length := by
        rw [← hasHeader_iff]; simpa using hh
      simp only
      split
      · rfl
      · split
        · rfl
        · split
          · rfl
          · split
            · split
              · rfl
              · exact chunkLoop_fuel f g _ (by simp [headerLen]; omega) (by simp [headerLen]; omega)
            · rfl
            · rfl

end

end Verif.Rust
