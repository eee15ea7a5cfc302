import Verif.Model.Utf8
namespace Verif

theorem char_toNat_range (c : Char) : c.toNat < 0xD800 ∨ (0xDFFF < c.toNat ∧ c.toNat < 0x110000) := by
  have h := c.valid
  simp only [UInt32.isValidChar, Nat.isValidChar] at h
  exact h

theorem u8_toNat_ofNat {n : Nat} (h : n < 256) : (UInt8.ofNat n).toNat = n := by
  simp [UInt8.toNat_ofNat']; omega

theorem length_utf8Char (c : Char) : 0 < (utf8Char c).length ∧ (utf8Char c).length ≤ 4 := by
  unfold utf8Char
  simp only []
  split
  · simp
  split
  · simp
  split <;> simp

/-- One lossy step on the encoding of a character gives the character back. -/
theorem lossyStep_utf8Char (c : Char) (rest : Bytes) :
    ∃ b tl, utf8Char c = b :: tl ∧ lossyStep b.toNat (tl ++ rest) = (c, (utf8Char c).length) := by
  have hr := char_toNat_range c
  have hc : Char.ofNat c.toNat = c := by simp
  unfold utf8Char
  simp only []
  split
  · refine ⟨_, _, rfl, ?_⟩
    rename_i h
    rw [u8_toNat_ofNat (by omega)]
    simp [lossyStep, h]
  split
  · refine ⟨_, _, rfl, ?_⟩
    rename_i h1 h2
    rw [u8_toNat_ofNat (by omega)]
    have e : safeGet ([UInt8.ofNat (128 + c.toNat % 64)] ++ rest) 0 = 128 + c.toNat % 64 := by
      simp [safeGet]; omega
    unfold lossyStep
    rw [if_neg (by omega), if_pos (by simp; omega)]
    simp only [e]
    rw [if_pos (by simp [isCont]; omega)]
    have : (192 + c.toNat / 64 - 192) * 64 + (128 + c.toNat % 64 - 128) = c.toNat := by omega
    rw [this, hc]; simp
  split
  · refine ⟨_, _, rfl, ?_⟩
    rename_i h1 h2 h3
    rw [u8_toNat_ofNat (by omega)]
    have e : safeGet ([UInt8.ofNat (128 + c.toNat / 64 % 64), UInt8.ofNat (128 + c.toNat % 64)] ++ rest) 0 = 128 + c.toNat / 64 % 64 := by
      simp [safeGet]; omega
    have e1 : safeGet ([UInt8.ofNat (128 + c.toNat / 64 % 64), UInt8.ofNat (128 + c.toNat % 64)] ++ rest) 1 = 128 + c.toNat % 64 := by
      simp [safeGet]; omega
    unfold lossyStep
    rw [if_neg (by omega), if_neg (by simp; omega), if_pos (by simp; omega)]
    simp only [e, e1]
    rw [if_pos (by simp; omega), if_pos (by simp [isCont]; omega)]
    have : (224 + c.toNat / 4096 - 224) * 4096 + (128 + c.toNat / 64 % 64 - 128) * 64 + (128 + c.toNat % 64 - 128) = c.toNat := by omega
    rw [this, hc]; simp
  · refine ⟨_, _, rfl, ?_⟩
    rename_i h1 h2 h3
    rw [u8_toNat_ofNat (by omega)]
    have e : safeGet ([UInt8.ofNat (128 + c.toNat / 4096 % 64), UInt8.ofNat (128 + c.toNat / 64 % 64), UInt8.ofNat (128 + c.toNat % 64)] ++ rest) 0 = 128 + c.toNat / 4096 % 64 := by
      simp [safeGet]; omega
    have e1 : safeGet ([UInt8.ofNat (128 + c.toNat / 4096 % 64), UInt8.ofNat (128 + c.toNat / 64 % 64), UInt8.ofNat (128 + c.toNat % 64)] ++ rest) 1 = 128 + c.toNat / 64 % 64 := by
      simp [safeGet]; omega
    have e2 : safeGet ([UInt8.ofNat (128 + c.toNat / 4096 % 64), UInt8.ofNat (128 + c.toNat / 64 % 64), UInt8.ofNat (128 + c.toNat % 64)] ++ rest) 2 = 128 + c.toNat % 64 := by
      simp [safeGet]; omega
    unfold lossyStep
    rw [if_neg (by omega), if_neg (by simp; omega), if_neg (by simp; omega), if_pos (by simp; omega)]
    simp only [e, e1, e2]
    rw [if_pos (by simp; omega), if_pos (by simp [isCont]; omega), if_pos (by simp [isCont]; omega)]
    have : (240 + c.toNat / 262144 - 240) * 262144 + (128 + c.toNat / 4096 % 64 - 128) * 4096 + (128 + c.toNat / 64 % 64 - 128) * 64 + (128 + c.toNat % 64 - 128) = c.toNat := by omega
    rw [this, hc]; simp

theorem lossyLoop_utf8 (s : List Char) (fuel : Nat) (h : (utf8 s).length ≤ fuel) :
    lossyLoop fuel (utf8 s) = s := by
  induction s generalizing fuel with
  | nil => cases fuel <;> rfl
  | cons c s ih =>
    obtain ⟨b, tl, he, hs⟩ := lossyStep_utf8Char c (utf8 s)
    have hu : utf8 (c :: s) = b :: (tl ++ utf8 s) := by
      simp [utf8, he]
    rw [hu] at h ⊢
    cases fuel with
    | zero => simp at h
    | succ fuel =>
      simp only [lossyLoop, hs]
      have hd : (b :: (tl ++ utf8 s)).drop (utf8Char c).length = utf8 s := by
        rw [he, ← List.cons_append, List.drop_left]
      rw [hd, ih]
      simp at h; omega

/-- A string survives `as_bytes` followed by `from_utf8_lossy`. -/
theorem lossy_utf8 (s : List Char) : lossy (utf8 s) = s := lossyLoop_utf8 s _ (Nat.le_refl _)

theorem utf8_eq_nil {s : List Char} : utf8 s = [] ↔ s = [] := by
  constructor
  · intro h
    have := lossy_utf8 s
    rw [h] at this
    simpa [lossy, lossyLoop] using this.symm
  · rintro rfl; rfl

/-- Sanity check of the model against Lean's own UTF-8 encoder. -/
theorem utf8Char_eq_core (c : Char) : utf8Char c = String.utf8EncodeChar c := by
  unfold utf8Char String.utf8EncodeChar
  have hr := char_toNat_range c
  have hv : c.val.toNat = c.toNat := rfl
  simp only [hv]
  split
  · rw [if_pos (by omega)]
  split
  · rw [if_neg (by omega), if_pos (by omega)]
    have e1 : 0xC0 + c.toNat / 64 = c.toNat / 64 % 32 + 192 := by omega
    have e2 : 0x80 + c.toNat % 64 = c.toNat % 64 + 128 := by omega
    rw [e1, e2]
  split
  · rw [if_neg (by omega), if_neg (by omega), if_pos (by omega)]
    have e1 : 0xE0 + c.toNat / 4096 = c.toNat / 4096 % 16 + 224 := by omega
    have e2 : 0x80 + c.toNat / 64 % 64 = c.toNat / 64 % 64 + 128 := by omega
    have e3 : 0x80 + c.toNat % 64 = c.toNat % 64 + 128 := by omega
    rw [e1, e2, e3]
  · rw [if_neg (by omega), if_neg (by omega), if_neg (by omega)]
    have e0 : 0xF0 + c.toNat / 262144 = c.toNat / 262144 % 8 + 240 := by omega
    have e1 : 0x80 + c.toNat / 4096 % 64 = c.toNat / 4096 % 64 + 128 := by omega
    have e2 : 0x80 + c.toNat / 64 % 64 = c.toNat / 64 % 64 + 128 := by omega
    have e3 : 0x80 + c.toNat % 64 = c.toNat % 64 + 128 := by omega
    rw [e0, e1, e2, e3]

end Verif
