import Verif.Model.Bytes
/-!
UTF-8 as used for string values: `str::as_bytes` on the encoding side and
`String::from_utf8_lossy` on the decoding side.
-/
namespace Verif

/-- UTF-8 bytes of one character.
Models `String::as_bytes` (`protocol.encode.rs` L204-209, L333-343): a Rust `String` is a
sequence of Unicode scalar values stored as UTF-8. -/
def utf8Char (c : Char) : Bytes :=
  let n := c.toNat
  if n < 0x80 then [UInt8.ofNat n]
  else if n < 0x800 then [UInt8.ofNat (0xC0 + n / 64), UInt8.ofNat (0x80 + n % 64)]
  else if n < 0x10000 then
    [UInt8.ofNat (0xE0 + n / 4096), UInt8.ofNat (0x80 + n / 64 % 64), UInt8.ofNat (0x80 + n % 64)]
  else
    [UInt8.ofNat (0xF0 + n / 262144), UInt8.ofNat (0x80 + n / 4096 % 64),
      UInt8.ofNat (0x80 + n / 64 % 64), UInt8.ofNat (0x80 + n % 64)]

/-- UTF-8 bytes of a string. -/
def utf8 (s : List Char) : Bytes := s.flatMap utf8Char

/-- Byte at a position, 0 when out of range (`safe_get` of the Rust standard library's
lossy decoder). -/
def safeGet (bs : Bytes) (i : Nat) : Nat := (bs[i]?.getD 0).toNat

/-- Is the byte a UTF-8 continuation byte. -/
def isCont (b : Nat) : Bool := 0x80 ≤ b && b < 0xC0

/-- One step of `String::from_utf8_lossy` (std `Utf8Chunks`) on a buffer that starts with
byte `b`: the decoded character (or U+FFFD for a maximal invalid piece) and the number of
bytes consumed. The function belongs to the Rust standard library and is used at
`protocol.decode.rs` L298 and L582. -/
def lossyStep (b : Nat) (rest : Bytes) : Char × Nat :=
  if b < 0x80 then (Char.ofNat b, 1)
  else if 0xC2 ≤ b && b ≤ 0xDF then
    let x := safeGet rest 0
    if isCont x then (Char.ofNat ((b - 0xC0) * 64 + (x - 0x80)), 2) else ('�', 1)
  else if 0xE0 ≤ b && b ≤ 0xEF then
    let x := safeGet rest 0
    if (b == 0xE0 && 0xA0 ≤ x && x ≤ 0xBF) || (0xE1 ≤ b && b ≤ 0xEC && 0x80 ≤ x && x ≤ 0xBF)
        || (b == 0xED && 0x80 ≤ x && x ≤ 0x9F) || (0xEE ≤ b && b ≤ 0xEF && 0x80 ≤ x && x ≤ 0xBF) then
      let y := safeGet rest 1
      if isCont y then
        (Char.ofNat ((b - 0xE0) * 4096 + (x - 0x80) * 64 + (y - 0x80)), 3)
      else ('�', 2)
    else ('�', 1)
  else if 0xF0 ≤ b && b ≤ 0xF4 then
    let x := safeGet rest 0
    if (b == 0xF0 && 0x90 ≤ x && x ≤ 0xBF) || (0xF1 ≤ b && b ≤ 0xF3 && 0x80 ≤ x && x ≤ 0xBF)
        || (b == 0xF4 && 0x80 ≤ x && x ≤ 0x8F) then
      let y := safeGet rest 1
      if isCont y then
        let z := safeGet rest 2
        if isCont z then
          (Char.ofNat ((b - 0xF0) * 262144 + (x - 0x80) * 4096 + (y - 0x80) * 64 + (z - 0x80)), 4)
        else ('�', 3)
      else ('�', 2)
    else ('�', 1)
  else ('�', 1)

/-- `String::from_utf8_lossy`: the loop over `lossyStep`. `fuel` bounds the number of steps;
every step consumes at least one byte, so the length of the buffer is enough. -/
def lossyLoop : Nat → Bytes → List Char
  | 0, _ => []
  | _ + 1, [] => []
  | fuel + 1, b :: rest =>
    let r := lossyStep b.toNat rest
    r.1 :: lossyLoop fuel ((b :: rest).drop r.2)

/-- `String::from_utf8_lossy(buf)`. -/
def lossy (bs : Bytes) : List Char := lossyLoop bs.length bs

end Verif
