import Verif.Model.Schema
/-!
Model of the codec in generated TypeScript code: static files `protocol.convertor.ts`,
`protocol.convertor.storage.ts`, `protocol.primitives.*.ts` under
`cli/src/protocol/render/typescript/static/` (cited without the directory), and the code printed
per declaration by `cli/src/protocol/render/typescript/mod.rs` (cited as `ts/mod.rs`).

Values are those of the schema model (`Elem.Val`). Numbers are bit patterns, so floats are copied
exactly; a JavaScript engine may change the payload of a NaN. JavaScript strings are sequences of
Unicode scalar values here; lone surrogates are left out. `none` for an enum is `{}` (no option
set). `Res.err` is a returned `Error`, `Res.panic` a thrown one.

Shapes the TypeScript generator does not support are mapped to `panic`: a repeated enum field (the
printed code encodes the array as a single enum, `ts/mod.rs` L1353-1354), an enum or a repeated
struct as payload of a variant (`ts/mod.rs` L289-299, L1092).
-/
namespace Verif.Ts

open Verif

/-- `getBuffer` with `ESize.u8`, `protocol.convertor.ts` L32-97: id, rank byte 8, length byte,
body. -/
def recU8 (id : UInt16) (size : Nat) (body : Bytes) : Bytes :=
  leBytes 2 id.toNat ++ (leBytes 1 8 ++ (leBytes 1 size ++ body))

/-- `getBuffer` with `ESize.u64`: id, rank byte 64, eight length bytes, body. -/
def recU64 (id : UInt16) (body : Bytes) : Bytes :=
  leBytes 2 id.toNat ++ (leBytes 1 64 ++ (leBytes 8 body.length ++ body))

/-- `ArrayU8.encode` … `ArrayF64.encode`, `protocol.primitives.array.u16.ts` L13-28 and alike. -/
def encNumArray (n : Num) (xs : List (Fin (256 ^ n.size))) : Bytes :=
  xs.flatMap (fun v => leBytes n.size v.val)

/-- `bool.encode`, `protocol.primitives.bool.ts` L16-26. -/
def boolByte (b : Bool) : Bytes := [if b then 1 else 0]

/-- `ArrayBool.encode`, `protocol.primitives.array.bool.ts` L14-29. -/
def encBoolArray (xs : List Bool) : Bytes := xs.flatMap boolByte

/-- `ArrayStrUTF8.encode`, `protocol.primitives.array.string.utf8.ts` L15-44: each string behind
its length as `u32`; `writeUInt32LE` refuses lengths from 2^32 on, the error is returned and
thrown by `collect` (`protocol.convertor.ts` L16-22). -/
def encStrArray : List (List Char) → Res Bytes
  | [] => .ok []
  | s :: ss =>
    if (utf8 s).length < 2 ^ 32 then do
      let tl ← encStrArray ss
      pure (leBytes 4 (utf8 s).length ++ (utf8 s ++ tl))
    else .panic

/-- `encodeSelfArray`, `protocol.convertor.ts` L138-164: each item behind its length as `u64`. -/
def encSelfArray {α : Type} (f : α → Res Bytes) : List α → Res Bytes
  | [] => .ok []
  | x :: xs => do
    let b ← f x
    let tl ← encSelfArray f xs
    pure (leBytes 8 b.length ++ (b ++ tl))

mutual
/-- `encode` of a generated struct: `collect` over the fields in declaration order
(`ts/mod.rs` L175-195, `protocol.convertor.ts` L11-30). -/
def Fields.enc : (fs : Fields) → fs.Val → Res Bytes
  | .nil, _ => .ok []
  | .cons id e rep opt rest, v => do
    let hd ← (match rep, opt, v with
      | false, false, (x, _) => Elem.rec e id x
      | true, false, (x, _) => Elem.recArray e id x
      -- `ts/mod.rs` L1340-1341, L1374: absent is a `u8` record without body
      | false, true, (none, _) => .ok (recU8 id 0 [])
      | false, true, (some x, _) => Elem.rec e id x
      | true, true, (none, _) => .ok (recU8 id 0 [])
      | true, true, (some x, _) => Elem.recArray e id x)
    let tl ← Fields.enc rest v.2
    pure (hd ++ tl)
/-- The record of a single value, `get_field_encode`, `ts/mod.rs` L1337-1380: numbers and bool
with a `u8` length (`get_size_ref`, L1449-1465), the rest with a `u64` length. An enum without
option is an empty record (`protocol.primitives.enum.ts` L75-77). -/
def Elem.rec : (e : Elem) → UInt16 → e.Val → Res Bytes
  | .num n, id, v => .ok (recU8 id n.size (leBytes n.size v.val))
  | .bool, id, v => .ok (recU8 id 1 (boolByte v))
  | .str, id, v => .ok (recU64 id (utf8 v))
  | .struct fs, id, v => do
    let b ← Fields.enc fs v
    pure (recU64 id b)
  | .enum _, id, none => .ok (recU64 id [])
  | .enum vs, id, some w => do
    let b ← Variants.enc vs 0 w
    pure (recU64 id b)
/-- The record of a repeated value, `ts/mod.rs` L1346, L1366. -/
def Elem.recArray : (e : Elem) → UInt16 → List e.Val → Res Bytes
  | .num n, id, vs => .ok (recU64 id (encNumArray n vs))
  | .bool, id, vs => .ok (recU64 id (encBoolArray vs))
  | .str, id, vs => do
    let b ← encStrArray vs
    pure (recU64 id b)
  | .struct fs, id, vs => do
    let b ← encSelfArray (Fields.enc fs) vs
    pure (recU64 id b)
  | .enum _, _, _ => .panic
/-- `Enum.encode` with an option set, `protocol.primitives.enum.ts` L78-86: position of the
variant (`ts/mod.rs` L353) as `u16`, then the payload. `i` is the position of the first variant
of the list. -/
def Variants.enc : (vs : Variants) → Nat → vs.Val → Res Bytes
  | .cons (.num n) false _, i, .inl v => .ok (leBytes 2 i ++ leBytes n.size v.val)
  | .cons .bool false _, i, .inl v => .ok (leBytes 2 i ++ boolByte v)
  | .cons .str false _, i, .inl v => .ok (leBytes 2 i ++ utf8 v)
  | .cons (.struct fs) false _, i, .inl v => do
    let b ← Fields.enc fs v
    pure (leBytes 2 i ++ b)
  | .cons (.enum _) false _, _, .inl _ => .panic
  | .cons (.num n) true _, i, .inl vs => .ok (leBytes 2 i ++ encNumArray n vs)
  | .cons .bool true _, i, .inl vs => .ok (leBytes 2 i ++ encBoolArray vs)
  | .cons .str true _, i, .inl vs => do
    let b ← encStrArray vs
    pure (leBytes 2 i ++ b)
  | .cons (.struct _) true _, _, .inl _ => .panic
  | .cons (.enum _) true _, _, .inl _ => .panic
  | .cons _ _ rest, i, .inr y => Variants.enc rest (i + 1) y
end

/-- The property map of a body: `Storage._fields`, `protocol.convertor.storage.ts` L13. The keys
are the numbers produced by `_getId`. Most recent record first. -/
abbrev Storage := List (Nat × Bytes)

/-- `Storage.get`, `protocol.convertor.storage.ts` L34-36; `Map.set` (L30) replaces, so later
records win. -/
def Storage.get (s : Storage) (id : Nat) : Option Bytes := s.lookup id

/-- `_getId`, `protocol.convertor.storage.ts` L38-46: reads one byte although the id has two. -/
def getId (buf : Bytes) : Option Nat :=
  match buf with
  | [] => none
  | b :: _ => some b.toNat

/-- `_getRank` and the width of the length field, `protocol.convertor.storage.ts` L48-68,
L91-108. -/
def rankLen (rank : Nat) : Option Nat :=
  if rank = 8 then some 1
  else if rank = 16 then some 2
  else if rank = 32 then some 4
  else if rank = 64 then some 8
  else none

/-- `_next` on the bytes from the current position on, `protocol.convertor.storage.ts` L70-116,
together with the position check of the following call (L74-76). `slice` cuts a body that is
longer than the buffer, but then the position is behind the end and the next call of the loop
reports an error; both are merged into one error here. Out of range reads are caught and returned
as errors (L41-45, L63-67, L111-115). -/
def storageNext (buf : Bytes) : Res ((Nat × Bytes) × Bytes) :=
  match getId buf with
  | none => .err
  | some id =>
    match buf.drop 2 with
    | [] => .err
    | rank :: buf2 =>
      match rankLen rank.toNat with
      | none => .err
      | some k =>
        if buf2.length < k then .err
        else
          let len := leNat (buf2.take k)
          let buf3 := buf2.drop k
          if buf3.length < len then .err
          else .ok ((id, buf3.take len), buf3.drop len)

/-- The loop of `Storage.read`, `protocol.convertor.storage.ts` L15-32; it ends when the position
is the end of the buffer (L71-73). `fuel` bounds the number of records. -/
def storageLoop : Nat → Storage → Bytes → Res Storage
  | 0, acc, _ => .ok acc
  | fuel + 1, acc, buf =>
    if buf.isEmpty then .ok acc
    else
      match storageNext buf with
      | .ok (r, rest) => storageLoop fuel (r :: acc) rest
      | .err => .err
      | .panic => .panic

/-- `Convertor.getStorage`, `protocol.convertor.ts` L117-124. -/
def getStorage (buf : Bytes) : Res Storage := storageLoop buf.length [] buf

/-- `u8.decode` … `f64.decode`, `protocol.primitives.u8.ts` L30-47 and alike: the size must be
exact. -/
def decNum (n : Num) (buf : Bytes) : Res (Fin (256 ^ n.size)) :=
  if h : buf.length = n.size then
    .ok ⟨leNat buf, by have := leNat_lt buf; rwa [h] at this⟩
  else .err

/-- `bool.decode`, `protocol.primitives.bool.ts` L28-45: only 1 is true. -/
def decBool : Bytes → Res Bool
  | [b] => .ok (b == 1)
  | _ => .err

/-- `TextDecoder.decode` with default options, `protocol.primitives.string.utf8.ts` L19-22: a
leading byte order mark is removed, malformed bytes become U+FFFD. The replacement rule is the
same as in Rust (`lossy`). -/
def decStr (buf : Bytes) : List Char :=
  if buf.take 3 = [0xEF, 0xBB, 0xBF] then lossy (buf.drop 3) else lossy buf

/-- `ArrayU8.decode` …, `protocol.primitives.array.u16.ts` L30-56 and alike. An out of range read is
caught and returned. `fuel` bounds the number of items. -/
def decNumArray (n : Num) : Nat → Bytes → Res (List (Fin (256 ^ n.size)))
  | 0, _ => .ok []
  | fuel + 1, buf =>
    if buf.isEmpty then .ok []
    else if buf.length < n.size then .err
    else do
      let x ← decNum n (buf.take n.size)
      let xs ← decNumArray n fuel (buf.drop n.size)
      pure (x :: xs)

/-- `ArrayBool.decode`, `protocol.primitives.array.bool.ts` L31-60. -/
def decBoolArray (buf : Bytes) : List Bool := buf.map (fun b => b == 1)

/-- The loop of `ArrayStrUTF8.decode` (prefix 4, `protocol.primitives.array.string.utf8.ts`
L58-72) and of `decodeSelfArray` (prefix 8, `protocol.convertor.ts` L178-200). Only the first
length field is checked before (`first`: L50-56, L171-176); a later one that does not fit makes
`readUInt32LE` / `readBigUInt64LE` throw, and nothing catches it. `slice` cuts an item that is
longer than the rest of the buffer, and the cut item is decoded. -/
def decItems {α : Type} (prefixLen : Nat) (f : Bytes → Res α) : Bool → Nat → Bytes → Res (List α)
  | _, 0, _ => .ok []
  | first, fuel + 1, buf =>
    if buf.isEmpty then .ok []
    else if buf.length < prefixLen then (if first then .err else .panic)
    else
      let len := leNat (buf.take prefixLen)
      let body := (buf.drop prefixLen).take len
      do
        let x ← f body
        let xs ← decItems prefixLen f false fuel (buf.drop (prefixLen + body.length))
        pure (x :: xs)

mutual
/-- Decode one value from its record body, `get_field_decode`, `ts/mod.rs` L1150-1335. An enum
with an empty body is left without option (L1289-1296). -/
def Elem.dec : (e : Elem) → Bytes → Res e.Val
  | .num n, buf => decNum n buf
  | .bool, buf => decBool buf
  | .str, buf => .ok (decStr buf)
  | .struct fs, buf => do
    let s ← getStorage buf
    Fields.dec fs s
  | .enum vs, buf =>
    if buf.isEmpty then .ok none
    else if buf.length < 2 then .panic
    else do
      let w ← Variants.dec vs (leNat (buf.take 2)) (buf.drop 2)
      pure (some w)
/-- Decode a repeated value. -/
def Elem.decArray : (e : Elem) → Bytes → Res (List e.Val)
  | .num n, buf => decNumArray n buf.length buf
  | .bool, buf => .ok (decBoolArray buf)
  | .str, buf => decItems 4 (fun b => .ok (decStr b)) true buf.length buf
  | .struct fs, buf => decItems 8 (fun b => do
      let s ← getStorage b
      Fields.dec fs s) true buf.length buf
  | .enum _, _ => .panic
/-- `decode` of a generated struct, `ts/mod.rs` L196-224 and `get_field_decode_wrap` L1103-1148:
a missing record is an error, an empty record of an optional field is `undefined`. -/
def Fields.dec : (fs : Fields) → Storage → Res fs.Val
  | .nil, _ => .ok ()
  | .cons id e rep opt rest, s =>
    match s.get id.toNat with
    | none => .err
    | some buf => do
      let x ← (match rep, opt with
        | false, false => Elem.dec e buf
        | true, false => Elem.decArray e buf
        | false, true => if buf.isEmpty then pure none else do
            let y ← Elem.dec e buf
            pure (some y)
        | true, true => if buf.isEmpty then pure none else do
            let y ← Elem.decArray e buf
            pure (some y) : Res (Opt (Rep e.Val rep) opt))
      let xs ← Fields.dec rest s
      pure (x, xs)
/-- `getOptionValue` and `target.decode`, `ts/mod.rs` L269-307,
`protocol.primitives.enum.ts` L91-97: an unknown position throws. -/
def Variants.dec : (vs : Variants) → Nat → Bytes → Res vs.Val
  | .nil, _, _ => .panic
  | .cons (.num n) false _, 0, buf => do
    let x ← decNum n buf
    pure (.inl x)
  | .cons .bool false _, 0, buf => do
    let x ← decBool buf
    pure (.inl x)
  | .cons .str false _, 0, buf => pure (.inl (decStr buf))
  | .cons (.struct fs) false _, 0, buf => do
    let s ← getStorage buf
    let x ← Fields.dec fs s
    pure (.inl x)
  | .cons (.enum _) false _, 0, _ => .panic
  | .cons (.num n) true _, 0, buf => do
    let x ← decNumArray n buf.length buf
    pure (.inl x)
  | .cons .bool true _, 0, buf => pure (.inl (decBoolArray buf))
  | .cons .str true _, 0, buf => do
    let x ← decItems 4 (fun b => .ok (decStr b)) true buf.length buf
    pure (.inl x)
  | .cons (.struct _) true _, 0, _ => .panic
  | .cons (.enum _) true _, 0, _ => .panic
  | .cons _ _ rest, i + 1, buf => do
    let y ← Variants.dec rest i buf
    pure (.inr y)
end

/-- `encode()` of a message struct. -/
def encode (fs : Fields) (v : fs.Val) : Res Bytes := Fields.enc fs v

/-- `decode(buffer)` of a message struct. -/
def decode (fs : Fields) (buf : Bytes) : Res fs.Val := do
  let s ← getStorage buf
  Fields.dec fs s

/-- `encode()` of a message enum, `protocol.primitives.enum.ts` L74-87. -/
def encodeEnum (vs : Variants) (v : Option vs.Val) : Res Bytes :=
  match v with
  | none => .ok []
  | some w => Variants.enc vs 0 w

/-- A message enum in `getMessage`: `decode` (`protocol.primitives.enum.ts` L89-104) and then
`get()` (`ts/mod.rs` L1645-1661). `readUInt16LE` throws on fewer than two bytes. -/
def decodeEnum (vs : Variants) (buf : Bytes) : Res (Option vs.Val) :=
  if buf.length < 2 then .panic
  else do
    let w ← Variants.dec vs (leNat (buf.take 2)) (buf.drop 2)
    pure (some w)

end Verif.Ts
