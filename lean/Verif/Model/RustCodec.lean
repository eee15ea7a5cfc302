import Verif.Model.Schema
/-!
Model of the codec in generated Rust code: static files `protocol.encode.rs`,
`protocol.decode.rs`, `protocol.storage.rs` under
`cli/src/protocol/render/rust/static/`, and the per-declaration code printed by
`cli/src/protocol/render/rust/mod.rs` (`structs` L52-264, `enums` L266-447).
-/
namespace Verif.Rust

open Verif

/-- `ESize`: the declared size of a property body and the rank of its length field
(`protocol.encode.rs` L9-26). -/
inductive ESize where
  | u8 (n : Nat)
  | u16 (n : Nat)
  | u32 (n : Nat)
  | u64 (n : Nat)
  deriving DecidableEq, Repr

/-- Rank byte and length bytes. `protocol.encode.rs` L9-26. -/
def ESize.bytes : ESize → Bytes
  | .u8 n => leBytes 1 8 ++ leBytes 1 n
  | .u16 n => leBytes 1 16 ++ leBytes 2 n
  | .u32 n => leBytes 1 32 ++ leBytes 4 n
  | .u64 n => leBytes 1 64 ++ leBytes 8 n

/-- `get_value_buffer`, `protocol.encode.rs` L5-30. -/
def getValueBuffer (id : Option UInt16) (size : ESize) (value : Bytes) : Bytes :=
  (match id with
    | some i => leBytes 2 i.toNat ++ size.bytes
    | none => []) ++ value

/-- `get_empty_buffer_val`, `protocol.encode.rs` L32-34. -/
def getEmptyBufferVal (id : Option UInt16) : Bytes := getValueBuffer id (.u8 0) []

/-- Concatenated encodings of the items of a `Vec<number>` / `Vec<bool>`:
`protocol.encode.rs` L223-331 and L345-355. -/
def encPlain {α : Type} (f : α → Bytes) (xs : List α) : Bytes := xs.flatMap f

/-- Items of a `Vec<String>` (prefix 4), `Vec<struct>` and `Vec<enum>` (prefix 8), each behind
its length: `protocol.encode.rs` L333-343, L357-375 and L67-85. The first item that fails to
encode ends the loop with its error. -/
def encPrefixed {α : Type} (prefixLen : Nat) (f : α → Res Bytes) : List α → Res Bytes
  | [] => .ok []
  | x :: xs => do
    let b ← f x
    let tl ← encPrefixed prefixLen f xs
    pure (leBytes prefixLen b.length ++ b ++ tl)

/-- Byte of a `bool`, `protocol.encode.rs` L193-202, L350. -/
def boolByte (b : Bool) : Bytes := [if b then 1 else 0]

mutual
/-- Body bytes of one element together with its `ESize`
(`get_buf_to_store` of the element types): numbers `protocol.encode.rs` L94-192, bool L193-202,
String L204-209, struct L211-221, enum L55-65. -/
def Elem.enc : (e : Elem) → e.Val → Res (ESize × Bytes)
  | .num n, v => .ok (.u8 n.size, leBytes n.size v.val)
  | .bool, v => .ok (.u8 1, boolByte v)
  | .str, v => .ok (.u64 (utf8 v).length, utf8 v)
  | .struct fs, v => do
    let buf ← Fields.enc fs v
    pure (.u64 buf.length, buf)
  | .enum vs, v => do
    -- `abduct` of the generated enum, `rust/mod.rs` L386-437; `Defaults` falls into `_ => Err`
    match v with
    | none => .err
    | some w =>
      let buf ← Variants.enc vs 0 w
      pure (.u64 buf.length, buf)
/-- Body bytes of a repeated element (`Vec<T>`): numbers `protocol.encode.rs` L223-331, bool
L345-355, String L333-343, struct L357-375, enum L67-85. -/
def Elem.encVec : (e : Elem) → List e.Val → Res (ESize × Bytes)
  | .num n, vs => .ok (.u64 (vs.length * n.size), encPlain (fun v => leBytes n.size v.val) vs)
  | .bool, vs => .ok (.u64 (vs.length * 1), encPlain boolByte vs)
  | .str, vs => do
    let buf ← encPrefixed 4 (fun v => .ok (utf8 v)) vs
    pure (.u64 buf.length, buf)
  | .struct fs, vs => do
    let buf ← encPrefixed 8 (Fields.enc fs) vs
    pure (.u64 buf.length, buf)
  | .enum ws, vs => do
    let buf ← encPrefixed 8 (fun v => match v with
      | none => .err
      | some w => Variants.enc ws 0 w) vs
    pure (.u64 buf.length, buf)
/-- `abduct` of a generated struct: the records of all fields in declaration order
(`rust/mod.rs` L176-254); optional fields go through `impl Encode for Option`
(`protocol.encode.rs` L377-387), optional enums through the same logic printed inline
(`rust/mod.rs` L186-233). -/
def Fields.enc : (fs : Fields) → fs.Val → Res Bytes
  | .nil, _ => .ok []
  | .cons id e rep opt rest, v => do
    let hd ← (match rep, opt, v with
      | false, false, (x, _) => do
        let r ← Elem.enc e x
        pure (getValueBuffer (some id) r.1 r.2)
      | true, false, (x, _) => do
        let r ← Elem.encVec e x
        pure (getValueBuffer (some id) r.1 r.2)
      | false, true, (some x, _) => do
        let r ← Elem.enc e x
        pure (getValueBuffer (some id) r.1 r.2)
      | true, true, (some x, _) => do
        let r ← Elem.encVec e x
        pure (getValueBuffer (some id) r.1 r.2)
      | false, true, (none, _) => pure (getEmptyBufferVal (some id))
      | true, true, (none, _) => pure (getEmptyBufferVal (some id)))
    let tl ← Fields.enc rest v.2
    pure (hd ++ tl)
/-- `abduct` of a generated enum: variant index as `u16`, then `v.encode()`
(`rust/mod.rs` L390-437). `i` is the position of the first variant of the list. -/
def Variants.enc : (vs : Variants) → Nat → vs.Val → Res Bytes
  | .cons e false _, i, .inl x => do
    let r ← Elem.enc e x
    pure (leBytes 2 i ++ getValueBuffer none r.1 r.2)
  | .cons e true _, i, .inl x => do
    let r ← Elem.encVec e x
    pure (leBytes 2 i ++ getValueBuffer none r.1 r.2)
  | .cons _ _ rest, i, .inr y => Variants.enc rest (i + 1) y
end

/-- The property map of a body, most recent record first (`HashMap<u16, Vec<u8>>`,
`protocol.storage.rs` L9-11). -/
abbrev Storage := List (UInt16 × Bytes)

/-- `Storage::get`, `protocol.storage.rs` L125-127. Records inserted later win
(`HashMap::insert`, L31). -/
def Storage.get (s : Storage) (id : UInt16) : Option Bytes := s.lookup id

/-- Number of length bytes for a rank, `protocol.storage.rs` L67-103. -/
def rankLen (rank : Nat) : Option Nat :=
  if rank = 8 then some 1
  else if rank = 16 then some 2
  else if rank = 32 then some 4
  else if rank = 64 then some 8
  else none

/-- `Storage::next` on the bytes from the current position on: id (`protocol.storage.rs`
L45-54), rank, length and body (L56-113). Returns the record and the remaining bytes.
`get_u16_le`, `get_u8` … panic when too few bytes are left; the slice of L106-107 panics when
the body is longer than the buffer (for lengths so large that the sum overflows `usize` the
addition, the allocation at L104 or the slice panics). -/
def storageNext (buf : Bytes) : Res ((UInt16 × Bytes) × Bytes) :=
  if buf.length < 2 then .panic
  else
    let id := UInt16.ofNat (leNat (buf.take 2))
    match buf.drop 2 with
    | [] => .panic
    | rank :: buf2 =>
      match rankLen rank.toNat with
      | none => .err
      | some k =>
        if buf2.length < k then .panic
        else
          let len := leNat (buf2.take k)
          let buf3 := buf2.drop k
          if buf3.length < len then .panic
          else .ok ((id, buf3.take len), buf3.drop len)

/-- The loop of `Storage::new`, `protocol.storage.rs` L27-40. `fuel` bounds the number of
records; every record has at least four bytes, so the length of the buffer is enough. -/
def storageLoop : Nat → Storage → Bytes → Res Storage
  | 0, acc, _ => .ok acc
  | fuel + 1, acc, buf =>
    match storageNext buf with
    | .ok (r, rest) => if rest.isEmpty then .ok (r :: acc) else storageLoop fuel (r :: acc) rest
    | .err => .err
    | .panic => .panic

/-- `Storage::new`, `protocol.storage.rs` L19-43. -/
def storageNew (buf : Bytes) : Res Storage :=
  if buf.isEmpty then .ok [] else storageLoop buf.length [] buf

/-- Numbers: `protocol.decode.rs` L141-279. Too short is an error, extra bytes are ignored. -/
def decNum (n : Num) (buf : Bytes) : Res (Fin (256 ^ n.size)) :=
  if h : buf.length < n.size then .err
  else .ok ⟨leNat (buf.take n.size), by
    have := leNat_lt (buf.take n.size)
    simpa [Nat.min_eq_left (Nat.le_of_not_lt h)] using this⟩

/-- `bool`: `protocol.decode.rs` L281-293. -/
def decBool : Bytes → Res Bool
  | [] => .err
  | b :: _ => .ok (b != 0)

/-- `Vec<number>`: `protocol.decode.rs` L328-538. `fuel` bounds the number of items. -/
def decNumVec (n : Num) : Nat → Bytes → Res (List (Fin (256 ^ n.size)))
  | 0, _ => .ok []
  | fuel + 1, buf =>
    if buf.isEmpty then .ok []
    else if buf.length < n.size then .err
    else do
      let x ← decNum n buf
      let xs ← decNumVec n fuel (buf.drop n.size)
      pure (x :: xs)

/-- `Vec<bool>`: `protocol.decode.rs` L540-556. -/
def decBoolVec (buf : Bytes) : List Bool := buf.map (fun b => b != 0)

/-- Loop over length prefixed items: `Vec<String>` `protocol.decode.rs` L558-589 (prefix 4),
`Vec<struct>` L591-638 and `Vec<enum>` L77-116 (prefix 8). `PREFIX + item_len as usize`
overflows `usize` for hostile lengths: a panic in debug builds; in release builds the check is
passed with a wrapped sum and the allocation of `item_len` bytes panics. `fuel` bounds the
number of items. -/
def decPrefixed {α : Type} (prefixLen : Nat) (f : Bytes → Res α) : Nat → Bytes → Res (List α)
  | 0, _ => .ok []
  | fuel + 1, buf =>
    if buf.isEmpty then .ok []
    else if buf.length < prefixLen then .err
    else
      let len := leNat (buf.take prefixLen)
      if prefixLen + len ≥ 2 ^ 64 then .panic
      else if buf.length < prefixLen + len then .err
      else do
        let x ← f ((buf.drop prefixLen).take len)
        let xs ← decPrefixed prefixLen f fuel (buf.drop (prefixLen + len))
        pure (x :: xs)

mutual
/-- `decode` of one element from its body bytes: numbers, bool, String
(`protocol.decode.rs` L295-303), struct (L305-326), enum (`extract`, `rust/mod.rs` L300-365). -/
def Elem.dec : (e : Elem) → Bytes → Res e.Val
  | .num n, buf => decNum n buf
  | .bool, buf => decBool buf
  | .str, buf => .ok (lossy buf)
  | .struct fs, buf => do
    let s ← storageNew buf
    Fields.dec fs s
  | .enum vs, buf =>
    if buf.length ≤ 2 then .err
    else do
      let w ← Variants.dec vs (leNat (buf.take 2)) (buf.drop 2)
      pure (some w)
/-- `decode` of a repeated element: `protocol.decode.rs` L328-638, L77-116. -/
def Elem.decVec : (e : Elem) → Bytes → Res (List e.Val)
  | .num n, buf => decNumVec n buf.length buf
  | .bool, buf => .ok (decBoolVec buf)
  | .str, buf => decPrefixed 4 (fun b => .ok (lossy b)) buf.length buf
  | .struct fs, buf => decPrefixed 8 (fun b => do
      let s ← storageNew b
      Fields.dec fs s) buf.length buf
  | .enum vs, buf => decPrefixed 8 (fun b =>
      if b.length ≤ 2 then .err
      else do
        let w ← Variants.dec vs (leNat (b.take 2)) (b.drop 2)
        pure (some w)) buf.length buf
/-- `extract_from_storage` of a generated struct (`rust/mod.rs` L92-153): every field is read
from the record with its id, a missing record is an error (`protocol.decode.rs` L149-151 and
alike), an empty record of an optional field is `None` (`protocol.decode.rs` L640-658,
`rust/mod.rs` L98-133). -/
def Fields.dec : (fs : Fields) → Storage → Res fs.Val
  | .nil, _ => .ok ()
  | .cons id e rep opt rest, s =>
    match s.get id with
    | none => .err
    | some buf => do
      let x ← (match rep, opt with
        | false, false => Elem.dec e buf
        | true, false => Elem.decVec e buf
        | false, true => if buf.isEmpty then pure none else do
            let y ← Elem.dec e buf
            pure (some y)
        | true, true => if buf.isEmpty then pure none else do
            let y ← Elem.decVec e buf
            pure (some y) : Res (Opt (Rep e.Val rep) opt))
      let xs ← Fields.dec rest s
      pure (x, xs)
/-- The `match index` of a generated enum's `extract` (`rust/mod.rs` L334-364). -/
def Variants.dec : (vs : Variants) → Nat → Bytes → Res vs.Val
  | .nil, _, _ => .err
  | .cons e false _, 0, buf => do
    let x ← Elem.dec e buf
    pure (.inl x)
  | .cons e true _, 0, buf => do
    let x ← Elem.decVec e buf
    pure (.inl x)
  | .cons _ _ rest, i + 1, buf => do
    let y ← Variants.dec rest i buf
    pure (.inr y)
end

/-- `StructEncode::abduct` / `encode()` of a message struct. -/
def encode (fs : Fields) (v : fs.Val) : Res Bytes := Fields.enc fs v

/-- `StructDecode::extract` of a message struct, `protocol.decode.rs` L19-31. -/
def decode (fs : Fields) (buf : Bytes) : Res fs.Val := do
  let s ← storageNew buf
  Fields.dec fs s

/-- `EnumEncode::abduct` of a message enum. -/
def encodeEnum (vs : Variants) (v : Option vs.Val) : Res Bytes :=
  match v with
  | none => .err
  | some w => Variants.enc vs 0 w

/-- `EnumDecode::extract` of a message enum, `rust/mod.rs` L300-365. -/
def decodeEnum (vs : Variants) (buf : Bytes) : Res (Option vs.Val) :=
  if buf.length ≤ 2 then .err
  else do
    let w ← Variants.dec vs (leNat (buf.take 2)) (buf.drop 2)
    pure (some w)

end Verif.Rust
