/-!
Byte strings, little-endian integers and the outcome type shared by all models
of generated Rust code.
-/
namespace Verif

/-- A byte buffer: Rust `Vec<u8>` / `&[u8]`, or a JavaScript `Buffer`. -/
abbrev Bytes := List UInt8

/-- Outcome of a Rust call: `Ok`, `Err` or a panic.
Simplification: the text of `Err` messages is not kept. -/
inductive Res (α : Type) where
  | ok (a : α)
  | err
  | panic
  deriving DecidableEq, Repr

namespace Res

def bind {α β : Type} : Res α → (α → Res β) → Res β
  | ok a, f => f a
  | err, _ => err
  | panic, _ => panic

instance : Monad Res where
  pure := ok
  bind := bind

/-- The call returned normally with a value. -/
def isOk {α : Type} : Res α → Bool
  | ok _ => true
  | _ => false

@[simp] theorem pure_eq {α : Type} (a : α) : (pure a : Res α) = ok a := rfl
@[simp] theorem ok_bind {α β : Type} (a : α) (f : α → Res β) : (ok a >>= f) = f a := rfl
@[simp] theorem err_bind {α β : Type} (f : α → Res β) : ((err : Res α) >>= f) = err := rfl
@[simp] theorem panic_bind {α β : Type} (f : α → Res β) : ((panic : Res α) >>= f) = panic := rfl
@[simp] theorem isOk_ok {α : Type} (a : α) : (ok a).isOk = true := rfl
@[simp] theorem isOk_err {α : Type} : (err : Res α).isOk = false := rfl
@[simp] theorem isOk_panic {α : Type} : (panic : Res α).isOk = false := rfl

theorem bind_eq_ok {α β : Type} {x : Res α} {f : α → Res β} {b : β} :
    (x >>= f) = ok b ↔ ∃ a, x = ok a ∧ f a = ok b := by
  cases x <;> simp

theorem bind_eq_panic {α β : Type} {x : Res α} {f : α → Res β} :
    (x >>= f) = panic ↔ x = panic ∨ ∃ a, x = ok a ∧ f a = panic := by
  cases x <;> simp

end Res

/-- `to_le_bytes` of an `n` byte unsigned integer: the low `n` bytes of `v`, least
significant first (`as uN` truncation included).
Models `x.to_le_bytes()` as used in
`cli/src/protocol/render/rust/static/protocol.encode.rs` L8-24 and L94-202. -/
def leBytes : Nat → Nat → Bytes
  | 0, _ => []
  | n + 1, v => UInt8.ofNat (v % 256) :: leBytes n (v / 256)

/-- The unsigned integer stored little-endian in a byte string.
Models `bytes::Buf::get_u16_le/get_u32_le/get_u64_le` as used in
`protocol.decode.rs`, `protocol.storage.rs` L52-98 and `protocol.packing.rs` L75-83. -/
def leNat : Bytes → Nat
  | [] => 0
  | b :: bs => b.toNat + 256 * leNat bs

@[simp] theorem length_leBytes (n v : Nat) : (leBytes n v).length = n := by
  induction n generalizing v with
  | zero => rfl
  | succ n ih => simp [leBytes, ih]

theorem leNat_leBytes (n v : Nat) : leNat (leBytes n v) = v % 256 ^ n := by
  induction n generalizing v with
  | zero => simp [leBytes, leNat, Nat.mod_one]
  | succ n ih =>
    simp only [leBytes, leNat, ih]
    have h1 : (UInt8.ofNat (v % 256)).toNat = v % 256 := by
      simp [UInt8.toNat_ofNat']
    rw [h1, Nat.pow_succ, Nat.mul_comm (256 ^ n) 256, Nat.mod_mul]

theorem leNat_leBytes_of_lt {n v : Nat} (h : v < 256 ^ n) : leNat (leBytes n v) = v := by
  rw [leNat_leBytes, Nat.mod_eq_of_lt h]

theorem leNat_lt (bs : Bytes) : leNat bs < 256 ^ bs.length := by
  induction bs with
  | nil => simp [leNat]
  | cons b bs ih =>
    simp only [leNat, List.length_cons, Nat.pow_succ]
    have := b.toNat_lt
    omega

theorem leBytes_leNat (bs : Bytes) : leBytes bs.length (leNat bs) = bs := by
  induction bs with
  | nil => rfl
  | cons b bs ih =>
    have hb := b.toNat_lt
    simp only [List.length_cons, leBytes, leNat]
    have h1 : (b.toNat + 256 * leNat bs) % 256 = b.toNat := by omega
    have h2 : (b.toNat + 256 * leNat bs) / 256 = leNat bs := by omega
    rw [h1, h2, ih]
    simp

theorem leBytes_inj {n v w : Nat} (hv : v < 256 ^ n) (hw : w < 256 ^ n)
    (h : leBytes n v = leBytes n w) : v = w := by
  have := congrArg leNat h
  rwa [leNat_leBytes_of_lt hv, leNat_leBytes_of_lt hw] at this

end Verif
