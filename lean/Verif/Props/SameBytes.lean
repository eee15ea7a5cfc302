import Verif.Proofs.RustStorage
import Verif.Proofs.TsCodec
import Verif.Spec.SameBytes
set_option autoImplicit false
/-!
Property theorems about bytes that did not come from generated encoders: C186 (sizes) and C187 (the same bytes in both
languages).
-/
namespace Verif.Props

open Verif Verif.Spec

theorem leNat_littleEndian (b : Bytes) : leNat b = littleEndian b := by
  induction b with
  | nil => rfl
  | cons x b ih => simp only [leNat, littleEndian, List.foldr_cons] at ih ⊢; rw [ih]

/-! ### C186 -/

/-- A struct with one field of type `u8`, and one of type `bool`. -/
def oneByte : Fields := .cons 1 (.num .u8) false false .nil

def oneBool : Fields := .cons 1 .bool false false .nil

/-- **C186** (violated) Rust reads a message with a field of type `u8` from a record with two bytes, and ignores the second;
so two different records are the same number. TypeScript refuses this record, but reads a boolean from any byte. -/
theorem C186_sizes_violated :
    Rust.decode oneByte [1, 0, 8, 2, 7, 9] = .ok (⟨7, by decide⟩, ()) ∧ Rust.decode oneByte [1, 0, 8, 1, 7] = .ok (⟨7, by decide⟩, ()) ∧
    Ts.decode oneByte [1, 0, 8, 2, 7, 9] = .err ∧
    Ts.decode oneBool [1, 0, 8, 1, 7] = .ok (false, ()) ∧ Ts.decode oneBool [1, 0, 8, 1, 0] = .ok (false, ()) :=
  ⟨rfl, rfl, rfl, rfl, rfl⟩

/-- **C186** (partial) Full statement: numbers and booleans are decoded only from exactly the bytes that stand for them.
Proved: TypeScript decodes numbers from exactly their bytes, and booleans from exactly one byte; Rust decodes numbers
from bytes that begin with theirs, and booleans from at least one byte. Missing: the rest of the bytes in Rust and the
values of bytes of booleans (`C186_sizes_violated`). -/
theorem C186_sizes_partial (n : Num) (b : Bytes) :
    (∀ x, Ts.Elem.dec (.num n) b = .ok x ↔ b.length = n.size ∧ littleEndian b = x.val) ∧
    (∀ x, Rust.Elem.dec (.num n) b = .ok x ↔ n.size ≤ b.length ∧ littleEndian (b.take n.size) = x.val) ∧
    (∀ x, Ts.Elem.dec .bool b = .ok x ↔ ∃ c, b = [c] ∧ (x = true ↔ c = 1)) ∧
    (∀ x, Rust.Elem.dec .bool b = .ok x ↔ ∃ c r, b = c :: r ∧ (x = true ↔ c ≠ 0)) := by
  refine ⟨fun x => ?_, fun x => ?_, fun x => ?_, fun x => ?_⟩
  · simp only [Ts.Elem.dec, Ts.decNum, ← leNat_littleEndian]
    split
    · rename_i h
      simp only [Res.ok.injEq, h, true_and]
      exact ⟨fun e => by rw [← e], fun e => Fin.ext e⟩
    · rename_i h
      simp [h]
  · simp only [Rust.Elem.dec, Rust.decNum, ← leNat_littleEndian]
    split
    · rename_i h
      exact ⟨(fun e => nomatch e), fun e => absurd e.1 (by omega)⟩
    · rename_i h
      simp only [Res.ok.injEq, Nat.le_of_not_lt h, true_and]
      exact ⟨fun e => by rw [← e], fun e => Fin.ext e⟩
  · simp only [Ts.Elem.dec]
    match b with
    | [] => simp [Ts.decBool]
    | [c] =>
      simp only [Ts.decBool, Res.ok.injEq, List.cons.injEq, and_true]
      refine ⟨fun e => ⟨c, rfl, by rw [← e]; simp⟩, ?_⟩
      rintro ⟨_, rfl, h⟩
      by_cases hc : c = 1
      · rw [h.2 hc]; simp [hc]
      · have : x = false := by cases x <;> simp_all
        rw [this]; simp [hc]
    | _ :: _ :: _ => simp [Ts.decBool]
  · simp only [Rust.Elem.dec]
    match b with
    | [] => simp [Rust.decBool]
    | c :: r =>
      simp only [Rust.decBool, Res.ok.injEq, List.cons.injEq]
      refine ⟨fun e => ⟨c, r, ⟨rfl, rfl⟩, by rw [← e]; simp⟩, ?_⟩
      rintro ⟨_, _, ⟨rfl, rfl⟩, h⟩
      by_cases hc : c = 0
      · have : x = false := by cases x <;> simp_all
        rw [this]; simp [hc]
      · rw [h.2 hc]; simp [hc]

example : Ts.Elem.dec (.num .u16) [1, 2] = .ok ⟨513, by decide⟩ ∧ Rust.Elem.dec (.num .u16) [1, 2, 3] = .ok ⟨513, by decide⟩ := ⟨rfl, rfl⟩

/-! ### C187 -/

/-- **C187** (violated) Both languages accept these bytes as a message with a boolean. Rust says that it is true, TypeScript
says that it is false. -/
theorem C187_same_bytes_violated :
    Rust.decode oneBool [1, 0, 8, 1, 2] = .ok (true, ()) ∧ Ts.decode oneBool [1, 0, 8, 1, 2] = .ok (false, ()) := ⟨rfl, rfl⟩

theorem byte_bool {x : UInt8} (h : x = 0 ∨ x = 1) : (x != 0) = (x == 1) := by
  rcases h with rfl | rfl <;> rfl

theorem numbers_agree (n : Num) (fuel : Nat) (b : Bytes) : Rust.decNumVec n fuel b = Ts.decNumArray n fuel b := by
  induction fuel generalizing b with
  | zero => rfl
  | succ fuel ih =>
    simp only [Rust.decNumVec, Ts.decNumArray]
    split
    · rfl
    · split
      · rfl
      · rename_i h
        rw [ih]
        have h1 : ¬ b.length < n.size := h
        have h2 : (b.take n.size).length = n.size := by simp; omega
        simp only [Rust.decNum, h1, dif_neg, not_false_eq_true, Ts.decNum, h2, dif_pos]

theorem bind_ok {α β : Type} {r : Res α} {f : α → Res β} {y : β} (h : (r >>= f) = .ok y) : ∃ x, r = .ok x ∧ f x = .ok y := by
  cases r with
  | ok x => exact ⟨x, rfl, h⟩
  | err => cases h
  | panic => cases h

/-- Complete items are read by both languages in the same way. -/
theorem items_agree {α : Type} {k : Nat} (f g : Bytes → Res α) : ∀ (items : List Bytes) (first : Bool) (fuel : Nat) (xs : List α),
    (∀ i ∈ items, i.length < 256 ^ k ∧ k + i.length < 2 ^ 64 ∧ ∀ x, f i = .ok x → g i = .ok x) →
    Ts.decItems k f first fuel (itemsBytes k items) = .ok xs → Rust.decPrefixed k g fuel (itemsBytes k items) = .ok xs
  | [], first, fuel, xs, _, h => by
    cases fuel <;> simpa [Ts.decItems, Rust.decPrefixed, itemsBytes] using h
  | i :: items, first, 0, xs, _, h => by
    rw [Ts.decItems] at h
    rw [Rust.decPrefixed]
    exact h
  | i :: items, first, fuel + 1, xs, hi, h => by
    have he : itemsBytes k (i :: items) = leBytes k i.length ++ (i ++ itemsBytes k items) := by simp [itemsBytes]
    obtain ⟨h1, h2, h3⟩ := hi i (by simp)
    rw [he] at h ⊢
    rw [Ts.decItems] at h
    rw [Rust.decPrefixed]
    split at h
    · rename_i hb
      rw [if_pos hb]
      exact h
    · rename_i hb
      rw [if_neg hb]
      rw [if_neg (by simp)] at h ⊢
      simp only [List.take_left' (length_leBytes k i.length), List.drop_left' (length_leBytes k i.length),
        leNat_leBytes_of_lt h1, List.take_left' rfl] at h ⊢
      rw [if_neg (by omega), if_neg (by simp)]
      rw [← List.append_assoc, List.drop_left' (by simp)] at h ⊢
      obtain ⟨x, hx, h⟩ := bind_ok h
      obtain ⟨ys, hys, h⟩ := bind_ok h
      rw [h3 x hx]
      simp only [Res.ok_bind]
      rw [items_agree f g items false fuel ys (fun j hj => hi j (by simp [hj])) hys]
      exact h

theorem isLast_mem {rs : List WireRec} {id : UInt16} {r : WireRec} (h : IsLast rs id r) : r ∈ rs ∧ r.id = id := by
  obtain ⟨before, after, rfl, h, _⟩ := h
  exact ⟨by simp, h⟩

/-- Both languages find the same record. -/
theorem records_agree (rs : List WireRec) (hr : ∀ r ∈ rs, r.id.toNat < 256) {id : UInt16} {b : Bytes}
    (h : Ts.Storage.get ((rs.map Ts.recPair).reverse) id.toNat = some b) :
    Rust.Storage.get ((rs.map Rust.recPair).reverse) id = some b ∧ ∃ r, IsLast rs id r ∧ r.body = b := by
  unfold Ts.Storage.get at h
  unfold Rust.Storage.get
  rw [← List.map_reverse] at h ⊢
  have hr2 : ∀ r ∈ rs.reverse, r.id.toNat < 256 := fun r k => hr r (List.mem_reverse.1 k)
  have key : ∀ l : List WireRec, (∀ r ∈ l, r.id.toNat < 256) → (l.map Ts.recPair).lookup id.toNat = some b →
      (l.map Rust.recPair).lookup id = some b ∧ ∃ r before after, l = after ++ r :: before ∧ r.id = id ∧ (∀ q ∈ after, q.id ≠ id) ∧ r.body = b := by
    intro l
    induction l with
    | nil => intro _ k; simp at k
    | cons r l ih =>
      intro hl k
      have h1 : r.id.toNat % 256 = r.id.toNat := Nat.mod_eq_of_lt (hl r (by simp))
      simp only [List.map_cons, Ts.recPair, Rust.recPair, List.lookup_cons, h1] at k ⊢
      by_cases e : id = r.id
      · subst e
        simp only [beq_self_eq_true] at k ⊢
        cases k
        exact ⟨rfl, r, l, [], rfl, rfl, by simp, rfl⟩
      · have e1 : (id == r.id) = false := by simpa using e
        have e2 : (id.toNat == r.id.toNat) = false := by
          rw [beq_eq_false_iff_ne]
          exact fun q => e (UInt16.toNat_inj.1 q)
        rw [e2] at k
        rw [e1]
        obtain ⟨k1, r', before, after, k2, k3, k4, k5⟩ := ih (fun r h => hl r (by simp [h])) k
        refine ⟨k1, r', before, r :: after, by rw [k2]; rfl, k3, fun q hq => ?_, k5⟩
        rcases List.mem_cons.1 hq with rfl | hq
        · exact fun k => e k.symm
        · exact k4 q hq
  obtain ⟨k1, r, before, after, k2, k3, k4, k5⟩ := key _ hr2 h
  refine ⟨k1, r, ⟨before.reverse, after.reverse, ?_, k3, fun q hq => k4 q (List.mem_reverse.1 hq)⟩, k5⟩
  rw [← List.reverse_reverse rs, k2]
  simp

mutual
theorem one_agrees : ∀ (e : Elem) b, CleanBody e b → ∀ x, Ts.Elem.dec e b = .ok x → Rust.Elem.dec e b = .ok x
  | .num n, b, _, x, h => by
    obtain ⟨h1, h2⟩ := ((C186_sizes_partial n b).1 x).1 h
    exact ((C186_sizes_partial n b).2.1 x).2 ⟨Nat.le_of_eq h1.symm, by rw [List.take_of_length_le (Nat.le_of_eq h1)]; exact h2⟩
  | .bool, b, hc, x, h => by
    rw [CleanBody] at hc
    obtain ⟨c, rfl, h2⟩ := ((C186_sizes_partial .u8 b).2.2.1 x).1 h
    refine ((C186_sizes_partial .u8 [c]).2.2.2 x).2 ⟨c, [], rfl, h2.trans ?_⟩
    rcases hc c (by simp) with rfl | rfl <;> decide
  | .str, b, hc, x, h => by
    rw [CleanBody] at hc
    rw [Ts.Elem.dec, Ts.decStr, if_neg] at h
    · rw [Rust.Elem.dec]; exact h
    · intro k
      exact hc (k ▸ List.take_prefix 3 b)
  | .struct fs, b, hc, x, h => by
    rw [CleanBody] at hc
    obtain ⟨rs, rfl, h1, h2⟩ := hc
    rw [Ts.Elem.dec, Ts.getStorage_wire rs (fun r k => (h1 r k).1)] at h
    rw [Rust.Elem.dec, Rust.storageNew_wire rs (fun r k => (h1 r k).1)]
    exact fields_agree fs rs (fun r k => (h1 r k).2) h2 x h
  | .enum vs, b, hc, x, h => by
    rw [CleanBody, ← leNat_littleEndian] at hc
    have h0 : b.isEmpty = false := by cases b with
      | nil => exact absurd hc.1 (by simp)
      | cons => rfl
    rw [Ts.Elem.dec, h0, if_neg (by simp), if_neg (by omega)] at h
    rw [Rust.Elem.dec, if_neg (by omega)]
    obtain ⟨w, hw, h⟩ := bind_ok h
    rw [options_agree vs _ _ hc.2 w hw]
    exact h
theorem many_agree : ∀ (e : Elem) b, CleanArray e b → ∀ x, Ts.Elem.decArray e b = .ok x → Rust.Elem.decVec e b = .ok x
  | .num n, b, _, x, h => by
    rw [Rust.Elem.decVec, numbers_agree]
    rw [Ts.Elem.decArray] at h
    exact h
  | .bool, b, hc, x, h => by
    rw [Rust.Elem.decVec]
    rw [Ts.Elem.decArray] at h
    rw [← h]
    simp only [Rust.decBoolVec, Ts.decBoolArray, Res.ok.injEq]
    rw [CleanArray] at hc
    exact List.map_congr_left (fun y hy => byte_bool (hc y hy))
  | .str, b, hc, x, h => by
    rw [CleanArray] at hc
    obtain ⟨items, rfl, hi⟩ := hc
    rw [Ts.Elem.decArray] at h
    rw [Rust.Elem.decVec]
    refine items_agree _ _ items true _ x (fun i k => ⟨(hi i k).1, by have := (hi i k).1; omega, fun y hy => ?_⟩) h
    have hn : ¬ i.take 3 = [0xEF, 0xBB, 0xBF] := fun k' => (hi i k).2 (k' ▸ List.take_prefix 3 i)
    rw [Ts.decStr, if_neg hn] at hy
    exact hy
  | .struct fs, b, hc, x, h => by
    rw [CleanArray] at hc
    obtain ⟨items, rfl, hi⟩ := hc
    rw [Ts.Elem.decArray] at h
    rw [Rust.Elem.decVec]
    refine items_agree _ _ items true _ x (fun i k => ⟨by have := (hi i k).1; omega, by have := (hi i k).1; omega, fun y hy => ?_⟩) h
    obtain ⟨rs, rfl, h1, h2⟩ := (hi i k).2
    rw [Ts.getStorage_wire rs (fun r k => (h1 r k).1)] at hy
    rw [Rust.storageNew_wire rs (fun r k => (h1 r k).1)]
    exact fields_agree fs rs (fun r k => (h1 r k).2) h2 y hy
  | .enum vs, b, _, x, h => by
    rw [Ts.Elem.decArray] at h
    cases h
theorem options_agree : ∀ (vs : Variants) i b, CleanOption vs i b → ∀ w, Ts.Variants.dec vs i b = .ok w →
    Rust.Variants.dec vs i b = .ok w
  | .nil, _, _, _, _, h => by
    rw [Ts.Variants.dec] at h
    cases h
  | .cons e rep rest, 0, b, hc, w, h => by
    rw [CleanOption] at hc
    have hone' := fun k => one_agrees e b (hc.1 k)
    have hm : rep = true → ∀ y, Ts.Elem.decArray e b = .ok y → Rust.Elem.decVec e b = .ok y :=
      fun k => many_agree e b (hc.2 k)
    cases rep with
    | false =>
      have hone := hone' rfl
      rw [Rust.Variants.dec]
      cases e with
      | num n =>
        rw [Ts.Variants.dec] at h
        obtain ⟨x, hx, h⟩ := bind_ok h
        rw [hone x (by rw [Ts.Elem.dec]; exact hx)]
        exact h
      | bool =>
        rw [Ts.Variants.dec] at h
        obtain ⟨x, hx, h⟩ := bind_ok h
        rw [hone x (by rw [Ts.Elem.dec]; exact hx)]
        exact h
      | str =>
        rw [Ts.Variants.dec] at h
        rw [hone _ (by rw [Ts.Elem.dec])]
        exact h
      | struct fs =>
        rw [Ts.Variants.dec] at h
        obtain ⟨s, hs, h⟩ := bind_ok h
        obtain ⟨x, hx, h⟩ := bind_ok h
        rw [hone x (by rw [Ts.Elem.dec, hs]; exact hx)]
        exact h
      | enum vs =>
        rw [Ts.Variants.dec] at h
        cases h
    | true =>
      rw [Rust.Variants.dec]
      cases e with
      | num n =>
        rw [Ts.Variants.dec] at h
        obtain ⟨x, hx, h⟩ := bind_ok h
        rw [hm rfl x (by rw [Ts.Elem.decArray]; exact hx)]
        exact h
      | bool =>
        rw [Ts.Variants.dec] at h
        rw [hm rfl _ (by rw [Ts.Elem.decArray])]
        exact h
      | str =>
        rw [Ts.Variants.dec] at h
        obtain ⟨x, hx, h⟩ := bind_ok h
        rw [hm rfl x (by rw [Ts.Elem.decArray]; exact hx)]
        exact h
      | struct fs =>
        rw [Ts.Variants.dec] at h
        cases h
      | enum vs =>
        rw [Ts.Variants.dec] at h
        cases h
  | .cons e rep rest, i + 1, b, hc, w, h => by
    rw [CleanOption] at hc
    rw [Ts.Variants.dec] at h
    rw [Rust.Variants.dec]
    obtain ⟨y, hy, h⟩ := bind_ok h
    rw [options_agree rest i b hc y hy]
    exact h
theorem fields_agree : ∀ (fs : Fields) (rs : List WireRec), (∀ r ∈ rs, r.id.toNat < 256) → CleanRecs fs rs → ∀ v,
    Ts.Fields.dec fs ((rs.map Ts.recPair).reverse) = .ok v → Rust.Fields.dec fs ((rs.map Rust.recPair).reverse) = .ok v
  | .nil, _, _, _, v, _ => rfl
  | .cons id e rep opt rest, rs, hr, hc, v, h => by
    rw [CleanRecs] at hc
    rw [Ts.Fields.dec] at h
    rw [Rust.Fields.dec]
    split at h
    · cases h
    · rename_i b hb
      obtain ⟨h1, r, h2, rfl⟩ := records_agree rs hr hb
      rw [h1]
      have hcl := hc.1 r h2
      obtain ⟨x, hx, h⟩ := bind_ok h
      obtain ⟨xs, hxs, h⟩ := bind_ok h
      have ih := fields_agree rest rs hr hc.2 xs hxs
      have hone := fun q k => one_agrees e r.body ((hcl.resolve_left q).1 k)
      have hm := fun q k => many_agree e r.body ((hcl.resolve_left q).2 k)
      dsimp only
      cases rep with
      | false =>
        cases opt with
        | false =>
          dsimp only at hx ⊢
          rw [hone (fun q => nomatch q.1) rfl _ hx]
          simp only [Res.ok_bind, ih]
          exact h
        | true =>
          dsimp only at hx ⊢
          split at hx
          · rename_i k
            rw [if_pos k, hx]
            simp only [Res.ok_bind, ih]
            exact h
          · rename_i k
            rw [if_neg k]
            obtain ⟨y, hy, hx⟩ := bind_ok hx
            rw [hone (fun q => k (by rw [q.2]; rfl)) rfl _ hy]
            simp only [Res.ok_bind]
            rw [hx]
            simp only [Res.ok_bind, ih]
            exact h
      | true =>
        cases opt with
        | false =>
          dsimp only at hx ⊢
          rw [hm (fun q => nomatch q.1) rfl _ hx]
          simp only [Res.ok_bind, ih]
          exact h
        | true =>
          dsimp only at hx ⊢
          split at hx
          · rename_i k
            rw [if_pos k, hx]
            simp only [Res.ok_bind, ih]
            exact h
          · rename_i k
            rw [if_neg k]
            obtain ⟨y, hy, hx⟩ := bind_ok hx
            rw [hm (fun q => k (by rw [q.2]; rfl)) rfl _ hy]
            simp only [Res.ok_bind]
            rw [hx]
            simp only [Res.ok_bind, ih]
            exact h
end

/-- **C187** (partial) Full statement: if programs of both languages accept the same bytes as a message of one type, then it is
the same message. Proved: for all declarations, and for bytes which are complete records with ids below 256 where booleans are
0 or 1, strings do not begin with a byte order mark, options of enums have at least one byte, and items of arrays are complete:
if TypeScript accepts the bytes, Rust accepts them too, and the message is the same. The records may be in any order, have
any of the widths of lengths, repeat, or belong to no field. Missing: other bytes of booleans (`C187_same_bytes_violated`), ids
from 256 on and byte order marks (C18, C19), options without bytes (Rust refuses them), and cut items (C58). -/
theorem C187_same_bytes_partial (fs : Fields) (rs : List WireRec) (hok : ∀ r ∈ rs, r.Ok)
    (hr : ∀ r ∈ rs, r.id.toNat < 256) (hc : CleanRecs fs rs) (v : fs.Val) (h : Ts.decode fs (wire rs) = .ok v) :
    Rust.decode fs (wire rs) = .ok v := by
  unfold Ts.decode at h
  unfold Rust.decode
  rw [Ts.getStorage_wire rs hok] at h
  rw [Rust.storageNew_wire rs hok]
  exact fields_agree fs rs hr hc v h

/-- A number, an array of booleans, an optional string, a struct with a number, an enum, an array of strings, and an array of
structs; the records are in another order, and one belongs to no field. -/
example :
    let fs : Fields := .cons 1 (.num .u16) false false (.cons 2 .bool true false (.cons 3 .str false true
      (.cons 4 (.struct oneByte) false false (.cons 5 (.enum (.cons .str false (.cons (.num .u8) false .nil))) false false
      (.cons 6 .str true false (.cons 7 (.struct oneByte) true false .nil))))))
    let rs : List WireRec := [⟨7, 1, [5, 0, 0, 0, 0, 0, 0, 0, 1, 0, 8, 1, 7]⟩, ⟨6, 2, [1, 0, 0, 0, 98, 0, 0, 0, 0]⟩,
      ⟨5, 1, [1, 0, 6]⟩, ⟨4, 1, [1, 0, 8, 1, 7]⟩, ⟨3, 4, [97]⟩, ⟨9, 1, [5]⟩, ⟨2, 1, [1, 0]⟩, ⟨1, 8, [1, 2]⟩]
    (∀ r ∈ rs, r.Ok) ∧ (∀ r ∈ rs, r.id.toNat < 256) ∧ CleanRecs fs rs ∧
    Ts.decode fs (wire rs) = .ok (⟨513, by decide⟩, [true, false], some ['a'], (⟨7, by decide⟩, ()),
      some (.inr (.inl ⟨6, by decide⟩)), [['b'], []], [(⟨7, by decide⟩, ())], ()) := by
  have hs : ∃ rs : List WireRec, ([1, 0, 8, 1, 7] : Bytes) = wire rs ∧ (∀ r ∈ rs, r.Ok ∧ r.id.toNat < 256) ∧ CleanRecs oneByte rs :=
    ⟨[⟨1, 1, [7]⟩], rfl, by simp [WireRec.Ok], by simp [oneByte, CleanRecs, CleanBody]⟩
  refine ⟨by simp [WireRec.Ok], by decide, ?_, rfl⟩
  simp only [CleanRecs]
  refine ⟨?_, ?_, ?_, ?_, ?_, ?_, ?_, trivial⟩ <;> intro r hl <;> obtain ⟨hr, e⟩ := isLast_mem hl <;>
    simp only [List.mem_cons, List.not_mem_nil, or_false] at hr <;>
    rcases hr with rfl | rfl | rfl | rfl | rfl | rfl | rfl | rfl <;>
    first
    | exact absurd e (by decide)
    | skip
  · exact .inr ⟨fun _ => by simp [CleanBody], fun k => nomatch k⟩
  · exact .inr ⟨(fun k => nomatch k), fun _ => by simp [CleanArray]⟩
  · exact .inr ⟨fun _ => by simp [CleanBody], fun k => nomatch k⟩
  · exact .inr ⟨fun _ => by rw [CleanBody]; exact hs, fun k => nomatch k⟩
  · exact .inr ⟨fun _ => by simp [CleanBody, CleanOption, littleEndian], fun k => nomatch k⟩
  · exact .inr ⟨(fun k => nomatch k), fun _ => by rw [CleanArray]; exact ⟨[[98], []], rfl, by simp⟩⟩
  · exact .inr ⟨(fun k => nomatch k), fun _ => by
      rw [CleanArray]
      exact ⟨[[1, 0, 8, 1, 7]], rfl, fun i k => by
        rw [List.mem_singleton] at k
        subst k
        exact ⟨by decide, hs⟩⟩⟩

end Verif.Props
