import Verif.Props.SameBytes
set_option autoImplicit false
/-!
C188: which bytes both languages accept.
-/
namespace Verif.Props

open Verif Verif.Spec

/-- **C188** (violated) Neither language accepts all that the other accepts: TypeScript refuses a number with a further byte,
and Rust refuses an enum whose option is the empty string. -/
theorem C188_both_accept_violated :
    let option : Fields := .cons 1 (.enum (.cons .str false .nil)) false false .nil
    Rust.decode oneByte [1, 0, 8, 2, 7, 9] = .ok (⟨7, by decide⟩, ()) ∧ Ts.decode oneByte [1, 0, 8, 2, 7, 9] = .err ∧
    Ts.decode option [1, 0, 8, 2, 0, 0] = .ok (some (.inl []), ()) ∧ Rust.decode option [1, 0, 8, 2, 0, 0] = .err :=
  ⟨rfl, rfl, rfl, rfl⟩

/-- Both languages find the same record. -/
theorem records_back (rs : List WireRec) (hr : ∀ r ∈ rs, r.id.toNat < 256) {id : UInt16} {b : Bytes}
    (h : Rust.Storage.get ((rs.map Rust.recPair).reverse) id = some b) :
    Ts.Storage.get ((rs.map Ts.recPair).reverse) id.toNat = some b ∧ ∃ r, IsLast rs id r ∧ r.body = b := by
  unfold Rust.Storage.get at h
  unfold Ts.Storage.get
  rw [← List.map_reverse] at h ⊢
  have hr2 : ∀ r ∈ rs.reverse, r.id.toNat < 256 := fun r k => hr r (List.mem_reverse.1 k)
  have key : ∀ l : List WireRec, (∀ r ∈ l, r.id.toNat < 256) → (l.map Rust.recPair).lookup id = some b →
      (l.map Ts.recPair).lookup id.toNat = some b ∧ ∃ r before after, l = after ++ r :: before ∧ r.id = id ∧ (∀ q ∈ after, q.id ≠ id) ∧ r.body = b := by
    intro l
    induction l with
    | nil => intro _ k; simp at k
    | cons r l ih =>
      intro hl k
      have h1 : r.id.toNat % 256 = r.id.toNat := Nat.mod_eq_of_lt (hl r (by simp))
      simp only [List.map_cons, Ts.recPair, Rust.recPair, List.lookup_cons, h1] at k ⊢
      by_cases e : id = r.id
      · subst e
        simp only [beq_self_eq_true] at k ⊢
        cases k
        exact ⟨rfl, r, l, [], rfl, rfl, by simp, rfl⟩
      · have e1 : (id == r.id) = false := by simpa using e
        have e2 : (id.toNat == r.id.toNat) = false := by
          rw [beq_eq_false_iff_ne]
          exact fun q => e (UInt16.toNat_inj.1 q)
        rw [e1] at k
        rw [e2]
        obtain ⟨k1, r', before, after, k2, k3, k4, k5⟩ := ih (fun r h => hl r (by simp [h])) k
        refine ⟨k1, r', before, r :: after, by rw [k2]; rfl, k3, fun q hq => ?_, k5⟩
        rcases List.mem_cons.1 hq with rfl | hq
        · exact fun k => e k.symm
        · exact k4 q hq
  obtain ⟨k1, r, before, after, k2, k3, k4, k5⟩ := key _ hr2 h
  refine ⟨k1, r, ⟨before.reverse, after.reverse, ?_, k3, fun q hq => k4 q (List.mem_reverse.1 hq)⟩, k5⟩
  rw [← List.reverse_reverse rs, k2]
  simp

/-- Complete items are read by both languages in the same way. -/
theorem items_back {α : Type} {k : Nat} (f g : Bytes → Res α) : ∀ (items : List Bytes) (first : Bool) (fuel : Nat) (xs : List α),
    (∀ i ∈ items, i.length < 256 ^ k ∧ k + i.length < 2 ^ 64 ∧ ∀ x, g i = .ok x → f i = .ok x) →
    Rust.decPrefixed k g fuel (itemsBytes k items) = .ok xs → Ts.decItems k f first fuel (itemsBytes k items) = .ok xs
  | [], first, fuel, xs, _, h => by
    cases fuel <;> simpa [Ts.decItems, Rust.decPrefixed, itemsBytes] using h
  | i :: items, first, 0, xs, _, h => by
    rw [Rust.decPrefixed] at h
    rw [Ts.decItems]
    exact h
  | i :: items, first, fuel + 1, xs, hi, h => by
    have he : itemsBytes k (i :: items) = leBytes k i.length ++ (i ++ itemsBytes k items) := by simp [itemsBytes]
    obtain ⟨h1, h2, h3⟩ := hi i (by simp)
    rw [he] at h ⊢
    rw [Rust.decPrefixed] at h
    rw [Ts.decItems]
    split at h
    · rename_i hb
      rw [if_pos hb]
      exact h
    · rename_i hb
      rw [if_neg hb]
      rw [if_neg (by simp)] at h ⊢
      simp only [List.take_left' (length_leBytes k i.length), List.drop_left' (length_leBytes k i.length),
        leNat_leBytes_of_lt h1, List.take_left' rfl] at h ⊢
      rw [if_neg (by omega), if_neg (by simp)] at h
      rw [← List.append_assoc, List.drop_left' (by simp)] at h ⊢
      obtain ⟨x, hx, h⟩ := bind_ok h
      obtain ⟨ys, hys, h⟩ := bind_ok h
      rw [h3 x hx]
      simp only [Res.ok_bind]
      rw [items_back f g items false fuel ys (fun j hj => hi j (by simp [hj])) hys]
      exact h

mutual
theorem one_back : ∀ (e : Elem) b, CleanBody e b → ExactBody e b → ∀ x, Rust.Elem.dec e b = .ok x → Ts.Elem.dec e b = .ok x
  | .num n, b, _, hx, x, h => by
    rw [ExactBody] at hx
    obtain ⟨_, h2⟩ := ((C186_sizes_partial n b).2.1 x).1 h
    rw [List.take_of_length_le (Nat.le_of_eq hx)] at h2
    exact ((C186_sizes_partial n b).1 x).2 ⟨hx, h2⟩
  | .bool, b, hc, hx, x, h => by
    rw [CleanBody] at hc
    rw [ExactBody] at hx
    obtain ⟨c, r, rfl, h2⟩ := ((C186_sizes_partial .u8 b).2.2.2 x).1 h
    obtain rfl : r = [] := by simpa using hx
    refine ((C186_sizes_partial .u8 [c]).2.2.1 x).2 ⟨c, rfl, h2.trans ?_⟩
    rcases hc c (by simp) with rfl | rfl <;> decide
  | .str, b, hc, _, x, h => by
    rw [CleanBody] at hc
    have hn : ¬ b.take 3 = [0xEF, 0xBB, 0xBF] := fun k => hc (k ▸ List.take_prefix 3 b)
    rw [Ts.Elem.dec, Ts.decStr, if_neg hn]
    rw [Rust.Elem.dec] at h
    exact h
  | .struct fs, b, hc, hx, x, h => by
    rw [CleanBody] at hc
    rw [ExactBody] at hx
    obtain ⟨rs, rfl, h1, h2⟩ := hc
    rw [Rust.Elem.dec, Rust.storageNew_wire rs (fun r k => (h1 r k).1)] at h
    rw [Ts.Elem.dec, Ts.getStorage_wire rs (fun r k => (h1 r k).1)]
    exact fields_back fs rs (fun r k => (h1 r k).2) h2 (hx rs rfl) x h
  | .enum vs, b, hc, hx, x, h => by
    rw [CleanBody, ← leNat_littleEndian] at hc
    rw [ExactBody, ← leNat_littleEndian] at hx
    have h0 : b.isEmpty = false := by cases b with
      | nil => exact absurd hc.1 (by simp)
      | cons => rfl
    have hl := hc.1
    rw [Rust.Elem.dec, if_neg (by omega)] at h
    rw [Ts.Elem.dec, h0, if_neg (by simp), if_neg (by omega)]
    obtain ⟨w, hw, h⟩ := bind_ok h
    rw [options_back vs _ _ hc.2 hx w hw]
    exact h
theorem many_back : ∀ (e : Elem) b, CleanArray e b → ExactArray e b → ∀ x, Rust.Elem.decVec e b = .ok x →
    Ts.Elem.decArray e b = .ok x
  | .num n, b, _, _, x, h => by
    rw [Rust.Elem.decVec, numbers_agree] at h
    rw [Ts.Elem.decArray]
    exact h
  | .bool, b, hc, _, x, h => by
    rw [Rust.Elem.decVec] at h
    rw [Ts.Elem.decArray, ← h]
    simp only [Rust.decBoolVec, Ts.decBoolArray, Res.ok.injEq]
    rw [CleanArray] at hc
    exact List.map_congr_left (fun y hy => (byte_bool (hc y hy)).symm)
  | .str, b, hc, _, x, h => by
    rw [CleanArray] at hc
    obtain ⟨items, rfl, hi⟩ := hc
    rw [Rust.Elem.decVec] at h
    rw [Ts.Elem.decArray]
    refine items_back _ _ items true _ x (fun i k => ⟨(hi i k).1, by have := (hi i k).1; omega, fun y hy => ?_⟩) h
    have hn : ¬ i.take 3 = [0xEF, 0xBB, 0xBF] := fun k' => (hi i k).2 (k' ▸ List.take_prefix 3 i)
    rw [Ts.decStr, if_neg hn]
    exact hy
  | .struct fs, b, hc, hx, x, h => by
    rw [CleanArray] at hc
    rw [ExactArray] at hx
    obtain ⟨items, rfl, hi⟩ := hc
    rw [Rust.Elem.decVec] at h
    rw [Ts.Elem.decArray]
    refine items_back _ _ items true _ x (fun i k => ⟨by have := (hi i k).1; omega, by have := (hi i k).1; omega, fun y hy => ?_⟩) h
    obtain ⟨rs, rfl, h1, h2⟩ := (hi i k).2
    rw [Rust.storageNew_wire rs (fun r k => (h1 r k).1)] at hy
    rw [Ts.getStorage_wire rs (fun r k => (h1 r k).1)]
    exact fields_back fs rs (fun r k => (h1 r k).2) h2 (hx items rfl rs k) y hy
  | .enum vs, b, _, hx, x, h => by
    rw [ExactArray] at hx
    exact hx.elim
theorem options_back : ∀ (vs : Variants) i b, CleanOption vs i b → ExactOption vs i b → ∀ w, Rust.Variants.dec vs i b = .ok w →
    Ts.Variants.dec vs i b = .ok w
  | .nil, _, _, _, _, _, h => by
    rw [Rust.Variants.dec] at h
    cases h
  | .cons e rep rest, 0, b, hc, hx, w, h => by
    rw [CleanOption] at hc
    rw [ExactOption] at hx
    have hone' := fun k => one_back e b (hc.1 k) (hx.2.2 k)
    have hm' := fun k => many_back e b (hc.2 k)
    cases rep with
    | false =>
      have hone := hone' rfl
      rw [Rust.Variants.dec] at h
      obtain ⟨x, hy, h⟩ := bind_ok h
      have hz := hone x hy
      cases e with
      | num n =>
        rw [Ts.Elem.dec] at hz
        rw [Ts.Variants.dec, hz]
        exact h
      | bool =>
        rw [Ts.Elem.dec] at hz
        rw [Ts.Variants.dec, hz]
        exact h
      | str =>
        rw [Ts.Elem.dec] at hz
        cases hz
        rw [Ts.Variants.dec]
        exact h
      | struct fs =>
        rw [Ts.Elem.dec] at hz
        obtain ⟨s, hs, hz⟩ := bind_ok hz
        rw [Ts.Variants.dec, hs]
        simp only [Res.ok_bind]
        rw [hz]
        exact h
      | enum vs => exact absurd rfl (hx.1 vs)
    | true =>
      have hm := hm' rfl
      rw [Rust.Variants.dec] at h
      obtain ⟨x, hy, h⟩ := bind_ok h
      cases e with
      | num n =>
        have hz := hm (by rw [ExactArray]; all_goals simp) x hy
        rw [Ts.Elem.decArray] at hz
        rw [Ts.Variants.dec, hz]
        exact h
      | bool =>
        have hz := hm (by rw [ExactArray]; all_goals simp) x hy
        rw [Ts.Elem.decArray] at hz
        cases hz
        rw [Ts.Variants.dec]
        exact h
      | str =>
        have hz := hm (by rw [ExactArray]; all_goals simp) x hy
        rw [Ts.Elem.decArray] at hz
        rw [Ts.Variants.dec, hz]
        exact h
      | struct fs => exact absurd rfl (hx.2.1 rfl fs)
      | enum vs => exact absurd rfl (hx.1 vs)
  | .cons e rep rest, i + 1, b, hc, hx, w, h => by
    rw [CleanOption] at hc
    rw [ExactOption] at hx
    rw [Rust.Variants.dec] at h
    rw [Ts.Variants.dec]
    obtain ⟨y, hy, h⟩ := bind_ok h
    rw [options_back rest i b hc hx y hy]
    exact h
theorem fields_back : ∀ (fs : Fields) (rs : List WireRec), (∀ r ∈ rs, r.id.toNat < 256) → CleanRecs fs rs → ExactRecs fs rs → ∀ v,
    Rust.Fields.dec fs ((rs.map Rust.recPair).reverse) = .ok v → Ts.Fields.dec fs ((rs.map Ts.recPair).reverse) = .ok v
  | .nil, _, _, _, _, v, _ => rfl
  | .cons id e rep opt rest, rs, hr, hc, hx, v, h => by
    rw [CleanRecs] at hc
    rw [ExactRecs] at hx
    rw [Rust.Fields.dec] at h
    rw [Ts.Fields.dec]
    split at h
    · cases h
    · rename_i b hb
      obtain ⟨h1, r, h2, rfl⟩ := records_back rs hr hb
      rw [h1]
      have hcl := hc.1 r h2
      have hex := hx.1 r h2
      obtain ⟨x, hy, h⟩ := bind_ok h
      obtain ⟨xs, hxs, h⟩ := bind_ok h
      have ih := fields_back rest rs hr hc.2 hx.2 xs hxs
      have hone := fun q k => one_back e r.body ((hcl.resolve_left q).1 k) ((hex.resolve_left q).1 k)
      have hm := fun q k => many_back e r.body ((hcl.resolve_left q).2 k) ((hex.resolve_left q).2 k)
      dsimp only
      cases rep with
      | false =>
        cases opt with
        | false =>
          dsimp only at hy ⊢
          rw [hone (fun q => nomatch q.1) rfl _ hy]
          simp only [Res.ok_bind, ih]
          exact h
        | true =>
          dsimp only at hy ⊢
          split at hy
          · rename_i k
            rw [if_pos k, hy]
            simp only [Res.ok_bind, ih]
            exact h
          · rename_i k
            rw [if_neg k]
            obtain ⟨y, hz, hy⟩ := bind_ok hy
            rw [hone (fun q => k (by rw [q.2]; rfl)) rfl _ hz]
            simp only [Res.ok_bind]
            rw [hy]
            simp only [Res.ok_bind, ih]
            exact h
      | true =>
        cases opt with
        | false =>
          dsimp only at hy ⊢
          rw [hm (fun q => nomatch q.1) rfl _ hy]
          simp only [Res.ok_bind, ih]
          exact h
        | true =>
          dsimp only at hy ⊢
          split at hy
          · rename_i k
            rw [if_pos k, hy]
            simp only [Res.ok_bind, ih]
            exact h
          · rename_i k
            rw [if_neg k]
            obtain ⟨y, hz, hy⟩ := bind_ok hy
            rw [hm (fun q => k (by rw [q.2]; rfl)) rfl _ hz]
            simp only [Res.ok_bind]
            rw [hy]
            simp only [Res.ok_bind, ih]
            exact h
end

/-- **C188** (partial) Full statement: the generated code of both languages accepts the same bytes, as the same messages.
Proved: for bytes which are complete records with ids below 256 and clean as in C187, where numbers and booleans have their exact
size and no array of enums and no option with an enum or with an array of structs is read. The records may be in any order,
have any of the widths of lengths, repeat, or belong to no field. Missing: the bytes of `C188_both_accept_violated` and of C187, and the
declarations that TypeScript cannot decode (C136). -/
theorem C188_both_accept_partial (fs : Fields) (rs : List WireRec) (hok : ∀ r ∈ rs, r.Ok) (hr : ∀ r ∈ rs, r.id.toNat < 256)
    (hc : CleanRecs fs rs) (hx : ExactRecs fs rs) (v : fs.Val) :
    Ts.decode fs (wire rs) = .ok v ↔ Rust.decode fs (wire rs) = .ok v := by
  refine ⟨C187_same_bytes_partial fs rs hok hr hc v, fun h => ?_⟩
  unfold Rust.decode at h
  unfold Ts.decode
  rw [Rust.storageNew_wire rs hok] at h
  rw [Ts.getStorage_wire rs hok]
  exact fields_back fs rs hr hc hx v h

/-- A number, an optional enum without value, and a boolean; the records are in another order, and one belongs to no field. -/
example :
    let fs : Fields := .cons 1 (.num .u16) false false (.cons 2 (.enum (.cons .str false .nil)) false true
      (.cons 3 .bool false false .nil))
    let rs : List WireRec := [⟨3, 1, [1]⟩, ⟨9, 1, [5]⟩, ⟨2, 1, []⟩, ⟨1, 8, [1, 2]⟩]
    (∀ r ∈ rs, r.Ok) ∧ (∀ r ∈ rs, r.id.toNat < 256) ∧ CleanRecs fs rs ∧ ExactRecs fs rs ∧
    Rust.decode fs (wire rs) = .ok (⟨513, by decide⟩, none, true, ()) := by
  refine ⟨by simp [WireRec.Ok], by decide, ?_, ?_, rfl⟩
  · refine ⟨fun r hl => ?_, fun r hl => ?_, fun r hl => ?_, trivial⟩ <;> obtain ⟨hr, e⟩ := isLast_mem hl <;>
      simp only [List.mem_cons, List.not_mem_nil, or_false] at hr <;> rcases hr with rfl | rfl | rfl | rfl <;>
      first
      | exact absurd e (by decide)
      | simp [CleanBody]
  · refine ⟨fun r hl => ?_, fun r hl => ?_, fun r hl => ?_, trivial⟩ <;> obtain ⟨hr, e⟩ := isLast_mem hl <;>
      simp only [List.mem_cons, List.not_mem_nil, or_false] at hr <;> rcases hr with rfl | rfl | rfl | rfl <;>
      first
      | exact absurd e (by decide)
      | simp [ExactBody, Num.size]

/-- **C188** (partial) The same for messages that are enums: if the bytes are a position and a clean option of exact size, then
TypeScript accepts them exactly if Rust does, as the same message. Missing as in `C188_both_accept_partial`. -/
theorem C188_enums_partial (vs : Variants) (b : Bytes) (hc : CleanBody (.enum vs) b) (hx : ExactBody (.enum vs) b)
    (v : Option vs.Val) : Ts.decodeEnum vs b = .ok v ↔ Rust.decodeEnum vs b = .ok v := by
  rw [CleanBody, ← leNat_littleEndian] at hc
  rw [ExactBody, ← leNat_littleEndian] at hx
  have hl := hc.1
  rw [Ts.decodeEnum, Rust.decodeEnum, if_neg (by omega), if_neg (by omega)]
  refine ⟨fun h => ?_, fun h => ?_⟩
  · obtain ⟨w, hw, h⟩ := bind_ok h
    rw [options_agree vs _ _ hc.2 w hw]
    exact h
  · obtain ⟨w, hw, h⟩ := bind_ok h
    rw [options_back vs _ _ hc.2 hx w hw]
    exact h

/-- The second option, a number. -/
example :
    let vs : Variants := .cons .str false (.cons (.num .u8) false .nil)
    CleanBody (.enum vs) [1, 0, 6] ∧ ExactBody (.enum vs) [1, 0, 6] ∧
    Ts.decodeEnum vs [1, 0, 6] = .ok (some (.inr (.inl ⟨6, by decide⟩))) := by
  refine ⟨?_, ?_, rfl⟩
  · simp [CleanBody, CleanOption, littleEndian]
  · simp [ExactBody, ExactOption, littleEndian, Num.size]

end Verif.Props
