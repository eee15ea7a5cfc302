import Verif.Proofs.RustFramed
import Verif.Props.BothRead
set_option autoImplicit false
/-!
C187 for all bytes that both languages accept.
-/
namespace Verif.Props

open Verif Verif.Spec

/-- Items that Rust accepts are complete. -/
theorem prefixed_items {α : Type} (k : Nat) (hk : 0 < k) (d : Bytes → Res α) :
    ∀ (f : Nat) (b : Bytes) (xs : List α), b.length ≤ f → Rust.decPrefixed k d f b = .ok xs →
    ∃ items : List Bytes, b = itemsBytes k items ∧ ∀ i ∈ items, i.length < 256 ^ k ∧ k + i.length < 2 ^ 64 ∧ ∃ x, d i = .ok x
  | 0, b, xs, hf, h => ⟨[], by simpa [itemsBytes] using List.length_eq_zero_iff.mp (by omega), by simp⟩
  | f + 1, b, xs, hf, h => by
    rw [Rust.decPrefixed] at h
    split at h
    · rename_i he
      exact ⟨[], by simpa [itemsBytes] using he, by simp⟩
    · split at h
      · simp at h
      · rename_i hl
        simp only at h
        split at h
        · simp at h
        · rename_i hs
          split at h
          · simp at h
          · rename_i hfit
            simp only [Res.bind_eq_ok, Res.pure_eq, Res.ok.injEq] at h
            obtain ⟨x, h1, ys, h2, rfl⟩ := h
            obtain ⟨items, hi, hm⟩ := prefixed_items k hk d f _ ys (by simp; omega) h2
            have hlen : ((b.drop k).take (leNat (b.take k))).length = leNat (b.take k) := by
              simp; omega
            have hlt : leNat (b.take k) < 256 ^ k := by
              have := leNat_lt (b.take k)
              rwa [List.length_take, Nat.min_eq_left (by omega)] at this
            refine ⟨(b.drop k).take (leNat (b.take k)) :: items, ?_, fun i hj => ?_⟩
            · have hb : leBytes k (leNat (b.take k)) = b.take k := by
                have := leBytes_leNat (b.take k)
                rwa [List.length_take, Nat.min_eq_left (by omega)] at this
              have h0 : itemsBytes k ((b.drop k).take (leNat (b.take k)) :: items)
                  = leBytes k ((b.drop k).take (leNat (b.take k))).length ++
                    (b.drop k).take (leNat (b.take k)) ++ itemsBytes k items := by
                simp [itemsBytes]
              rw [h0, hlen, hb, ← hi, List.append_assoc, ← List.drop_drop, List.take_append_drop, List.take_append_drop]
            · rcases List.mem_cons.1 hj with rfl | hj
              · rw [hlen]
                exact ⟨hlt, by omega, x, h1⟩
              · exact hm i hj

/-- Rust reads the last record with an id. -/
theorem last_found {rs : List WireRec} {id : UInt16} {r : WireRec} (h : IsLast rs id r) :
    Rust.Storage.get ((rs.map Rust.recPair).reverse) id = some r.body := by
  obtain ⟨before, after, rfl, h1, h2⟩ := h
  unfold Rust.Storage.get
  have key : ∀ (l : List WireRec) t, (∀ q ∈ l, q.id ≠ id) → ((l.map Rust.recPair) ++ t).lookup id = t.lookup id := by
    intro l t
    induction l with
    | nil => intro _; rfl
    | cons q l ih =>
      intro hl
      have e : (id == q.id) = false := by simpa using fun k => hl q (by simp) k.symm
      simp only [List.map_cons, List.cons_append, Rust.recPair, List.lookup_cons, e]
      exact ih (fun q hq => hl q (by simp [hq]))
  rw [← List.map_reverse, List.reverse_append, List.reverse_cons, List.append_assoc, List.map_append,
    key _ _ (fun q hq => h2 q (List.mem_reverse.1 hq))]
  simp [Rust.recPair, h1]

mutual
theorem accepted_one : ∀ (e : Elem) b, PlainBody e b → ∀ x, Rust.Elem.dec e b = .ok x → CleanBody e b
  | .num n, b, _, x, h => by
    rw [CleanBody]
    trivial
  | .bool, b, hp, x, h => by
    rw [PlainBody] at hp
    rw [CleanBody]
    exact hp
  | .str, b, hp, x, h => by
    rw [PlainBody] at hp
    rw [CleanBody]
    exact hp
  | .struct fs, b, hp, x, h => by
    rw [PlainBody] at hp
    rw [CleanBody]
    rw [Rust.Elem.dec] at h
    obtain ⟨s, hs, h⟩ := bind_ok h
    obtain ⟨rs, hok, rfl, rfl⟩ := Rust.storageNew_sound hs
    obtain ⟨h1, h2⟩ := hp rs hok rfl
    exact ⟨rs, rfl, fun r k => ⟨hok r k, h1 r k⟩, accepted_fields fs rs h2 x h⟩
  | .enum vs, b, hp, x, h => by
    rw [PlainBody, ← leNat_littleEndian] at hp
    rw [CleanBody, ← leNat_littleEndian]
    rw [Rust.Elem.dec] at h
    split at h
    · cases h
    · obtain ⟨w, hw, _⟩ := bind_ok h
      exact ⟨by omega, accepted_option vs _ _ hp w hw⟩
theorem accepted_many : ∀ (e : Elem) b, PlainArray e b → ∀ x, Rust.Elem.decVec e b = .ok x → CleanArray e b
  | .num n, b, _, x, h => by
    rw [CleanArray]
    trivial
  | .bool, b, hp, x, h => by
    rw [PlainArray] at hp
    rw [CleanArray]
    exact hp
  | .str, b, hp, x, h => by
    rw [PlainArray] at hp
    rw [CleanArray]
    rw [Rust.Elem.decVec] at h
    obtain ⟨items, rfl, hi⟩ := prefixed_items 4 (by omega) _ _ _ _ (Nat.le_refl _) h
    exact ⟨items, rfl, fun i k => ⟨(hi i k).1, hp items rfl i k⟩⟩
  | .struct fs, b, hp, x, h => by
    rw [PlainArray] at hp
    rw [CleanArray]
    rw [Rust.Elem.decVec] at h
    obtain ⟨items, rfl, hi⟩ := prefixed_items 8 (by omega) _ _ _ _ (Nat.le_refl _) h
    refine ⟨items, rfl, fun i k => ⟨by have := (hi i k).2.1; omega, ?_⟩⟩
    obtain ⟨y, hy⟩ := (hi i k).2.2
    obtain ⟨s, hs, hy⟩ := bind_ok hy
    obtain ⟨rs, hok, rfl, rfl⟩ := Rust.storageNew_sound hs
    obtain ⟨h1, h2⟩ := hp items rfl rs hok k
    exact ⟨rs, rfl, fun r k => ⟨hok r k, h1 r k⟩, accepted_fields fs rs h2 y hy⟩
  | .enum vs, b, _, x, h => by
    rw [CleanArray]
    trivial
theorem accepted_option : ∀ (vs : Variants) i b, PlainOption vs i b → ∀ w, Rust.Variants.dec vs i b = .ok w → CleanOption vs i b
  | .nil, _, _, _, _, _ => by
    rw [CleanOption]
    trivial
  | .cons e rep rest, 0, b, hp, w, h => by
    rw [PlainOption] at hp
    rw [CleanOption]
    cases rep with
    | false =>
      rw [Rust.Variants.dec] at h
      obtain ⟨x, hx, _⟩ := bind_ok h
      exact ⟨fun _ => accepted_one e b (hp.1 rfl) x hx, fun k => nomatch k⟩
    | true =>
      rw [Rust.Variants.dec] at h
      obtain ⟨x, hx, _⟩ := bind_ok h
      exact ⟨(fun k => nomatch k), fun _ => accepted_many e b (hp.2 rfl) x hx⟩
  | .cons e rep rest, i + 1, b, hp, w, h => by
    rw [PlainOption] at hp
    rw [CleanOption]
    rw [Rust.Variants.dec] at h
    obtain ⟨y, hy, _⟩ := bind_ok h
    exact accepted_option rest i b hp y hy
theorem accepted_fields : ∀ (fs : Fields) (rs : List WireRec), PlainRecs fs rs → ∀ v,
    Rust.Fields.dec fs ((rs.map Rust.recPair).reverse) = .ok v → CleanRecs fs rs
  | .nil, _, _, _, _ => by
    rw [CleanRecs]
    trivial
  | .cons id e rep opt rest, rs, hp, v, h => by
    rw [PlainRecs] at hp
    rw [CleanRecs]
    rw [Rust.Fields.dec] at h
    split at h
    · cases h
    · rename_i b hb
      obtain ⟨x, hx, h⟩ := bind_ok h
      obtain ⟨xs, hxs, _⟩ := bind_ok h
      refine ⟨fun r hl => ?_, accepted_fields rest rs hp.2 xs hxs⟩
      have hp1 := hp.1 r hl
      obtain rfl : r.body = b := Option.some.inj ((last_found hl).symm.trans hb)
      cases rep with
      | false =>
        cases opt with
        | false => exact .inr ⟨fun _ => accepted_one e _ (hp1.1 rfl) x hx, fun k => nomatch k⟩
        | true =>
          dsimp only at hx
          split at hx
          · rename_i k
            exact .inl ⟨rfl, List.isEmpty_iff.1 k⟩
          · obtain ⟨y, hy, _⟩ := bind_ok hx
            exact .inr ⟨fun _ => accepted_one e _ (hp1.1 rfl) y hy, fun k => nomatch k⟩
      | true =>
        cases opt with
        | false => exact .inr ⟨(fun k => nomatch k), fun _ => accepted_many e _ (hp1.2 rfl) x hx⟩
        | true =>
          dsimp only at hx
          split at hx
          · rename_i k
            exact .inl ⟨rfl, List.isEmpty_iff.1 k⟩
          · obtain ⟨y, hy, _⟩ := bind_ok hx
            exact .inr ⟨(fun k => nomatch k), fun _ => accepted_many e _ (hp1.2 rfl) y hy⟩
end

/-- **C187** (partial) Full statement: if programs of both languages accept the same bytes as a message of one type, then it is
the same message. Proved: for all declarations and all bytes in which booleans are 0 or 1, strings do not begin with a byte order
mark, and ids of records are below 256. Missing: other bytes of booleans (`C187_same_bytes_violated`), byte order marks and
ids from 256 on (C18, C19). -/
theorem C187_both_accepted_partial (fs : Fields) (b : Bytes) (hp : PlainBody (.struct fs) b) (v w : fs.Val)
    (ht : Ts.decode fs b = .ok v) (hr : Rust.decode fs b = .ok w) : v = w := by
  rw [PlainBody] at hp
  have h := hr
  unfold Rust.decode at h
  obtain ⟨s, hs, h⟩ := bind_ok h
  obtain ⟨rs, hok, rfl, rfl⟩ := Rust.storageNew_sound hs
  obtain ⟨h1, h2⟩ := hp rs hok rfl
  have := C187_same_bytes_partial fs rs hok h1 (accepted_fields fs rs h2 w h) v ht
  rw [this] at hr
  exact Res.ok.inj hr

/-- **C187** (partial) The same for messages that are enums. -/
theorem C187_enums_accepted_partial (vs : Variants) (b : Bytes) (hp : PlainBody (.enum vs) b) (v w : Option vs.Val)
    (ht : Ts.decodeEnum vs b = .ok v) (hr : Rust.decodeEnum vs b = .ok w) : v = w := by
  rw [PlainBody, ← leNat_littleEndian] at hp
  rw [Rust.decodeEnum] at hr
  split at hr
  · cases hr
  · rw [Ts.decodeEnum, if_neg (by omega)] at ht
    obtain ⟨x, hx, ht⟩ := bind_ok ht
    obtain ⟨y, hy, hr⟩ := bind_ok hr
    rw [options_agree vs _ _ (accepted_option vs _ _ hp y hy) x hx] at hy
    cases hy
    exact Res.ok.inj (ht.symm.trans hr)

/-- Both languages accept a record with the number 7, and an enum with the number 6. -/
example :
    let vs : Variants := .cons .str false (.cons (.num .u8) false .nil)
    PlainBody (.struct oneByte) [1, 0, 8, 1, 7] ∧ PlainBody (.enum vs) [1, 0, 6] ∧
    Ts.decode oneByte [1, 0, 8, 1, 7] = .ok (⟨7, by decide⟩, ()) ∧ Rust.decode oneByte [1, 0, 8, 1, 7] = .ok (⟨7, by decide⟩, ()) ∧
    Ts.decodeEnum vs [1, 0, 6] = Rust.decodeEnum vs [1, 0, 6] := by
  refine ⟨?_, ?_, rfl, rfl, rfl⟩
  · rw [PlainBody]
    intro rs hok h
    have h1 : Rust.storageNew [1, 0, 8, 1, 7] = .ok [(1, [7])] := rfl
    rw [h, Rust.storageNew_wire rs hok] at h1
    have h2 := Res.ok.inj h1
    refine ⟨fun r hr => ?_, by simp [oneByte, PlainRecs, PlainBody]⟩
    have h3 : Rust.recPair r ∈ (rs.map Rust.recPair).reverse := List.mem_reverse.2 (List.mem_map_of_mem hr)
    rw [h2, List.mem_singleton] at h3
    have h4 : r.id = 1 := congrArg Prod.fst h3
    rw [h4]
    decide
  · simp [PlainBody, PlainOption, littleEndian]

end Verif.Props
