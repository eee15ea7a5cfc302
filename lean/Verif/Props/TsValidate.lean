import Verif.Proofs.TsValidate
import Verif.Props.TsCodec
set_option autoImplicit false
/-!
Property theorems C140–C143: what generated TypeScript code does with a JavaScript value that a
program passes for a message.
-/
namespace Verif.Props

open Verif Verif.Spec Verif.Ts

/-! ### A message with every kind of field -/

/-- `struct P { bool q; }` as element type. -/
def plainP : NElem := .struct 1 "P".toList (.cons "q".toList 1 .bool false false .nil)

/-- `enum { u8 A; str[] B; P C; }`. -/
def plainVs : NVariants :=
  .cons "A".toList (.num .u8) false (.cons "B".toList .str true (.cons "C".toList plainP false .nil))

/-- `u8 a; i64 b; i16[] xs; P p; E e; E? o; f32? f;`. -/
def plainFs : NFields :=
  .cons "a".toList 1 (.num .u8) false false <|
  .cons "b".toList 2 (.num .i64) false false <|
  .cons "xs".toList 3 (.num .i16) true false <|
  .cons "p".toList 4 plainP false false <|
  .cons "e".toList 5 (.enum plainVs) false false <|
  .cons "o".toList 6 (.enum plainVs) false true <|
  .cons "f".toList 7 (.num .f32) false true .nil

/-- `P.from({ q: true })`. -/
def plainInst : JsVal := .inst 1 "P".toList [("q".toList, .bool true)] []

/-- `{ note: "x", e: { C: p }, p, xs: [1, -2], b: -5n, a: 7, f: 0.5 }`. -/
def plainObj : JsVal := .obj
  [("note".toList, .str "x".toList), ("e".toList, .obj [("C".toList, plainInst)]),
   ("p".toList, plainInst), ("xs".toList, .arr [some (.num (.int 1)), some (.num (.int (-2)))]),
   ("b".toList, .big (-5)), ("a".toList, .num (.int 7)), ("f".toList, .num (.frac 0 0))]

/-- The value it stands for. -/
def plainVal (eng : Engine) : plainFs.erase.Val :=
  ((7 : Fin 256), (18446744073709551611 : Fin (256 ^ 8)), [(1 : Fin (256 ^ 2)), (65534 : Fin (256 ^ 2))],
    (true, ()), some (.inr (.inr (.inl (true, ())))), none, some (eng.f32 (.frac 0 0)), ())

theorem plain_inst (eng : Engine) : FitsOne eng plainP plainInst (true, ()) :=
  ⟨_, _, rfl, ⟨rfl, trivial⟩, trivial⟩

theorem plain_fits (eng : Engine) : Fits eng plainFs plainObj (plainVal eng) := by
  refine ⟨rfl, ?_, ?_, ?_, plain_inst eng, ?_, rfl,
    ⟨(by intro h; cases h), .frac 0 0, rfl, rfl⟩, trivial⟩
  · exact ⟨.int 7, 7, rfl, .inl rfl, by decide, 0, rfl⟩
  · exact ⟨-5, rfl, by decide, -1, rfl⟩
  · refine ⟨[.num (.int 1), .num (.int (-2))], rfl, ?_, ?_, trivial⟩
    · exact ⟨.int 1, 1, rfl, .inl rfl, by decide, 0, rfl⟩
    · exact ⟨.int (-2), -2, rfl, .inl rfl, by decide, -1, rfl⟩
  · exact ⟨rfl, rfl, rfl, (by intro h; cases h), plain_inst eng, trivial⟩

theorem plain_usual : EachField UsualItem plainFs plainObj.get := by
  refine ⟨trivial, ?_, ?_, trivial, ⟨trivial, ?_, trivial, trivial⟩,
    ⟨trivial, ?_, trivial, trivial⟩, ⟨?_, ?_⟩, trivial⟩
  · intro z h
    have h : JsVal.big (-5) = .big z := h
    cases h
    decide
  · intro xs _ y _
    trivial
  · intro xs _ y _
    trivial
  · intro xs _ y _
    trivial
  · intro h; cases h
  · intro b h; cases h

theorem plain_key : OneKey plainFs plainObj.get := by
  show (_ ≤ 1) ∧ (_ ≤ 1) ∧ True
  decide

theorem plain_ok : TsFieldsOk plainFs.erase := by
  simp [plainFs, plainVs, plainP, NFields.erase, NElem.erase, NVariants.erase, TsFieldsOk, TsElemOk,
    TsVariantsOk, Fields.ids, Variants.count]

theorem plain_names : plainFs.names.Nodup := by decide

theorem plain_exact (eng : Engine) : EachField (ExactItem eng) plainFs plainObj.get := by
  have hp : ExactItem eng plainP false plainInst :=
    ⟨fun _ _ _ _ => ⟨_, plain_inst eng⟩, fun h => nomatch h⟩
  have hu : ∀ e : NElem, ∀ rep, ExactItem eng e rep .undefined := by
    intro e rep
    refine ⟨?_, fun _ _ h => nomatch h⟩
    cases rep with
    | true => exact fun _ h => nomatch h
    | false =>
      cases e with
      | num n => cases n <;> first | trivial | exact (fun _ _ h => nomatch h)
      | struct c s f => exact fun _ _ _ h => nomatch h
      | _ => trivial
  refine ⟨⟨?_, fun h => nomatch h⟩, ⟨?_, fun h => nomatch h⟩, ⟨?_, ?_⟩, hp,
    ⟨hu _ _, hu _ _, hp, trivial⟩, ⟨hu _ _, hu _ _, hu _ _, trivial⟩,
    ⟨trivial, fun h => nomatch h⟩, trivial⟩
  · intro lo tag h; cases h
  · intro lo tag h; cases h
  · intro xs h y hy lo tag h'
    have h : JsVal.arr [some (.num (.int 1)), some (.num (.int (-2)))] = .arr xs := h
    cases h
    subst h'
    simp at hy
  · intro _ xs h hm
    have h : JsVal.arr [some (.num (.int 1)), some (.num (.int (-2)))] = .arr xs := h
    cases h
    simp at hm

/-! ### C140 -/

/-- **C140** A JavaScript value stands for at most one value of the declared type. -/
theorem C140_one_meaning (eng : Engine) (fs : NFields) (obj : JsVal) (v w : fs.erase.Val)
    (h : Fits eng fs obj v) (h' : Fits eng fs obj w) : v = w :=
  fitsFields_unique eng fs _ v w h.2 h'.2

example (eng : Engine) : Fits eng plainFs plainObj (plainVal eng) := plain_fits eng

/-- **C140 (partial)** Full statement: an object that stands for a value of the declared type is
accepted by `from`, and `encode` of the instance produces the bytes of that value. Proved: accepted
if the 64-bit integers are below 2^53 in absolute value and the floats are neither NaN nor infinite;
sent as it is if moreover each enum object has at most one key, and otherwise without the options of
the other enum objects. In the first case the instance is in order again, so it can be used inside
other objects. Missing: `C140_large_violated`, `C140_nan_violated`, `C140_extra_key_violated`. -/
theorem C140_fitting_accepted_partial (eng : Engine) (cls : Nat) (sig : List Char) (fs : NFields)
    (obj : JsVal) (v : fs.erase.Val) (ho : TsFieldsOk fs.erase) (hn : fs.names.Nodup)
    (h : Fits eng fs obj v) (hu : EachField UsualItem fs obj.get) :
    ∃ inst, fromObj cls sig fs obj = .ok inst ∧
      encInst eng fs inst = Ts.encode fs.erase (asSent fs obj.get v) ∧
      (OneKey fs obj.get → FitsOne eng (.struct cls sig fs) inst v ∧
        encInst eng fs inst = Ts.encode fs.erase v) := by
  obtain ⟨inst, h1, h2, h3⟩ := fromObj_fits (cls := cls) (sig := sig) h hu ho hn
  exact ⟨inst, h1, h2, fun hk => ⟨h3 hk, encInst_fits (h3 hk)⟩⟩

example (eng : Engine) : TsFieldsOk plainFs.erase ∧ plainFs.names.Nodup ∧
    Fits eng plainFs plainObj (plainVal eng) ∧ EachField UsualItem plainFs plainObj.get ∧
    OneKey plainFs plainObj.get :=
  ⟨plain_ok, plain_names, plain_fits eng, plain_usual, plain_key⟩

/-- **C140 (partial)** From the object of a TypeScript program to the value in a Rust program: for
values that are exact within each language the bytes are decoded by the Rust code to the value. -/
theorem C140_reaches_rust_partial (eng : Engine) (cls : Nat) (sig : List Char) (fs : NFields)
    (obj : JsVal) (v : fs.erase.Val) (h1 : FieldsOk fs.erase) (ho : TsFieldsOk fs.erase)
    (hn : fs.names.Nodup) (h : Fits eng fs obj v) (hu : EachField UsualItem fs obj.get)
    (hk : OneKey fs obj.get) (hv : FieldsClean fs.erase v) (hw : TsFieldsClean fs.erase v) :
    ∃ inst b, fromObj cls sig fs obj = .ok inst ∧ encInst eng fs inst = .ok b ∧
      (b.length < 2 ^ 64 → Rust.decode fs.erase b = .ok v) := by
  obtain ⟨inst, h2, _, h3⟩ := C140_fitting_accepted_partial eng cls sig fs obj v ho hn h hu
  obtain ⟨b, _, h4, h5⟩ := C18_wire_partial fs.erase v h1 ho hv hw
  exact ⟨inst, b, h2, (h3 hk).2.trans h4, fun hl => (h5 hl).1⟩

example (eng : Engine) : FieldsOk plainFs.erase ∧ FieldsClean plainFs.erase (plainVal eng) ∧
    TsFieldsClean plainFs.erase (plainVal eng) := by
  refine ⟨?_, ?_, ?_⟩
  · simp [plainFs, plainVs, plainP, NFields.erase, NElem.erase, NVariants.erase, FieldsOk, ElemOk,
      VariantsOk, Fields.ids, Variants.count]
  · exact ⟨trivial, trivial, trivial, ⟨trivial, trivial⟩, ⟨⟨trivial, trivial⟩, fun h => h⟩,
      (fun _ h => nomatch h), (fun _ _ => ⟨trivial, fun h => h⟩), trivial⟩
  · exact ⟨trivial, trivial, trivial, ⟨trivial, trivial⟩, ⟨trivial, trivial⟩,
      (fun _ h => nomatch h), (fun _ _ => ⟨trivial, fun h => h⟩), trivial⟩

/-- `struct { T a; }`. -/
def oneField (n : Num) : NFields := .cons "a".toList 1 (.num n) false false .nil

theorem oneField_ok (n : Num) : TsFieldsOk (oneField n).erase := by
  simp [oneField, NFields.erase, NElem.erase, TsFieldsOk, TsElemOk, Fields.ids]

/-- **C140 (violated)** The `bigint` 2^53 is a value of `u64` (and the codec sends it), but `from`
refuses the object. -/
theorem C140_large_violated (eng : Engine) : ∃ (fs : NFields) (obj : JsVal) (v : fs.erase.Val),
    TsFieldsOk fs.erase ∧ fs.names.Nodup ∧ Fits eng fs obj v ∧
    (∃ b, Ts.encode fs.erase v = .ok b) ∧ fromObj 0 [] fs obj = .err := by
  refine ⟨oneField .u64, .obj [("a".toList, .big (2 ^ 53))],
    ((9007199254740992 : Fin (256 ^ 8)), ()), oneField_ok _, by decide, ⟨rfl, ?_, trivial⟩,
    ⟨_, rfl⟩, by rfl⟩
  exact ⟨2 ^ 53, rfl, by decide, 0, rfl⟩

/-- **C140 (violated)** NaN is a number of the float types, but `from` refuses the object. -/
theorem C140_nan_violated (eng : Engine) : ∃ (fs : NFields) (obj : JsVal) (v : fs.erase.Val),
    TsFieldsOk fs.erase ∧ fs.names.Nodup ∧ Fits eng fs obj v ∧ fromObj 0 [] fs obj = .err :=
  ⟨oneField .f64, .obj [("a".toList, .num .nan)], (eng.f64 .nan, ()), oneField_ok _, by decide,
    ⟨rfl, ⟨_, rfl, rfl⟩, trivial⟩, by rfl⟩

/-- `struct { enum { u8 A; u8 B; } e; }`. -/
def enumField : NFields :=
  .cons "e".toList 1 (.enum (.cons "A".toList (.num .u8) false
    (.cons "B".toList (.num .u8) false .nil))) false false .nil

theorem enumField_ok : TsFieldsOk enumField.erase := by
  simp [enumField, NFields.erase, NElem.erase, NVariants.erase, TsFieldsOk, TsElemOk, TsVariantsOk,
    Fields.ids, Variants.count]

/-- **C140, C141, C143 (violated)** `{ e: { A: 1, B: undefined } }` stands for the option `A` with 1
and is accepted, but it is sent as if no option were set: `set` refuses an object with two keys,
and the constructor does not look at its answer. A Rust peer refuses the message. -/
theorem C140_extra_key_violated (eng : Engine) : ∃ (fs : NFields) (obj : JsVal)
    (v w : fs.erase.Val) (inst : JsVal) (b : Bytes), TsFieldsOk fs.erase ∧ fs.names.Nodup ∧
    Fits eng fs obj v ∧ fromObj 0 [] fs obj = .ok inst ∧ encInst eng fs inst = .ok b ∧
    Ts.encode fs.erase w = .ok b ∧ v ≠ w ∧
    ∀ u, Rust.decode fs.erase b ≠ .ok u := by
  refine ⟨enumField, .obj [("e".toList, .obj [("A".toList, .num (.int 1)), ("B".toList, .undefined)])],
    (some (.inl (1 : Fin 256)), ()), (none, ()), _, _, enumField_ok, by decide, ⟨rfl, ?_, trivial⟩,
    rfl, rfl, rfl, (by intro h; cases h), ?_⟩
  · exact ⟨rfl, (by intro h; cases h), ⟨.int 1, 1, rfl, .inl rfl, by decide, 0, rfl⟩, rfl, trivial⟩
  · intro u h; cases h

/-! ### C141 -/

/-- **C141 (partial)** Full statement: what `from` accepts stands for a value of the declared type,
and that value is sent. Proved if numbers for integers are whole, arrays have no holes and nested
instances are in order, which is the case for instances made by `from` from such objects (last
part); the value is sent without the options of enum objects with more than one key. Missing:
`C141_fraction_violated`, `C141_holes_violated`, `C141_changed_instance_violated`,
`C140_extra_key_violated`. -/
theorem C141_accepted_is_sent_partial (eng : Engine) (cls : Nat) (sig : List Char) (fs : NFields)
    (obj inst : JsVal) (ho : TsFieldsOk fs.erase) (hn : fs.names.Nodup)
    (h : fromObj cls sig fs obj = .ok inst) (hx : EachField (ExactItem eng) fs obj.get) :
    ∃ v, Fits eng fs obj v ∧ encInst eng fs inst = Ts.encode fs.erase (asSent fs obj.get v) ∧
      (OneKey fs obj.get → FitsOne eng (.struct cls sig fs) inst v ∧
        encInst eng fs inst = Ts.encode fs.erase v) := by
  obtain ⟨h0, h1⟩ := fromObj_valid h
  obtain ⟨⟨v, hv⟩, hu⟩ := sound_fields h1 hx ho
  obtain ⟨inst', h2, h3⟩ := C140_fitting_accepted_partial eng cls sig fs obj v ho hn ⟨h0, hv⟩ hu
  rw [h] at h2
  cases h2
  exact ⟨v, ⟨h0, hv⟩, h3⟩

/-- **C141** Under the same conditions: accepted exactly if the object stands for a value with usual
numbers. -/
theorem C141_accepted_iff_partial (eng : Engine) (cls : Nat) (sig : List Char) (fs : NFields)
    (obj : JsVal) (ho : TsFieldsOk fs.erase) (hn : fs.names.Nodup)
    (hx : EachField (ExactItem eng) fs obj.get) :
    (∃ inst, fromObj cls sig fs obj = .ok inst) ↔
      (∃ v, Fits eng fs obj v) ∧ EachField UsualItem fs obj.get := by
  constructor
  · rintro ⟨inst, h⟩
    obtain ⟨h0, h1⟩ := fromObj_valid h
    obtain ⟨⟨v, hv⟩, hu⟩ := sound_fields h1 hx ho
    exact ⟨⟨v, h0, hv⟩, hu⟩
  · rintro ⟨⟨v, hv⟩, hu⟩
    obtain ⟨inst, h2, _⟩ := fromObj_fits (cls := cls) (sig := sig) hv hu ho hn
    exact ⟨inst, h2⟩

example (eng : Engine) : TsFieldsOk plainFs.erase ∧ plainFs.names.Nodup ∧
    EachField (ExactItem eng) plainFs plainObj.get ∧
    ∃ inst, fromObj 0 [] plainFs plainObj = .ok inst :=
  ⟨plain_ok, plain_names, plain_exact eng,
    (fromObj_fits (cls := 0) (sig := []) (plain_fits eng) plain_usual plain_ok plain_names).imp
      fun _ h => h.1⟩

/-- The same with the text `"7"` for `a` is refused. -/
example : fromObj 0 [] plainFs (.obj [("a".toList, .str "7".toList)]) = .err := by rfl

/-- **C141 (violated)** `{ a: 1.5 }` for a `u8` stands for no value, but is accepted and sent as 1. -/
theorem C141_fraction_violated (eng : Engine) : ∃ (fs : NFields) (obj inst : JsVal)
    (w : fs.erase.Val), TsFieldsOk fs.erase ∧ fs.names.Nodup ∧ (∀ v, ¬ Fits eng fs obj v) ∧
    fromObj 0 [] fs obj = .ok inst ∧ encInst eng fs inst = Ts.encode fs.erase w := by
  refine ⟨oneField .u8, .obj [("a".toList, .num (.frac 1 0))], _, ((1 : Fin 256), ()), oneField_ok _,
    by decide, ?_, rfl, rfl⟩
  rintro v ⟨_, ⟨y, z, h, hw, _⟩, _⟩
  have h : JsVal.num (.frac 1 0) = .num y := h
  cases h
  rcases hw with hw | ⟨hw, _⟩ <;> cases hw

/-- `struct { T[] a; }`. -/
def oneArray (n : Num) : NFields := .cons "a".toList 1 (.num n) true false .nil

/-- **C141 (violated)** `{ a: [1, , 3] }` for `u8[]` stands for no value, but is accepted and sent
as `[1, 3, 0]`: the item behind the hole changes its position. -/
theorem C141_holes_violated (eng : Engine) : ∃ (fs : NFields) (obj inst : JsVal)
    (w : fs.erase.Val), TsFieldsOk fs.erase ∧ fs.names.Nodup ∧ (∀ v, ¬ Fits eng fs obj v) ∧
    fromObj 0 [] fs obj = .ok inst ∧ encInst eng fs inst = Ts.encode fs.erase w := by
  refine ⟨oneArray .u8, .obj [("a".toList, .arr [some (.num (.int 1)), none, some (.num (.int 3))])],
    _, ([(1 : Fin 256), (3 : Fin 256), (0 : Fin 256)], ()), ?_, by decide, ?_, rfl, rfl⟩
  · simp [oneArray, NFields.erase, NElem.erase, TsFieldsOk, TsElemOk, Fields.ids]
  rintro v ⟨_, ⟨xs, h, _⟩, _⟩
  have h : JsVal.arr [some (.num (.int 1)), none, some (.num (.int 3))] = .arr (xs.map some) := h
  injection h with h
  match xs, h with
  | [_, _, _], h => simp at h

/-- `struct { P p; }` with `struct P { u8 a; }`. -/
def nested : NFields := .cons "p".toList 1 (.struct 1 "P".toList (oneField .u8)) false false .nil

/-- **C141 (violated)** An instance of the right class is not looked into: after
`p = P.from({ a: 1 }); p.a = 300;` the object `{ p }` is accepted, and `encode` throws. -/
theorem C141_changed_instance_violated (eng : Engine) : ∃ (fs : NFields) (obj inst : JsVal),
    TsFieldsOk fs.erase ∧ fs.names.Nodup ∧ (∀ v, ¬ Fits eng fs obj v) ∧
    fromObj 0 [] fs obj = .ok inst ∧ encInst eng fs inst = .panic := by
  refine ⟨nested, .obj [("p".toList, .inst 1 "P".toList [("a".toList, .num (.int 300))] [])], _,
    ?_, by decide, ?_, rfl, rfl⟩
  · simp [nested, oneField, NFields.erase, NElem.erase, TsFieldsOk, TsElemOk, Fields.ids]
  rintro v ⟨_, ⟨ps, hidden, h, ⟨⟨y, z, h1, hw, hr, _⟩, _⟩, _⟩, _⟩
  have h : JsVal.inst 1 "P".toList [("a".toList, .num (.int 300))] [] =
    .inst 1 "P".toList ps hidden := h
  cases h
  have h1 : JsVal.num (.int 300) = .num y := h1
  cases h1
  rcases hw with hw | ⟨hw, _⟩ <;> cases hw
  exact absurd hr (by decide)

/-! ### C142 -/

/-- **C142 (partial)** Full statement: `from` of a message answers with the message or with an
error, and never throws. Proved for structs and every value but buffers. Missing: enums
(`C142_enum_throws_violated`). -/
theorem C142_struct_answers_partial (cls : Nat) (sig : List Char) (fs : NFields) (obj : JsVal)
    (ho : TsFieldsOk fs.erase) : fromObj cls sig fs obj ≠ .panic := by
  rcases fromObj_total (cls := cls) (sig := sig) (obj := obj) ho with ⟨inst, h⟩ | h <;> rw [h] <;>
    (intro hh; cases hh)

example : fromObj 0 [] plainFs .null = .err ∧ fromObj 0 [] enumField (.obj [("e".toList, .null)]) = .err :=
  ⟨rfl, rfl⟩

/-- **C142 (violated)** `from` of an enum throws for an object without option and for `null`,
instead of answering with an error. -/
theorem C142_enum_throws_violated : ∃ (vs : NVariants), TsVariantsOk vs.erase ∧ vs.names.Nodup ∧
    enumFromObj vs (.obj []) = .panic ∧ enumFromObj vs .null = .panic := by
  refine ⟨plainVs, ?_, by decide, by rfl, by rfl⟩
  simp [plainVs, plainP, NVariants.erase, NElem.erase, NFields.erase, TsVariantsOk, TsFieldsOk,
    TsElemOk, Fields.ids]

/-- **C142 (violated)** `from` and `set` of an enum do not validate: 300 and a text are accepted for
a `u8`; `encode` of the enum with 300 throws. -/
theorem C142_enum_unchecked_violated (eng : Engine) : ∃ (vs : NVariants) (a b : JsVal)
    (o : Option (Nat × JsVal)), TsVariantsOk vs.erase ∧ vs.names.Nodup ∧
    (∀ w, ¬ FitsChoice eng vs a w) ∧ (∀ w, ¬ FitsChoice eng vs b w) ∧
    enumFromObj vs a = .ok a ∧ enumFromObj vs b = .ok b ∧
    setEnum vs a = .ok o ∧ encEnum eng vs o = .panic := by
  refine ⟨.cons "A".toList (.num .u8) false .nil, .obj [("A".toList, .num (.int 300))],
    .obj [("A".toList, .str "x".toList)], _, ?_, by decide, ?_, ?_, by rfl, by rfl, rfl, rfl⟩
  · simp [NElem.erase, TsVariantsOk, TsElemOk]
  · rintro (w | w)
    · rintro ⟨_, ⟨y, z, h, hw, hr, _⟩, _⟩
      have h : JsVal.num (.int 300) = .num y := h
      cases h
      rcases hw with hw | ⟨hw, _⟩ <;> cases hw
      exact absurd hr (by decide)
    · cases w
  · rintro (w | w)
    · rintro ⟨_, ⟨y, z, h, _⟩, _⟩
      have h : JsVal.str "x".toList = .num y := h
      cases h
    · cases w

/-- **C142 (partial)** An enum object with exactly one key that stands for a variant is accepted by
`from`, which answers with an object for the same variant, and by `set`, after which `encode`
produces the bytes of the variant. -/
theorem C142_enum_fitting_partial (eng : Engine) (vs : NVariants) (obj : JsVal) (w : vs.erase.Val)
    (ho : TsVariantsOk vs.erase) (hd : vs.names.Nodup) (h0 : obj.isObject = true)
    (h : FitsChoice eng vs obj w) (hk : obj.keys ≤ 1) :
    ∃ o, setEnum vs obj = .ok o ∧ encEnum eng vs o = Ts.encodeEnum vs.erase (some w) ∧
      ∃ res, enumFromObj vs obj = .ok res ∧ res.isObject = true ∧ FitsChoice eng vs res w :=
  enum_fits h0 h hk ho hd

example (eng : Engine) : FitsChoice eng plainVs (.obj [("C".toList, plainInst)])
    (.inr (.inr (.inl (true, ())))) ∧ (JsVal.obj [("C".toList, plainInst)]).keys ≤ 1 :=
  ⟨⟨rfl, rfl, (by intro h; cases h), plain_inst eng, trivial⟩, by decide⟩

/-! ### C143 -/

/-- **C143 (partial)** Full statement: properties that are not declared make no difference. Proved
for the properties of a message: `from` depends only on the declared ones. Missing: the objects of
enum fields (`C140_extra_key_violated`, `C143_enum_key_violated`). -/
theorem C143_undeclared_ignored_partial (cls : Nat) (sig : List Char) (fs : NFields) (a b : JsVal)
    (ha : a.isObject = true) (hb : b.isObject = true) (h : ∀ n ∈ fs.names, a.get n = b.get n) :
    fromObj cls sig fs a = fromObj cls sig fs b :=
  fromObj_congr (ha.trans hb.symm) h

example : fromObj 0 [] (oneField .u8) (.obj [("a".toList, .num (.int 1)), ("b".toList, .null)]) =
    fromObj 0 [] (oneField .u8) (.obj [("a".toList, .num (.int 1))]) :=
  C143_undeclared_ignored_partial 0 [] _ _ _ rfl rfl (by
    intro n hn
    have hn : n ∈ ["a".toList] := hn
    rw [List.mem_singleton] at hn
    subst hn
    rfl)

/-- **C143 (violated)** A property that is not declared, in the object of an enum field, makes the
option disappear. -/
theorem C143_enum_key_violated (eng : Engine) : ∃ (fs : NFields) (a b : JsVal) (ia ib : JsVal)
    (ba bb : Bytes), TsFieldsOk fs.erase ∧ fs.names.Nodup ∧
    a = .obj [("e".toList, .obj [("A".toList, .num (.int 1))])] ∧
    b = .obj [("e".toList, .obj [("A".toList, .num (.int 1)), ("note".toList, .null)])] ∧
    fromObj 0 [] fs a = .ok ia ∧ fromObj 0 [] fs b = .ok ib ∧
    encInst eng fs ia = .ok ba ∧ encInst eng fs ib = .ok bb ∧ ba ≠ bb := by
  refine ⟨enumField, _, _, _, _, _, _, enumField_ok, by decide, rfl, rfl, rfl, rfl, rfl, rfl, ?_⟩
  decide

end Verif.Props
