import Verif.Proofs.NetworkTexts
import Verif.Props.SystemTexts
import Verif.Props.NetworkCodec
import Verif.Props.TsGeneration
import Verif.Props.TsClient
set_option autoImplicit false
/-!
Property theorems: from the texts of a protocol and a workflow to generated TypeScript clients that talk to
generated servers.
-/
namespace Verif.Props

open Verif Verif.Spec Verif.System Verif.Network

theorem numberFields_names : ∀ (fs : List Prot.Field) (id par : Nat), (Prot.numberFields id par fs).map Prot.Field.name = fs.map Prot.Field.name
  | [], _, _ => rfl
  | f :: fs, id, par => by simp [Prot.numberFields, numberFields_names fs]

theorem services_names (self assigned : Bool) : ∀ x ∈ services self assigned, (x.2.map Prot.Field.name).Nodup := by
  revert self assigned
  decide

/-- The protocol with what the workflow added has all that names need. -/
theorem nameable_texts {ptext : List Char} {pr : Prot.Store} (hp : Prot.Parses ptext (.accepted pr)) (self assigned : Bool)
    (hs : Prot.Supported (Flow.Syntax.addAll pr (services self assigned)))
    (ho : ∀ e ∈ (Flow.Syntax.addAll pr (services self assigned)).enums, (e.variants.map Prot.EnumItem.name).Nodup) :
    Prot.Nameable (Flow.Syntax.addAll pr (services self assigned)) := by
  have hi := Prot.reach_idsOk (Prot.accepted_reach hp)
  have hw : Prot.WellTyped (Flow.Syntax.addAll pr (services self assigned)) :=
    wellTyped_services hp _ (services_ok self assigned)
  refine ⟨fun t ht f hf hr => ?_, fun t ht => ?_, ho⟩
  · rcases hw.fields t ht f hf with ⟨h1, _⟩ | ⟨id, _, _, h3⟩
    · exact absurd h1 hr
    · exact Prot.rustPrim_none (Prot.hasType_name hs h3)
  · obtain ⟨_, _, ts, h1, h2⟩ := addAll_structs (services self assigned) hi
    rw [h1, List.mem_append] at ht
    rcases ht with ht | ht
    · exact C25_field_names_unique hp t ht
    · obtain ⟨x, hx, _, _, h3⟩ := h2.back ht
      rw [h3, numberFields_names]
      exact services_names self assigned x hx

theorem struct_named {pr : Prot.Store} {ts : List (UInt32 × Ts.NFields)} (h : Prot.mapAll pr.namedStruct pr.structs = some ts)
    {t : Prot.Struct} (ht : t ∈ pr.structs) : ∃ q, pr.namedStruct t = some q ∧ q ∈ ts :=
  mapAll_mem h t ht

theorem named_str : Prot.namedPrim "str".toList = some .str := rfl

theorem one_named {pr : Prot.Store} {ts : List (UInt32 × Ts.NFields)} (h : Prot.mapAll pr.namedStruct pr.structs = some ts)
    {t : Prot.Struct} (ht : t ∈ pr.structs) {n : List Char} {o : Bool}
    (hf : t.fields = Prot.numberFields t.id t.id [Flow.strField n o]) {id : UInt16} (hid : FieldId t n id) :
    (UInt32.ofNat t.id, Ts.NFields.cons n id .str false o .nil) ∈ ts := by
  obtain ⟨q, h1, h2⟩ := struct_named h ht
  obtain ⟨x, hx, _, rfl⟩ := hid
  rw [hf] at hx
  simp only [Prot.numberFields, List.mem_singleton] at hx
  subst hx
  unfold Prot.Store.namedStruct at h1
  rw [hf] at h1
  simp only [Prot.numberFields, Prot.namedFields, Prot.namedField, Flow.strField, named_str] at h1
  cases h1
  exact h2

theorem two_named {pr : Prot.Store} {ts : List (UInt32 × Ts.NFields)} (h : Prot.mapAll pr.namedStruct pr.structs = some ts)
    {t : Prot.Struct} (ht : t ∈ pr.structs)
    (hf : t.fields = Prot.numberFields t.id t.id [Flow.strField "protocol".toList false, Flow.strField "workflow".toList false])
    {a b : UInt16} (ha : FieldId t "protocol".toList a) (hb : FieldId t "workflow".toList b) :
    (UInt32.ofNat t.id, Ts.NFields.cons "protocol".toList a .str false false
      (.cons "workflow".toList b .str false false .nil)) ∈ ts := by
  obtain ⟨q, h1, h2⟩ := struct_named h ht
  obtain ⟨x, hx, hxn, rfl⟩ := ha
  obtain ⟨y, hy, hyn, rfl⟩ := hb
  rw [hf] at hx hy
  have hne : "protocol".toList ≠ "workflow".toList := by decide
  simp only [Prot.numberFields, Flow.strField, List.mem_cons, List.not_mem_nil, or_false] at hx hy
  rcases hx with rfl | rfl
  · rcases hy with rfl | rfl
    · exact absurd hyn hne
    · unfold Prot.Store.namedStruct at h1
      rw [hf] at h1
      simp only [Prot.numberFields, Prot.namedFields, Prot.namedField, Flow.strField, named_str] at h1
      cases h1
      exact h2
  · exact absurd hxn.symm hne

theorem empty_named {pr : Prot.Store} {ts : List (UInt32 × Ts.NFields)} (h : Prot.mapAll pr.namedStruct pr.structs = some ts)
    {t : Prot.Struct} (ht : t ∈ pr.structs) (hf : t.fields = Prot.numberFields t.id t.id []) :
    (UInt32.ofNat t.id, Ts.NFields.nil) ∈ ts := by
  obtain ⟨q, h1, h2⟩ := struct_named h ht
  unfold Prot.Store.namedStruct at h1
  rw [hf] at h1
  simp only [Prot.numberFields, Prot.namedFields] at h1
  cases h1
  exact h2

theorem mapAll_keys {α β γ : Type} {f : α → Option (β × γ)} {k : α → β} (hk : ∀ a q, f a = some q → q.1 = k a) :
    ∀ {l : List α} {m : List (β × γ)}, Prot.mapAll f l = some m → m.map Prod.fst = l.map k
  | [], m, h => by cases h; rfl
  | a :: l, m, h => by
    simp only [Prot.mapAll] at h
    cases h1 : f a with
    | none => rw [h1] at h; exact nomatch h
    | some b =>
      cases h2 : Prot.mapAll f l with
      | none => rw [h1, h2] at h; exact nomatch h
      | some bs =>
        rw [h1, h2] at h
        cases h
        rw [List.map_cons, List.map_cons, hk a b h1, mapAll_keys hk h2]

theorem namedStruct_id (pr : Prot.Store) (t : Prot.Struct) (q : UInt32 × Ts.NFields) (h : pr.namedStruct t = some q) :
    q.1 = UInt32.ofNat t.id := by
  unfold Prot.Store.namedStruct at h
  cases h1 : Prot.namedFields (pr.namedElem (pr.sequence + 1)) t.fields with
  | none => rw [h1] at h; exact nomatch h
  | some r => rw [h1] at h; cases h; rfl

theorem namedEnum_id (pr : Prot.Store) (t : Prot.Enum) (q : UInt32 × Ts.NVariants) (h : pr.namedEnum t = some q) :
    q.1 = UInt32.ofNat t.id := by
  unfold Prot.Store.namedEnum at h
  cases h1 : Prot.namedVariants (pr.namedElem (pr.sequence + 1)) t.variants with
  | none => rw [h1] at h; exact nomatch h
  | some r => rw [h1] at h; cases h; rfl

theorem lookup_some_of_key {α β : Type} [BEq α] [LawfulBEq α] : ∀ {l : List (α × β)} {a : α}, a ∈ l.map Prod.fst → ∃ b, l.lookup a = some b
  | (x, y) :: l, a, h => by
    rw [List.lookup_cons]
    cases hx : a == x with
    | true => exact ⟨y, rfl⟩
    | false =>
      refine lookup_some_of_key (l := l) ?_
      rcases List.mem_cons.1 h with h | h
      · rw [h] at hx; simp at hx
      · exact h

theorem field_bound {pr : Prot.Store} (hw : Prot.WellTyped pr) {t : Prot.Struct} (ht : t ∈ pr.structs) {n : List Char} {id : UInt16}
    (h : FieldId t n id) (hsm : pr.sequence < 256) : id.toNat < 256 := by
  obtain ⟨x, hx, _, rfl⟩ := h
  have := hw.bound x.id (by
    simp only [Prot.declaredIds, List.mem_append, List.mem_flatMap, List.mem_map]
    exact .inl (.inl (.inr ⟨t, ht, x, hx, rfl⟩)))
  rw [UInt16.toNat_ofNat']
  omega

/-! ### C179 -/

/-- **C179** (partial) From texts to programs in two languages: for every accepted and finished protocol and
every workflow with a config that is accepted for it, such that both generators support what they use, references can be
written in TypeScript, names are different, nothing was declared in the group `InternalServiceGroup`, and there are less
than 256 ids: code of both languages is generated, it is code of the same protocol, and all that is required of the codec
of such programs holds (C176, C177). The full statement has no bound on the ids, no conditions on names and references. -/
theorem C179_texts_to_codecs_partial {ptext : List Char} {pr : Prot.Store} (hp : Prot.Parses ptext (.accepted pr))
    (ho : ¬ Prot.LeftOpen pr) {text : List Char} {flow : Flow.Store} {pr2 : Prot.Store}
    (h : Flow.Parses pr text (.accepted flow pr2)) {c : Flow.Config} (hc : flow.config = some c)
    (hn : NoServices pr) (hs : Prot.Supported pr2) (hna : NamesApart pr2) (sg : UInt16) :
    (∀ key hashes uuid, ∃ cd, Network.CodecOf pr2 sg cd ∧ cd.codec.key = key ∧ cd.codec.hashes = hashes ∧ cd.codec.uuid = uuid) ∧
    (Prot.TsSupported pr2 → Prot.TsVisible pr2 → ∀ cd, Network.CodecOf pr2 sg cd →
      ∃ f, pr2.tsFile sg = some f ∧ f.Means pr2 cd.codec.protocol) ∧
    (pr2.sequence < 256 → ∀ cd, Network.CodecOf pr2 sg cd → BothOk cd.codec.protocol cd.codec.key →
      c.selfKey = some (cd.codec.name (msgId cd.codec.key)) → Plain cd.codec → NamedOk cd) := by
  obtain ⟨hx1, hx2⟩ := C150_texts_to_codec_partial hp ho h hc hn hs sg
  obtain ⟨c0, hcl⟩ := accepted_adds h hc
  obtain ⟨self, assigned, rfl, hself⟩ := close_adds hcl
  have hi := Prot.reach_idsOk (Prot.accepted_reach hp)
  have hw : Prot.WellTyped (Flow.Syntax.addAll pr (services self assigned)) :=
    wellTyped_services hp _ (services_ok self assigned)
  have hnm := nameable_texts hp self assigned hs hna.options
  refine ⟨fun key hashes uuid => ?_, fun ht hv cd hcd => ?_, fun hsm cd hcd hkey hk hpl => ?_⟩
  · obtain ⟨cd, h1, h2, h3, h4⟩ := hx1 key hashes uuid
    obtain ⟨es, ts, k1, k2, _⟩ := Prot.named_protocol hnm h1.protocol
    exact ⟨⟨cd, es, ts⟩, ⟨h1, k1, k2⟩, h2, h3, h4⟩
  · obtain ⟨f, p, h1, h2, _, h4⟩ := C136_same_protocol_partial hp ho _ (services_ok self assigned) hs ht hv sg
    have : p = cd.codec.protocol := by
      have := h2.symm.trans hcd.rust.protocol
      injection this
    exact ⟨f, h1, this ▸ h4⟩
  · have ok := hx2 cd.codec hcd.rust hkey.sendOk hk hpl.toShort
    obtain ⟨es, ts, k1, k2, k3, k4, k5, k6⟩ := Prot.named_protocol hnm hcd.rust.protocol
    have ee : cd.enums = es := by have := hcd.enums.symm.trans k1; injection this
    have et : cd.structs = ts := by have := hcd.structs.symm.trans k2; injection this
    have sv := service_added hi hn self assigned
    have hf := services_fields self assigned
    have small := hs.small.1
    have name : ∀ {n : List Char} {t : Prot.Struct}, Service (Flow.Syntax.addAll pr (services self assigned)) n t →
        cd.codec.name (UInt32.ofNat t.id) = Flow.Syntax.dotted ["InternalServiceGroup".toList, n] := by
      intro n t ht
      unfold System.Codec.name
      rw [hcd.rust.names, lookup_ids _ (Prot.declared_parts hw.nodup).1 (fun t ht => (small t ht).1) ht.1, ht.2.1, ht.2.2]
      rfl
    obtain ⟨a1, b1, e1⟩ := hcd.rust.confirmation
    obtain ⟨a2, b2, e2, i2⟩ := hcd.rust.selfKeyResponse
    obtain ⟨a3, b3, e3, i3, l3⟩ := hcd.rust.hashRequest
    obtain ⟨a4, b4, e4, i4⟩ := hcd.rust.hashResponse
    obtain ⟨a5, b5, e5, i5⟩ := hcd.rust.beaconConfirmation
    obtain ⟨f1, m1, d1⟩ := (sv _).1 _ b1
    obtain ⟨f2, m2, d2⟩ := (sv _).1 _ b2
    obtain ⟨f3, m3, d3⟩ := (sv _).1 _ b3
    obtain ⟨f4, m4, d4⟩ := (sv _).1 _ b4
    obtain ⟨f5, m5, d5⟩ := (sv _).1 _ b5
    rw [show f1 = _ from (hf _ m1).1 rfl] at d1
    rw [show f2 = _ from (hf _ m2).2.1 rfl] at d2
    rw [show f3 = _ from (hf _ m3).2.2.1 rfl] at d3
    rw [show f4 = _ from (hf _ m4).2.2.2.1 rfl] at d4
    rw [show f5 = _ from (hf _ m5).2.2.2.2 rfl] at d5
    refine ⟨ok, ee ▸ k3, et ▸ k4, ee ▸ k5, et ▸ k6, fun id hid => ?_, ?_, ⟨?_, ?_⟩, ⟨?_, ?_⟩, ⟨?_, ?_⟩, ⟨?_, ?_⟩, ⟨?_, ?_⟩, ?_, hkey,
      hpl.hashBom, hpl.uuidBom, fun e b hb => ?_⟩
    · refine lookup_some_of_key ?_
      rw [hcd.rust.names, List.map_append, List.map_map, List.map_map, List.mem_append]
      rw [mapAll_keys (namedEnum_id _) hcd.enums, mapAll_keys (namedStruct_id _) hcd.structs] at hid
      exact hid.symm
    · rw [hcd.rust.names, List.map_append, List.map_map, List.map_map]
      exact hna.decls
    · rw [e1, name b1]; decide
    · rw [e1]; exact empty_named hcd.structs b1.1 d1
    · rw [e2, name b2]; decide
    · rw [e2]; exact one_named hcd.structs b2.1 d2 i2
    · rw [e3, name b3]; decide
    · rw [e3]; exact two_named hcd.structs b3.1 d3 i3 l3
    · rw [e4, name b4]; decide
    · rw [e4]; exact one_named hcd.structs b4.1 d4 i4
    · rw [e5, name b5]; decide
    · rw [e5]; exact one_named hcd.structs b5.1 d5 i5
    · simp only [List.mem_cons, List.not_mem_nil, or_false]
      rintro f (rfl | rfl | rfl | rfl | rfl)
      · exact field_bound hw b2.1 i2 hsm
      · exact field_bound hw b3.1 i3 hsm
      · exact field_bound hw b3.1 l3 hsm
      · exact field_bound hw b4.1 i4 hsm
      · exact field_bound hw b5.1 i5 hsm
    · refine small_maybe _ _ _ _ (fun y hy => ?_) hb
      cases e with
      | false => exact nomatch hy
      | true => cases hy; decide

theorem village_apart : NamesApart villageAll := by
  constructor <;> decide

theorem village_tsSupported : Prot.TsSupported villageAll := by
  constructor <;> decide

theorem village_flat : ∀ t ∈ villageAll.structs, ∀ f ∈ t.fields, f.refTypeId = none := by decide

theorem visible_of_flat {s : Prot.Store} (h : ∀ t ∈ s.structs, ∀ f ∈ t.fields, f.refTypeId = none) (he : s.enums = []) :
    Prot.TsVisible s where
  written t ht f hf u _ hr := by rw [h t ht f hf] at hr; exact nomatch hr
  full t ht f hf u _ hr := by rw [h t ht f hf] at hr; exact nomatch hr
  bare t ht f hf u _ hr := by rw [h t ht f hf] at hr; exact nomatch hr
  enums t ht f hf u _ hr := by rw [h t ht f hf] at hr; exact nomatch hr
  items e h1 := by rw [he] at h1; exact nomatch h1

/-- The codec of both languages. -/
def villageNamed : Network.Codec where
  codec := villageCodec
  enums := []
  structs := [(1, .cons ['a'] 2 .str false true .nil), (3, .cons ['n'] 4 (.num .u8) false false .nil),
    (5, .cons ['n'] 6 (.num .u8) false false .nil), (7, .cons ['n'] 8 (.num .u8) false false .nil),
    (9, .cons ['n'] 10 (.num .u8) false false .nil), (11, .cons ['n'] 12 (.num .u8) false false .nil),
    (14, .cons "uuid".toList 15 .str false false .nil),
    (16, .cons "protocol".toList 17 .str false false (.cons "workflow".toList 18 .str false false .nil)),
    (19, .cons "error".toList 20 .str false true .nil), (21, .cons "error".toList 22 .str false true .nil), (23, .nil)]

theorem village_named : Network.CodecOf villageAll 7 villageNamed where
  rust := village_codec
  enums := rfl
  structs := rfl

theorem village_both : BothOk villageNamed.codec.protocol villageNamed.codec.key :=
  ⟨village_key.1, village_key.2.1, by simp [maybeText, TsFieldsOk, TsElemOk, Fields.ids], village_key.2.2,
    by simp [maybeText, TsFieldsClean]⟩

theorem village_plain : Plain villageNamed.codec where
  toShort := village_short
  hashBom := by constructor <;> (unfold NoBom; decide)
  uuidBom u := by
    by_cases hu : u = 1
    · rw [show villageNamed.codec.uuid u = ['1'] by simp [villageNamed, villageCodec, hu]]; unfold NoBom; decide
    · rw [show villageNamed.codec.uuid u = ['2'] by simp [villageNamed, villageCodec, hu]]; unfold NoBom; decide

/-- All that C179 asks for is there, and so is what it promises. -/
example : NamedOk villageNamed ∧ ∃ f, villageAll.tsFile 7 = some f ∧ f.Means villageAll villageCodec.protocol := by
  obtain ⟨_, h2, h3⟩ := C179_texts_to_codecs_partial village_prot village_closed village_flow rfl village_none
    village_supported village_apart 7
  exact ⟨h3 (by decide) villageNamed village_named village_both (by decide) village_plain,
    h2 village_tsSupported (visible_of_flat village_flat rfl) villageNamed village_named⟩

/-- **C179** (partial) What C176 says of requests holds of the programs generated from such texts: if a request of a
TypeScript client is resolved, then user code of the Rust server was called with the same value that user code of the
client passed, and the client returns the same value that user code of the server decided on. -/
theorem C179_request_end_to_end_partial {ptext : List Char} {pr : Prot.Store} (hp : Prot.Parses ptext (.accepted pr))
    (ho : ¬ Prot.LeftOpen pr) {text : List Char} {flow : Flow.Store} {pr2 : Prot.Store}
    (h : Flow.Parses pr text (.accepted flow pr2)) {c : Flow.Config} (hc : flow.config = some c)
    (hn : NoServices pr) (hs : Prot.Supported pr2) (hna : NamesApart pr2) {sg : UInt16} (hsm : pr2.sequence < 256)
    {cd : Network.Codec} (hcd : Network.CodecOf pr2 sg cd) (hkey : BothOk cd.codec.protocol cd.codec.key)
    (hk : c.selfKey = some (cd.codec.name (msgId cd.codec.key))) (hpl : Plain cd.codec)
    {cfg : Server.Cfg Rust.Msg} {env : Server.Env Rust.Msg} {opts : Server.Options} {ccfg : TsClient.Cfg} {cenv : TsClient.Env}
    (hw : cfg.workflow = flow) (es : List (UInt64 × Network.Event (cd.rustServer cfg env opts) (cd.tsClient ccfg cenv)))
    (ht : TsRustTyped cd (Network.run es .new)) (hsn : Network.Small (Network.run es .new)) {u : Network.Uuid}
    {cn : Network.Conn (cd.tsClient ccfg cenv)} (hcn : (Network.run es .new).find u = some cn) {k o : Nat} {r : Flow.Request}
    (hr : r ∈ flow.requests) {b v : TsServer.Js} {ref : Flow.Ref}
    (h1 : .created o (.request r) b ∈ cn.client.2.past) (h2 : .called k o ∈ cn.client.2.past)
    (h3 : .ended k (.resolved ref v) ∈ cn.client.2.past) (hd : Distinct flow r) :
    ∃ p x s l, AnswerOf r ref ∧ Looks cd p b ∧ cd.codec.name (msgId p) = r.request.getD [] ∧
      Looks cd x v ∧ cd.codec.name (msgId x) = ref ∧ Server.Decides env r s u p (.msg ref x) l := by
  have ok := (C179_texts_to_codecs_partial hp ho h hc hn hs hna sg).2.2 hsm cd hcd hkey hk hpl
  subst hw
  obtain ⟨p, x, served, s, l, g1, g2, g3, g4, g5, g6, g7, g8⟩ := C176_request_end_to_end cd ok es ht hsn hcn h1 h2 h3 hd
  have := (request_of hp h hr).1 served g6 g7
  subst this
  exact ⟨p, x, s, l, g1, g2, g3, g4, g5, g8⟩

theorem storage_low : ∀ (fuel : Nat) {buf : Bytes} {acc s : Ts.Storage}, (∀ p ∈ acc, p.1 < 256) →
    Ts.storageLoop fuel acc buf = .ok s → ∀ p ∈ s, p.1 < 256
  | 0, _, _, _, ha, h => by cases h; exact ha
  | fuel + 1, buf, acc, s, ha, h => by
    simp only [Ts.storageLoop] at h
    split at h
    · cases h; exact ha
    · cases hn : Ts.storageNext buf with
      | err => rw [hn] at h; exact nomatch h
      | panic => rw [hn] at h; exact nomatch h
      | ok r =>
        rw [hn] at h
        refine storage_low fuel (fun p hp => ?_) h
        rcases List.mem_cons.1 hp with rfl | hp
        · unfold Ts.storageNext at hn
          cases buf with
          | nil => exact nomatch hn
          | cons b buf =>
            simp only [Ts.getId] at hn
            split at hn
            · exact nomatch hn
            · split at hn
              · exact nomatch hn
              · split at hn
                · exact nomatch hn
                · split at hn
                  · exact nomatch hn
                  · cases hn; exact b.toNat_lt
        · exact ha p hp

/-- TypeScript code cannot decode a struct with a field that has an id from 256 on, whatever the bytes are. -/
theorem large_undecodable {f : UInt16} (hf : 256 ≤ f.toNat) (e : Elem) (rep opt : Bool) (rest : Fields) (b : Bytes)
    (v : (Fields.cons f e rep opt rest).Val) : Ts.decode (.cons f e rep opt rest) b ≠ .ok v := by
  intro h
  unfold Ts.decode at h
  cases hs : Ts.getStorage b with
  | err => rw [hs] at h; exact nomatch h
  | panic => rw [hs] at h; exact nomatch h
  | ok s =>
    have hl := storage_low _ (by simp) hs
    have hg : s.get f.toNat = none := by
      unfold Ts.Storage.get
      rw [List.lookup_eq_none_iff]
      intro p hp
      have := hl p hp
      simp only [bne_iff_ne, ne_eq]
      omega
    rw [hs] at h
    simp only [bind, Res.bind, Ts.Fields.dec, hg] at h
    exact nomatch h

theorem looked_of_got : ∀ {h : List TsClient.Act} {q : UInt32} {m : TsClient.Msg}, .got q m ∈ h → (q, m) ∈ TsClient.looked h
  | a :: h, q, m, hm => by
    rcases List.mem_cons.1 hm with rfl | hm
    · simp [TsClient.looked]
    · have := looked_of_got hm
      cases a <;> simp_all [TsClient.looked]

/-- Why a client of a large protocol does not get ready. -/
theorem large_not_ready {cd : Network.Codec} (hd : (cd.enums.map Prod.fst ++ cd.structs.map Prod.fst).Nodup)
    (hm : (cd.codec.selfKeyResponse.1, .cons "uuid".toList cd.codec.selfKeyResponse.2 .str false false .nil) ∈ cd.structs)
    (hnamed : ∀ id, id ∈ cd.enums.map Prod.fst ∨ id ∈ cd.structs.map Prod.fst → ∃ ref, (id, ref) ∈ cd.codec.names ∧ cd.codec.name id = ref)
    (hrefs : (cd.codec.names.map Prod.snd).Nodup)
    (hname : cd.codec.name cd.codec.selfKeyResponse.1 = serviceRef "SelfKeyResponse")
    (hap : ∀ p ∈ cd.codec.names, Network.Apart p.2 (serviceRef "SelfKeyResponse"))
    (hl : 256 ≤ cd.codec.selfKeyResponse.2.toNat) (cfg : TsClient.Cfg) (hc : cfg.decoder = cd.decoder) (env : TsClient.Env)
    (is : List TsClient.Input) (hlen : (TsClient.arrived (TsClient.run cfg env is .new).2.past).length < 2 ^ 64) (v : TsClient.Js) :
    .emitted (.ready v) ∉ (TsClient.run cfg env is .new).2.past := by
  intro h
  obtain ⟨newer, older, e⟩ := List.append_of_mem h
  obtain ⟨n, q1, q2, m1, m2, x1, x2, x3, x4, x5, x6, e2, ⟨ps, hk, _⟩, _⟩ := C103_ready_after_handshake cfg env is e
  have hdel : .delivered (.assign n true) q1 m1 ∈ (TsClient.run cfg env is .new).2.past := by rw [e, e2]; simp
  obtain ⟨y1, y2, ey⟩ := List.append_of_mem hdel
  have hlaw := TsClient.lawful_run cfg env is
  rw [ey] at hlaw
  obtain ⟨_, _, h', eg⟩ := hlaw.at
  have hgot : .got q1 m1 ∈ (TsClient.run cfg env is .new).2.past := by rw [ey, eg]; simp
  obtain ⟨fs, _, _, hfs, _⟩ := C102_messages_in_order cfg env is hlen
  have hin : (q1, m1) ∈ TsClient.messages cfg.decoder fs := by
    rw [hfs]; exact List.mem_append_left _ (looked_of_got hgot)
  unfold TsClient.messages at hin
  obtain ⟨inc, hi1, hi2⟩ := List.mem_map.1 hin
  obtain ⟨f, _, hf⟩ := List.mem_filterMap.1 hi1
  have hget : ∃ body, cd.getMsg f.hdr.id body = .ok m1 := by
    rw [hc] at hf
    unfold Spec.delivered at hf
    split at hf
    · split at hf
      · rename_i t ht
        cases hf
        cases hi2
        exact ⟨_, ht⟩
      · exact nomatch hf
    · exact nomatch hf
  obtain ⟨body, hget⟩ := hget
  have key : ∀ id, (id ∈ cd.enums.map Prod.fst ∨ id ∈ cd.structs.map Prod.fst) → m1.path = Flow.splitDot (cd.codec.name id) →
      id = cd.codec.selfKeyResponse.1 := by
    intro id hid hp
    obtain ⟨ref, r1, r2⟩ := hnamed id hid
    obtain ⟨ns, s1, s2, _⟩ := holds_path hk
    rw [hp, r2] at s2
    have hr := hap _ r1 _ _ (TsServer.spells_splitDot ref) (show TsServer.Spells ns (serviceRef "SelfKeyResponse") from s1) s2.symm
    obtain ⟨ref2, t1, t2⟩ := hnamed _ (.inr (List.mem_map.2 ⟨_, hm, rfl⟩))
    rw [hname] at t2
    have := nodup_eq hrefs r1 t1 (show ref = ref2 from hr.trans t2)
    exact congrArg Prod.fst this
  obtain ⟨_, d1, d2⟩ := List.nodup_append.1 hd
  unfold Network.Codec.getMsg at hget
  split at hget
  · rename_i vs hvs
    have hmem : f.hdr.id ∈ cd.enums.map Prod.fst := List.mem_map.2 ⟨_, mem_of_lookup hvs, rfl⟩
    cases hv : Ts.decodeEnum vs.erase body with
    | err => rw [hv] at hget; exact nomatch hget
    | panic => rw [hv] at hget; exact nomatch hget
    | ok w =>
      rw [hv] at hget
      cases hget
      have := key _ (.inl hmem) rfl
      exact d2 _ hmem _ (List.mem_map.2 ⟨_, hm, rfl⟩) this
  · split at hget
    · rename_i fs' hfs'
      have hmem := mem_of_lookup hfs'
      cases hv : Ts.decode fs'.erase body with
      | err => rw [hv] at hget; exact nomatch hget
      | panic => rw [hv] at hget; exact nomatch hget
      | ok w =>
        rw [hv] at hget
        cases hget
        have hid := key _ (.inr (List.mem_map.2 ⟨_, hmem, rfl⟩)) rfl
        have hfe : fs' = _ := congrArg Prod.snd (nodup_eq d1 hmem hm hid)
        subst hfe
        exact large_undecodable hl _ _ _ _ _ _ hv
    · exact nomatch hget

theorem added_structs (s : Prot.Store) (n : List Char) (fs : List Prot.Field) :
    s.sequence ≤ (s.addService n fs).sequence ∧
    ∀ t ∈ (s.addService n fs).structs, t ∈ s.structs ∨ s.sequence < t.id := by
  unfold Prot.Store.addService
  dsimp only
  generalize hg : (if s.groups.any (fun g => g.name == Prot.serviceGroup && g.parent == 0) then s else _) = s1
  have h1 : s1.structs = s.structs ∧ s.sequence ≤ s1.sequence := by
    rw [← hg]
    split
    · exact ⟨rfl, Nat.le_refl _⟩
    · exact ⟨rfl, Nat.le_succ _⟩
  split
  · exact ⟨h1.2, fun t ht => .inl (h1.1 ▸ ht)⟩
  · have := h1.2
    refine ⟨by dsimp only; omega, fun t ht => ?_⟩
    rcases List.mem_append.1 ht with ht | ht
    · exact .inl (h1.1 ▸ ht)
    · rw [List.mem_singleton.1 ht]; exact .inr (by dsimp only; omega)

theorem added_later : ∀ (l : List (List Char × List Prot.Field)) (s : Prot.Store),
    ∀ t ∈ (Flow.Syntax.addAll s l).structs, t ∈ s.structs ∨ s.sequence < t.id
  | [], _, t, ht => .inl ht
  | x :: l, s, t, ht => by
    obtain ⟨h1, h2⟩ := added_structs s x.1 x.2
    rcases added_later l (s.addService x.1 x.2) t ht with h | h
    · exact h2 t h
    · exact .inr (by omega)

theorem apart_of_foreign {ref : Flow.Ref} (h : Foreign ref) : Network.Apart ref (serviceRef "SelfKeyResponse") := by
  intro ns ms h1 h2 h3
  have hm : ms = ["InternalServiceGroup".toList, "SelfKeyResponse".toList] :=
    (TsServer.spells_unique h2).trans (by decide)
  have hne : ns ≠ [] := by rintro rfl; exact h1
  refine absurd ?_ (h ns h1)
  subst hm
  rcases h3 with ⟨t, ht⟩ | ⟨t, ht⟩
  · cases ns with
    | nil => exact absurd rfl hne
    | cons a ns => injection ht with e _; rw [e]; rfl
  · rw [← ht]; rfl

theorem apart_services (self assigned : Bool) : ∀ n ∈ (services self assigned).map Prod.fst,
    Network.Apart (Flow.Syntax.dotted ["InternalServiceGroup".toList, n]) (serviceRef "SelfKeyResponse") := by
  have key : ∀ self assigned : Bool, ∀ n ∈ (services self assigned).map Prod.fst,
      Flow.splitDot (Flow.Syntax.dotted ["InternalServiceGroup".toList, n]) = ["InternalServiceGroup".toList, n] := by decide
  intro n hn ns ms h1 h2 h3
  have hm : ms = ["InternalServiceGroup".toList, "SelfKeyResponse".toList] := (TsServer.spells_unique h2).trans (by decide)
  have hk : ns = ["InternalServiceGroup".toList, n] := (TsServer.spells_unique h1).trans (key self assigned n hn)
  have : ns = ms := by
    rcases h3 with h3 | h3
    · exact h3.eq_of_length (by rw [hm, hk]; rfl)
    · exact (h3.eq_of_length (by rw [hm, hk]; rfl)).symm
  subst this
  exact spells_ref h1 h2

/-- **C179** (disagreement) For every accepted and finished protocol with 254 ids or more, every workflow
with a config that is accepted for it, and whatever the server sends: no TypeScript client with the generated codec ever
gets ready, in no run. Neither does it matter which messages the workflow uses, and how many ids they need. -/
theorem C179_large_never_ready {ptext : List Char} {pr : Prot.Store} (hp : Prot.Parses ptext (.accepted pr))
    {text : List Char} {flow : Flow.Store} {pr2 : Prot.Store}
    (h : Flow.Parses pr text (.accepted flow pr2)) {c : Flow.Config} (hc : flow.config = some c)
    (hn : NoServices pr) (hs : Prot.Supported pr2) (hna : NamesApart pr2)
    (hf1 : ∀ t ∈ pr.structs, Foreign (Flow.Syntax.dotted (t.path ++ [t.name])))
    (hf2 : ∀ t ∈ pr.enums, Foreign (Flow.Syntax.dotted (t.path ++ [t.name])))
    (hl : 254 ≤ pr.sequence) (sg : UInt16) {cd : Network.Codec} (hcd : Network.CodecOf pr2 sg cd)
    (cfg : TsClient.Cfg) (hd : cfg.decoder = cd.decoder) (env : TsClient.Env) (is : List TsClient.Input)
    (hlen : (TsClient.arrived (TsClient.run cfg env is .new).2.past).length < 2 ^ 64) (v : TsClient.Js) :
    .emitted (.ready v) ∉ (TsClient.run cfg env is .new).2.past := by
  obtain ⟨c0, hcl⟩ := accepted_adds h hc
  obtain ⟨self, assigned, rfl, hself⟩ := close_adds hcl
  have hi := Prot.reach_idsOk (Prot.accepted_reach hp)
  have hw : Prot.WellTyped (Flow.Syntax.addAll pr (services self assigned)) :=
    wellTyped_services hp _ (services_ok self assigned)
  have hnm := nameable_texts hp self assigned hs hna.options
  obtain ⟨es, ts, k1, k2, k3, k4, k5, k6⟩ := Prot.named_protocol hnm hcd.rust.protocol
  have ee : cd.enums = es := by have := hcd.enums.symm.trans k1; injection this
  have et : cd.structs = ts := by have := hcd.structs.symm.trans k2; injection this
  have sv := service_added hi hn self assigned
  have hf := services_fields self assigned
  have small := hs.small.1
  obtain ⟨a2, b2, e2, i2⟩ := hcd.rust.selfKeyResponse
  obtain ⟨f2, m2, d2⟩ := (sv _).1 _ b2
  rw [show f2 = _ from (hf _ m2).2.1 rfl] at d2
  have hname : cd.codec.name (UInt32.ofNat a2.id) = serviceRef "SelfKeyResponse" := by
    unfold System.Codec.name
    rw [hcd.rust.names, lookup_ids _ (Prot.declared_parts hw.nodup).1 (fun t ht => (small t ht).1) b2.1, b2.2.1, b2.2.2]
    decide
  refine large_not_ready ?_ ?_ ?_ ?_ ?_ ?_ ?_ cfg hd env is hlen v
  · obtain ⟨p, z1, _, _, z2, _⟩ := Prot.rustProtocol_good hw hs sg
    have : p = cd.codec.protocol := by
      have := z1.symm.trans hcd.rust.protocol
      injection this
    rw [this, k3, k4, List.map_map, List.map_map] at z2
    rw [ee, et]
    exact z2
  · rw [e2]; exact one_named hcd.structs b2.1 d2 i2
  · intro id hid
    have hid' : id ∈ cd.codec.names.map Prod.fst := by
      rw [hcd.rust.names, List.map_append, List.map_map, List.map_map, List.mem_append]
      rw [mapAll_keys (namedEnum_id _) hcd.enums, mapAll_keys (namedStruct_id _) hcd.structs] at hid
      exact hid.symm
    obtain ⟨ref, hr⟩ := lookup_some_of_key hid'
    exact ⟨ref, mem_of_lookup hr, by unfold System.Codec.name; rw [hr]; rfl⟩
  · rw [hcd.rust.names, List.map_append, List.map_map, List.map_map]
    exact hna.decls
  · rw [e2]; exact hname
  · obtain ⟨_, q1, ts', q2, q3⟩ := addAll_structs (services self assigned) hi
    intro q hq
    rw [hcd.rust.names, List.mem_append] at hq
    rcases hq with hq | hq
    · obtain ⟨t, ht, rfl⟩ := List.mem_map.1 hq
      rw [q2] at ht
      rcases List.mem_append.1 ht with ht | ht
      · exact apart_of_foreign (hf1 t ht)
      · obtain ⟨x, hx, r1, r2, _⟩ := q3.back ht
        dsimp only
        rw [r1, r2]
        exact apart_services self assigned _ (List.mem_map.2 ⟨x, hx, rfl⟩)
    · obtain ⟨t, ht, rfl⟩ := List.mem_map.1 hq
      rw [q1] at ht
      exact apart_of_foreign (hf2 t ht)
  · obtain ⟨x, hx, hxn, hxi⟩ := i2
    have hlow : pr.sequence < a2.id := by
      rcases added_later _ _ _ b2.1 with hz | hz
      · exact absurd b2.2.1 (hn.1 _ hz)
      · exact hz
    have hb := (small a2 b2.1).2 x hx
    rw [d2] at hx
    simp only [Prot.numberFields, List.mem_singleton] at hx
    subst hx
    rw [hxi, UInt16.toNat_ofNat']
    dsimp only at hb ⊢
    omega

/-! A protocol with 254 ids, that is one struct with 251 fields, and a small workflow. -/

def bigText : List Char :=
  "struct K { str a?; } struct Q {".toList ++
    (List.range 251).flatMap (fun i => ['u', '8', ' ', 'f'] ++ Nat.toDigits 10 i ++ [';']) ++ ['}']

def bigField (i : Nat) : Prot.Field :=
  ⟨4 + i, 3, 'f' :: Nat.toDigits 10 i, ['u', '8'], none, [], false, false, [['u', '8']]⟩

def bigProt : Prot.Store :=
  ⟨254, [⟨1, 0, ['K'], [villageField 2 1 ['a'] true], []⟩, ⟨3, 0, ['Q'], (List.range 251).map bigField, []⟩], [], [],
    none, none, none, none, []⟩

def bigFlowText : List Char :=
  "&config { Producer: rust; Consumer: typescript; SelfKey: K; AssignedKey: K; }\nK!K{(K);}".toList

def bigService (id : Nat) (name : List Char) (fields : List Prot.Field) : Prot.Struct :=
  ⟨id, 255, name, fields, ["InternalServiceGroup".toList]⟩

def bigAll : Prot.Store :=
  ⟨265, bigProt.structs ++ [
      bigService 256 "SelfKeyResponse".toList [villageField 257 256 "uuid".toList false],
      bigService 258 "HashRequest".toList [villageField 259 258 "protocol".toList false, villageField 260 258 "workflow".toList false],
      bigService 261 "HashResponse".toList [villageField 262 261 "error".toList true],
      bigService 263 "BeaconConfirmation".toList [villageField 264 263 "error".toList true],
      bigService 265 "ConnectConfirmationBeacon".toList []],
    [], [⟨255, 0, "InternalServiceGroup".toList, [256, 258, 261, 263, 265], [], []⟩], none, none, none, none, []⟩

def bigConfig : Flow.Config := ⟨[.rust], [.typescript], some ['K'], some ['K'], true, [.word], .nothing⟩

def bigFlow : Flow.Store :=
  ⟨[], [⟨some ['K'], some ['K'], [⟨none, some ['K'], [], [], false⟩], [], [], .nothing, true⟩], [], some bigConfig⟩

theorem big_prot : Prot.Parses bigText (.accepted bigProt) := ⟨6000, by decide +kernel⟩

theorem big_flow : Flow.Parses bigProt bigFlowText (.accepted bigFlow bigAll) := ⟨300, by decide +kernel⟩

theorem big_supported : Prot.Supported bigAll := by
  constructor <;> decide +kernel

theorem big_foreign : ∀ t ∈ bigProt.structs, Foreign (Flow.Syntax.dotted (t.path ++ [t.name])) := by
  have key : ∀ t ∈ bigProt.structs, (Flow.splitDot (Flow.Syntax.dotted (t.path ++ [t.name]))).head? ≠
      some "InternalServiceGroup".toList := by decide +kernel
  intro t ht ns hns
  rw [TsServer.spells_unique hns]
  exact key t ht

/-- **C179** (disagreement) A protocol and a workflow that both parsers accept and both generators make code
from: the codecs of both languages are there and mean the same protocol, messages of the workflow have three ids only. But
no TypeScript client with this code ever gets ready. -/
theorem C179_large_protocol_violated : ∃ ptext pr text flow pr2 c, Prot.Parses ptext (.accepted pr) ∧ ¬ Prot.LeftOpen pr ∧
    Flow.Parses pr text (.accepted flow pr2) ∧ flow.config = some c ∧ NoServices pr ∧ Prot.Supported pr2 ∧
    NamesApart pr2 ∧ Prot.TsSupported pr2 ∧ Prot.TsVisible pr2 ∧
    (∀ sg key hashes uuid, ∃ cd f, Network.CodecOf pr2 sg cd ∧ cd.codec.key = key ∧ cd.codec.hashes = hashes ∧
      cd.codec.uuid = uuid ∧ pr2.tsFile sg = some f ∧ f.Means pr2 cd.codec.protocol) ∧
    ∀ sg cd, Network.CodecOf pr2 sg cd → ¬ NamedOk cd ∧ ∀ cfg : TsClient.Cfg, cfg.decoder = cd.decoder → ∀ env is,
      (TsClient.arrived (TsClient.run cfg env is .new).2.past).length < 2 ^ 64 →
      ∀ v, .emitted (.ready v) ∉ (TsClient.run cfg env is .new).2.past := by
  have ho : ¬ Prot.LeftOpen bigProt := by unfold Prot.LeftOpen; decide +kernel
  have hn : NoServices bigProt := by unfold NoServices; decide +kernel
  have ha : NamesApart bigAll := by constructor <;> decide +kernel
  have ht : Prot.TsSupported bigAll := by constructor <;> decide +kernel
  have hv : Prot.TsVisible bigAll := visible_of_flat (by decide +kernel) rfl
  refine ⟨bigText, bigProt, bigFlowText, bigFlow, bigAll, bigConfig, big_prot, ho, big_flow, rfl, hn, big_supported, ha, ht, hv,
    fun sg key hashes uuid => ?_, fun sg cd hcd => ⟨fun hok => ?_, fun cfg hd env is hlen v => ?_⟩⟩
  · obtain ⟨h1, h2, _⟩ := C179_texts_to_codecs_partial big_prot ho big_flow rfl hn big_supported ha sg
    obtain ⟨cd, k1, k2, k3, k4⟩ := h1 key hashes uuid
    obtain ⟨f, k5, k6⟩ := h2 ht hv cd k1
    exact ⟨cd, f, k1, k2, k3, k4, k5, k6⟩
  · obtain ⟨a, ⟨b1, b2, b3⟩, _, x, hx, _, hi⟩ := hcd.rust.selfKeyResponse
    have key : ∀ t ∈ bigAll.structs, t.path = ["InternalServiceGroup".toList] → ∀ f ∈ t.fields, 256 ≤ (UInt16.ofNat f.id).toNat := by
      decide +kernel
    have := key a b1 b2 x hx
    have := hok.ids cd.codec.selfKeyResponse.2 (by simp)
    rw [hi] at this
    omega
  · exact C179_large_never_ready big_prot big_flow rfl hn big_supported ha big_foreign (fun t ht => nomatch ht)
      (by decide +kernel) sg hcd cfg hd env is hlen v

end Verif.Props
