import Verif.Props.NetworkTexts
import Verif.Props.NetworkLive
import Verif.Props.NetworkTsTsLive
set_option autoImplicit false
/-!
From the texts of a protocol and a workflow to calls of TypeScript clients that return: C180 for a TypeScript server, C181 for a
Rust server.
-/
namespace Verif.Props

open Verif Verif.Spec Verif.System Verif.Network

/-! ### C180 -/

section
variable {cd : Network.Codec} {cfg : TsServer.Cfg} {env : TsServer.Env} {opts : Server.Options}
  {takes : List TsServer.Act → Network.Uuid → UInt32 → TsServer.Out → Bool} {ccfg : TsClient.Cfg} {cenv : TsClient.Env}

/-- The TypeScript server as `Codec.tsServer` has it. -/
abbrev tsServerCfg (cd : Network.Codec) (cfg : TsServer.Cfg) : TsServer.Cfg :=
  { cfg with decoder := cd.decoder, selfKey := cd.codec.name (msgId cd.codec.key) }

/-- The TypeScript client as `Codec.tsClient` has it. -/
abbrev tsClientCfg (cd : Network.Codec) (ccfg : TsClient.Cfg) : TsClient.Cfg := { ccfg with decoder := cd.decoder }

theorem ts_heard_right (ok : NamedOk cd) {o : TsClient.Out} (h : ∀ ref body, o = .msg ref body → TsPasses cd ref body) :
    TsHeardRight (tsNamed cd) (tsServerCfg cd cfg) (fun ts q o => cd.pack (cd.call o) q ts) o := by
  obtain ⟨m, e, hp, hsame⟩ := ts_named_call (cfg := { cfg with decoder := cd.decoder }) ok h
  obtain ⟨x, hx, hfr⟩ := ts_frame ok hp
  have ho : ∃ ps, x = .obj ps := by cases hx <;> exact ⟨_, rfl⟩
  obtain ⟨ps, hps⟩ := ho
  refine ⟨_, ps, fun ts q => ?_, hsame x hx, hps⟩
  obtain ⟨f, h1, h2, h3, h4⟩ := hfr q ts
  refine ⟨f, h1, h3, ?_, h4⟩
  dsimp only
  rw [e]
  exact h2

theorem ts_read_right (ok : NamedOk cd) {o : TsServer.Out} (h : ∀ ref body, o = .msg ref body → TsPasses cd ref body) :
    TsReadRight (tsNamed cd) (tsClientCfg cd ccfg) (fun ts q o => cd.pack (cd.answer o) q ts) o := by
  obtain ⟨m, e, hp, hsame⟩ := ts_named_answer ok h
  obtain ⟨x, hx, hfr⟩ := ts_frame ok hp
  refine ⟨_, fun ts q => ?_, hsame x hx⟩
  obtain ⟨f, h1, h2, h3, h4⟩ := hfr q ts
  refine ⟨f, h1, h3, ?_, h4⟩
  dsimp only
  rw [e]
  exact h2

/-- A declared request with its own type whose answers can be told apart, or a declared beacon with its own type
that is no request, with an object of its type. -/
inductive TsCallable (cd : Network.Codec) (flow : Flow.Store) : TsClient.Kind → TsServer.Js → Prop where
  | request {req : Flow.Request} {body : TsServer.Js} : req ∈ flow.requests → TsOwnType flow (req.request.getD []) →
      (∀ a b, AnswerOf req a → AnswerOf req b → Network.Apart a b) → TsPasses cd (req.request.getD []) body →
      TsCallable cd flow (.request req) body
  | beacon {b : Flow.Broadcast} {body : TsServer.Js} : b ∈ flow.beacons → (∀ r ∈ flow.requests, r.request ≠ some b.reference) →
      TsOwnType flow b.reference → TsPasses cd b.reference body → TsCallable cd flow (.beacon b.reference) body

/-- User code of the server decides within what the workflow allows, with objects of the types. -/
def TsDecided (cd : Network.Codec) (kind : TsClient.Kind) (x : TsServer.Settled) : Prop :=
  ∃ o res casts, TsDecides kind x o res casts ∧ (∀ ref body, o = .msg ref body → TsPasses cd ref body) ∧
    ∀ y ∈ eachCast casts, TsPasses cd y.2.1 y.2.2

/-- **C180** (partial) From texts to answers: take a TypeScript client and a TypeScript server generated from an accepted protocol
and an accepted workflow with a config, as in C179. Whatever happened to clients and server before, as long as the server
runs, a new client can get ready, and make any calls one after another: user code of the client gets for each what user
code of the server decides on, with the broadcasts for it. The full statement has no bound on ids (C179) and no
conditions on names. -/
theorem C180_texts_to_answers_partial {ptext : List Char} {pr : Prot.Store} (hp : Prot.Parses ptext (.accepted pr))
    (ho : ¬ Prot.LeftOpen pr) {text : List Char} {flow : Flow.Store} {pr2 : Prot.Store}
    (h : Flow.Parses pr text (.accepted flow pr2)) {c : Flow.Config} (hc : flow.config = some c)
    (hn : NoServices pr) (hs : Prot.Supported pr2) (hna : NamesApart pr2) {sg : UInt16} (hsm : pr2.sequence < 256)
    (hcd : Network.CodecOf pr2 sg cd) (hkey : BothOk cd.codec.protocol cd.codec.key)
    (hk : c.selfKey = some (cd.codec.name (msgId cd.codec.key))) (hfk : Network.Foreign (cd.codec.name (msgId cd.codec.key)))
    (hpl : Plain cd.codec) (hw : cfg.workflow = flow) (hhash : cd.codec.hashes = (cfg.protocolHash, cfg.workflowHash))
    (sm : TsSmooth cfg env takes ccfg cenv)
    (es : List (UInt64 × Event (cd.tsServer cfg env opts takes) (cd.tsClient ccfg cenv)))
    (hrun : (run es .new).server.1 = false) {u : Network.Uuid} (hf : TsFresh (run es .new) u)
    (hid : ∃ x ∈ cd.codec.uuid u, TsClient.jsSpace x = false)
    (calls : List (TsClient.Kind × TsServer.Js × TsServer.Settled)) (hlen : calls.length + 3 ≤ 4294967296)
    (hcalls : ∀ x ∈ calls, TsCallable cd flow x.1 x.2.1 ∧ TsDecided cd x.1 x.2.2) :
    ∃ es1 es2 : List (UInt64 × Event (cd.tsServer cfg env opts takes) (cd.tsClient ccfg cenv)),
      (∀ e ∈ es1, TsRegular u e.2) ∧
      (∃ cn, (run (es ++ es1) .new).find u = some cn ∧ .emitted (.ready (.str (cd.codec.uuid u))) ∈ cn.client.2.past) ∧
      TsAllReturned u calls (run (es ++ es1) .new) (run (es ++ es1 ++ es2) .new) := by
  have ok := (C179_texts_to_codecs_partial hp ho h hc hn hs hna sg).2.2 hsm cd hcd hkey hk hpl
  have sm' : TsSmooth (tsServerCfg cd cfg) env takes (tsClientCfg cd ccfg) cenv :=
    ⟨⟨sm.call, sm.sends, sm.throws, sm.during⟩, sm.taken, sm.answer, sm.quiet, sm.kept⟩
  obtain ⟨es1, h1, h2, cn, h3, h4, _, h6⟩ := C166_ts_ts_client_gets_ready sm' (tsNamed cd) es hrun hf hhash hfk
    (ts_heard_right ok (by intros; contradiction)) (ts_heard_right ok (by intros; contradiction))
    (ts_read_right ok (by intros; contradiction)) (ts_read_right ok (by intros; contradiction)) hid
  have key := C167_ts_ts_calls_return sm' (tsNamed cd) calls (es ++ es1) h2
    (fun c' hc' => by rw [h3] at hc'; cases hc'; rw [h6]; omega)
  refine Exists.elim (key (fun x hx => ?_)) (fun es2 j => ⟨es1, es2, h1, ⟨cn, h3, h4⟩, j.2⟩)
  · obtain ⟨kind, body, st⟩ := x
    obtain ⟨c1, o, res, casts, d1, d2, d3⟩ := hcalls _ hx
    refine ⟨?_, o, res, casts, d1, ts_read_right ok d2, fun y hy _ => ts_read_right ok (fun ref b e => ?_)⟩
    · cases c1 with
      | @request req _ r1 r2 r3 r4 =>
        obtain ⟨uniq, _, _⟩ := request_of hp h r1
        obtain ⟨q, hq⟩ := Option.isSome_iff_exists.1 ((Flow.accepted_once h).1.requests.2 req r1)
        rw [hq, Option.getD_some] at r2 r4 uniq
        refine .request (ref := q) (show req ∈ cfg.workflow.requests from hw ▸ r1) hq
          (show ∀ r ∈ cfg.workflow.requests, _ from hw ▸ uniq) (show TsOwnType cfg.workflow q from hw ▸ r2) r3 (ts_heard_right ok ?_)
        intro ref' body' e
        injection e with e1 e2
        rw [← e1, ← e2]
        exact r4
      | @beacon b _ r1 r2 r3 r4 =>
        refine .beacon (show b ∈ cfg.workflow.beacons from hw ▸ r1) (show ∀ r ∈ cfg.workflow.requests, _ from hw ▸ r2)
          (show TsOwnType cfg.workflow _ from hw ▸ r3) (ts_heard_right ok ?_)
        intro ref' body' e
        injection e with e1 e2
        rw [← e1, ← e2]
        exact r4
    · injection e with e1 e2
      rw [← e1, ← e2]
      exact d3 y hy

end

/-! The witness: the protocol and workflow of C150 in TypeScript. -/

/-- The object of a struct with the field `n`. -/
def villageJs (x : Nat) : TsServer.Js := .obj [(['n'], .num x)]

theorem village_stands {id : UInt32} {f : UInt16} (h : (id, .cons ['n'] f (.num .u8) false false .nil) ∈ villageNamed.structs) (x : Fin 256) :
    Stands villageNamed (cityMsg id f x) (villageJs x) :=
  .struct (cd := villageNamed) (id := id) (fs := .cons ['n'] f (.num .u8) false false .nil) (v := (x, ())) h

theorem village_portable {id : UInt32} {f : UInt16} (h : (id, .cons f (.num .u8) false false .nil) ∈ villageCodec.protocol.structs)
    (hf : f.toNat < 256) (x : Fin 256) : Portable villageNamed (cityMsg id f x) := by
  refine ⟨⟨h, by simp [FieldsOk, ElemOk, Fields.ids], by simp [TsFieldsOk, TsElemOk, Fields.ids, hf], by simp [FieldsClean, ElemClean],
    by simp [TsFieldsClean, TsElemClean]⟩, fun b hb => ?_⟩
  cases hb
  simp [Rust.packBuffer, Rust.getValueBuffer, Rust.ESize.bytes, length_leBytes, Num.size]

theorem village_passes_Q (x : Fin 256) : TsPasses villageNamed ['Q'] (villageJs x) :=
  ⟨cityMsg 3 4 x, village_stands (by simp [villageNamed]) x, (village_portable (by simp [villageCodec]) (by decide) x).ts, rfl⟩

theorem village_passes_R (x : Fin 256) : TsPasses villageNamed ['R'] (villageJs x) :=
  ⟨cityMsg 5 6 x, village_stands (by simp [villageNamed]) x, (village_portable (by simp [villageCodec]) (by decide) x).ts, rfl⟩

theorem village_answers {a : Flow.Ref} (h : AnswerOf villageQ a) : a = ['R'] ∨ a = ['S'] ∨ a = ['E'] := by
  rcases h with ⟨x, h1, h2⟩ | h
  · simp only [villageQ, List.mem_cons, List.not_mem_nil, or_false] at h1
    rcases h1 with rfl | rfl
    · cases h2; exact .inl rfl
    · cases h2; exact .inr (.inl rfl)
  · cases h; exact .inr (.inr rfl)

theorem village_answers_apart : ∀ a b, AnswerOf villageQ a → AnswerOf villageQ b → Network.Apart a b := by
  intro a b ha hb
  rcases village_answers ha with rfl | rfl | rfl <;> rcases village_answers hb with rfl | rfl | rfl <;>
    exact single_apart _ _ (by decide) (by decide)

theorem village_own : TsOwnType villageFlow ['Q'] := by
  refine ⟨single_foreign 'Q' (by decide), fun r hr ref h => ?_, fun b hb => nomatch hb⟩
  simp only [villageFlow, List.mem_cons, List.not_mem_nil, or_false] at hr
  rcases hr with rfl | rfl <;> (cases h; exact single_apart _ _ (by decide) (by decide))

theorem village_decided (x : Fin 256) : TsDecided villageNamed (.request villageQ) (.answer ['R'] (villageJs x) (giving [])) := by
  refine ⟨_, _, [], .action (by decide) (.inl ⟨_, List.mem_cons_self, rfl⟩) (by decide) (by simp) (by simp) ?_, ?_, by simp [eachCast]⟩
  · rintro b ⟨a, h1, h2, h3⟩
    simp only [villageQ, List.mem_cons, List.not_mem_nil, or_false] at h1
    rcases h1 with rfl | rfl <;> cases h3
  · intro ref body e
    injection e with e1 e2
    rw [← e1, ← e2]
    exact village_passes_R x

def parishCfg : TsServer.Cfg := ⟨wharfUp, villageFlow, [], ['p'], ['w'], fun _ => true, [], []⟩

def parishClientCfg : TsClient.Cfg := ⟨quayDown, villageFlow, fun _ => true⟩

abbrev ParishServer : ServerProg := villageNamed.tsServer parishCfg wharfEnv .new (fun _ _ _ _ => true)

abbrev ParishClient : ClientProg := villageNamed.tsClient parishClientCfg pierEnv

/-- Client 1 connects and sends its self key. -/
def parishRun : List (UInt64 × Event ParishServer ParishClient) :=
  [(1, .opened 1), (3, .client 1 .connected), (4, .toServer 1 500)]

/-- After that, client 2 of the witness gets ready and makes the request `Q` twice. -/
example : ∃ es1 es2 : List (UInt64 × Event ParishServer ParishClient), (∀ e ∈ es1, TsRegular 2 e.2) ∧
    (∃ cn, (run (parishRun ++ es1) .new).find 2 = some cn ∧ .emitted (.ready (.str ['2'])) ∈ cn.client.2.past) ∧
    TsAllReturned 2 [(.request villageQ, villageJs 41, .answer ['R'] (villageJs 42) (giving [])),
        (.request villageQ, villageJs 7, .answer ['R'] (villageJs 8) (giving []))]
      (run (parishRun ++ es1) .new) (run (parishRun ++ es1 ++ es2) .new) := by
  have call : ∀ x : Fin 256, TsCallable villageNamed villageFlow (.request villageQ) (villageJs x) := fun x =>
    .request (by decide) village_own village_answers_apart (village_passes_Q x)
  refine C180_texts_to_answers_partial (u := 2) village_prot village_closed village_flow (c := villageConfig) rfl village_none
    village_supported village_apart (by decide) village_named village_both rfl (single_foreign 'K' (by decide)) village_plain rfl rfl
    ⟨⟨fun _ => rfl, fun _ _ => rfl, fun _ _ => rfl, fun _ _ => rfl⟩, fun _ _ _ _ => rfl, fun _ => rfl, fun _ _ => rfl,
      fun _ _ _ => by simp [wharfEnv]⟩ parishRun (by decide +kernel) ⟨?_, ?_⟩ ⟨'2', by decide, by decide⟩ _ (by decide) ?_
  · have : ((run parishRun (.new : Net ParishServer ParishClient)).find 2).isNone = true := by decide +kernel
    exact Option.isNone_iff_eq_none.1 this
  · have : (run parishRun (.new : Net ParishServer ParishClient)).server.2.past.all
        (fun a => match a with | .send _ v _ _ => v != 2 | _ => true) = true := by decide +kernel
    intro f q o h
    exact absurd (List.all_eq_true.1 this _ h) (by simp)
  · intro x hx
    simp only [List.mem_cons, List.not_mem_nil, or_false] at hx
    rcases hx with rfl | rfl
    · exact ⟨call 41, village_decided 42⟩
    · exact ⟨call 7, village_decided 8⟩

/-! ### C181 -/

section
variable {cd : Network.Codec} {cfg : Server.Cfg Rust.Msg} {env : Server.Env Rust.Msg} {opts : Server.Options}
  {ccfg : TsClient.Cfg} {cenv : TsClient.Env}

/-- The Rust server as `Codec.rustServer` has it. -/
abbrev rustServerCfg (cd : Network.Codec) (cfg : Server.Cfg Rust.Msg) : Server.Cfg Rust.Msg :=
  { cfg with decoder := System.mapDecoder cd.codec.protocol.decoder cd.codec.seenByServer
             selfKey := cd.codec.name (System.msgId cd.codec.key) }

theorem rust_heard_right (ok : NamedOk cd) {o : TsClient.Out} (h : ∀ ref body, o = .msg ref body → ∃ m, Passes cd ref body m) :
    Network.HeardRight (named cd) (rustServerCfg cd cfg) (fun ts q o => cd.pack (cd.call o) q ts) o := by
  obtain ⟨m, e, hp, hsame⟩ := named_call
    (cfg := { cfg with decoder := System.mapDecoder cd.codec.protocol.decoder cd.codec.seenByServer }) ok h
  refine ⟨_, fun ts q => ?_, hsame⟩
  obtain ⟨f, h1, h2, h3, h4⟩ := codec_frame ok.rust.distinct hp.canSend q ts
  refine ⟨f, h1, h3, ?_, ?_⟩
  · dsimp only
    rw [e, pack_portable hp]
    exact h2
  · show Spec.delivered (mapDecoder cd.codec.protocol.decoder cd.codec.seenByServer) f = _
    rw [delivered_map, h4]
    rfl

/-- The message has the type it is sent as and a value for which transport is exact. -/
def SendsTyped (cd : Network.Codec) (o : Server.Out Rust.Msg) : Prop :=
  ∀ ref m, o = .msg ref m → Portable cd m ∧ cd.codec.name (msgId m) = ref

theorem rust_read_right (ok : NamedOk cd) {o : Server.Out Rust.Msg} (h : SendsTyped cd o) :
    Network.ReadRight (named cd) (tsClientCfg cd ccfg) (fun ts q o => cd.codec.pack (cd.codec.answer o) q ts) o := by
  obtain ⟨x, hx, hfr⟩ := named_frame ok (portable_answer ok (o := o) (fun ref m e => (h ref m e).1))
  refine ⟨_, fun ts q => ?_, named_answer ok h hx⟩
  obtain ⟨f, h1, h2, h3, h4⟩ := hfr q ts
  exact ⟨f, h1, h3, h2, h4⟩

/-- User code of the server decides on every request, takes every beacon, and sends messages of the types. -/
structure RustUserCode (cd : Network.Codec) (flow : Flow.Store) (env : Server.Env Rust.Msg) : Prop where
  decides : ∀ req ∈ flow.requests, ∀ s u p, ∃ o l, Server.Decides env req s u p o l
  answers : ∀ req ∈ flow.requests, ∀ s u p o l, Server.Decides env req s u p o l → SendsTyped cd o ∧ ∀ y ∈ l, SendsTyped cd y.2
  beacons : ∀ s ref u p, env.beacon s ref u p = .ok ()
  events : ∀ s e p, env.emit s e p ≠ .panic
  news : ∀ s e p cs l, env.emit s e p = .ok cs → Server.Gives e.broadcasts cs l → ∀ y ∈ l, SendsTyped cd y.2

/-- A declared request with actions whose answers can be told apart, or a declared beacon that is no request, with an
object of its type. -/
inductive RustCallable (cd : Network.Codec) (flow : Flow.Store) : TsClient.Kind → TsServer.Js → Prop where
  | request {req : Flow.Request} {body : TsServer.Js} {m : Rust.Msg} : req ∈ flow.requests → req.actions ≠ [] →
      (∀ a b, AnswerOf req a → AnswerOf req b → Network.Apart a b) → Passes cd (req.request.getD []) body m →
      RustCallable cd flow (.request req) body
  | beacon {b : Flow.Broadcast} {body : TsServer.Js} {m : Rust.Msg} : b ∈ flow.beacons →
      (∀ r ∈ flow.requests, r.request ≠ some b.reference) → Passes cd b.reference body m →
      RustCallable cd flow (.beacon b.reference) body

/-- **C181** (partial) From texts to answers: take a TypeScript client and a Rust server generated from an accepted protocol
and an accepted workflow with a config, as in C179. Whatever happened to clients and server before, as long as the server
runs, there is an order of events in which a new client gets ready, is assigned, and makes any calls one after another: all of them return, with the
value that is the same as what user code of the server decided on for the value that is the same as what was passed. The
full statement has no bound on ids (C179), no conditions on names, and holds for every order (C160). -/
theorem C181_texts_to_answers_partial {ptext : List Char} {pr : Prot.Store} (hp : Prot.Parses ptext (.accepted pr))
    (ho : ¬ Prot.LeftOpen pr) {text : List Char} {flow : Flow.Store} {pr2 : Prot.Store}
    (h : Flow.Parses pr text (.accepted flow pr2)) {c : Flow.Config} (hc : flow.config = some c)
    (hn : NoServices pr) (hs : Prot.Supported pr2) (hna : NamesApart pr2) {sg : UInt16} (hsm : pr2.sequence < 256)
    (hcd : Network.CodecOf pr2 sg cd) (hkey : BothOk cd.codec.protocol cd.codec.key)
    (hk : c.selfKey = some (cd.codec.name (msgId cd.codec.key)))
    (hpl : Plain cd.codec) (hw : cfg.workflow = flow) (hhash : cd.codec.hashes = (cfg.protocolHash, cfg.workflowHash))
    (sm : Network.Smooth cfg env ccfg cenv) (uc : RustUserCode cd flow env)
    (es : List (UInt64 × Event (cd.rustServer cfg env opts) (cd.tsClient ccfg cenv)))
    (hrun : (run es .new).server.1 = .running) {u : Network.Uuid} (hf : Network.Fresh (run es .new) u)
    (hid : ∃ x ∈ cd.codec.uuid u, TsClient.jsSpace x = false)
    (calls : List (TsClient.Kind × TsServer.Js)) (hlen : calls.length + 3 ≤ 4294967296)
    (hcalls : ∀ x ∈ calls, RustCallable cd flow x.1 x.2) (k : Rust.Msg) :
    ∃ es1 es2 : List (UInt64 × Event (cd.rustServer cfg env opts) (cd.tsClient ccfg cenv)),
      (∀ e ∈ es1, Network.Regular u e.2) ∧ (∀ e ∈ es2, Network.Regular u e.2) ∧
      (∃ cn, (run (es ++ es1) .new).find u = some cn ∧ .emitted (.ready (.str (cd.codec.uuid u))) ∈ cn.client.2.past) ∧
      Network.AllReturned (named cd) u calls (run (es ++ es1 ++ [(0, .server (.setAssigned u k true))]) .new)
        (run (es ++ es1 ++ [(0, .server (.setAssigned u k true))] ++ es2) .new) := by
  have ok := (C179_texts_to_codecs_partial hp ho h hc hn hs hna sg).2.2 hsm cd hcd hkey hk hpl
  have sm' : Network.Smooth (rustServerCfg cd cfg) env (tsClientCfg cd ccfg) cenv :=
    ⟨⟨sm.call, sm.sends, sm.throws, sm.during⟩, sm.send, sm.answer, sm.error⟩
  obtain ⟨es1, h1, h2, cn, h3, h4, _, h6⟩ := C160_ts_client_gets_ready_partial sm' uc.events (named cd) es hrun hf hhash
    (rust_heard_right ok (by intros; contradiction)) (rust_heard_right ok (by intros; contradiction))
    (rust_read_right ok (by intro _ _ e; cases e)) (rust_read_right ok (by intro _ _ e; cases e))
    (rust_read_right ok (by intro _ _ e; cases e)) hid
    (fun s e cs l g1 g2 x hx _ => rust_read_right ok (uc.news s e none cs l g1 g2 x hx))
  obtain ⟨k1, k2, k3⟩ := C160_ts_client_can_be_assigned h2 0 k true
  rw [← Network.run_append] at k1 k2 k3
  have key := C161_ts_calls_return sm' (named cd) calls _ k1 k2
    (fun c' hc' => by
      rw [hc', h3] at k3
      have e : c'.client = cn.client := Option.some.inj k3
      rw [e, h6]; omega)
  refine Exists.elim (key (fun x hx => ?_)) (fun es2 j => ⟨es1, es2, h1, j.1, ⟨cn, h3, h4⟩, j.2.2.2⟩)
  · obtain ⟨kind, body⟩ := x
    cases hcalls _ hx with
    | @request req _ m r1 r2 r3 r4 =>
      obtain ⟨uniq, ⟨p, hpr⟩, _⟩ := request_of hp h r1
      obtain ⟨q, hq⟩ := Option.isSome_iff_exists.1 ((Flow.accepted_once h).1.requests.2 req r1)
      rw [hq, Option.getD_some] at r4 uniq
      refine .request (ref := q) (show req ∈ cfg.workflow.requests from hw ▸ r1) hq
        (show ∀ r ∈ cfg.workflow.requests, _ from hw ▸ uniq) ⟨hpr.2.2.2.2 r2, r2, fun a ha => ?_⟩ r3 (rust_heard_right ok ?_)
        (fun s p _ => uc.decides req r1 s u p) (fun s p o l _ hd => ?_)
      · obtain ⟨⟨x, hx, _⟩, _⟩ := hpr.2.2.2.1 a ha
        rw [hx]; simp
      · intro ref' body' e
        injection e with e1 e2
        rw [← e1, ← e2]
        exact ⟨m, r4⟩
      · obtain ⟨a1, a2⟩ := uc.answers req r1 s u p o l hd
        exact ⟨rust_read_right ok a1, fun y hy _ => rust_read_right ok (a2 y hy)⟩
    | @beacon b _ m r1 r2 r3 =>
      refine .beacon (show b ∈ cfg.workflow.beacons from hw ▸ r1) (show ∀ r ∈ cfg.workflow.requests, _ from hw ▸ r2)
        (rust_heard_right ok ?_) (fun s p _ => uc.beacons s _ u p) (rust_read_right ok (by intro _ _ e; cases e))
      intro ref' body' e
      injection e with e1 e2
      rw [← e1, ← e2]
      exact ⟨m, r3⟩

end

theorem village_rust_answer {id : UInt32} {f : UInt16} {y : Fin 256} {ref : Flow.Ref}
    (h : (id, f, ref) = (7, 8, ['S']) ∨ (id, f, ref) = (5, 6, ['R'])) : SendsTyped villageNamed (.msg ref (cityMsg id f y)) := by
  intro ref' m e
  injection e with e1 e2
  subst e1 e2
  rcases h with h | h <;>
  · injection h with h1 h
    injection h with h2 h3
    subst h1 h2 h3
    exact ⟨village_portable (by simp [villageCodec]) (by decide) y, rfl⟩

theorem village_rust_user : RustUserCode villageNamed villageFlow villageEnv where
  decides req hreq s u p := village_user.decides req hreq s u p
  answers req hreq s u body o l hd := by
    have : req = villageQ ∨ req = villageZ := by simpa [villageFlow] using hreq
    rcases this with rfl | rfl
    · have key : villageEnv.conclude s villageQ u body = some (.action ⟨1, by decide⟩ (cityMsg 7 8 42) ()) := rfl
      cases hd with
      | error _ h2 => rw [key] at h2; cases h2
      | plainError h1 _ => exact absurd h1 (by decide)
      | plain h1 _ => exact absurd h1 (by decide)
      | action _ h2 h3 =>
        rw [key] at h2
        injection h2 with h2
        injection h2 with e1 e2 e3
        subst e1 e2
        cases e3
        rw [village_no_casts h3]
        exact ⟨village_rust_answer (.inl rfl), by simp⟩
    · have key : villageEnv.conclude s villageZ u body = some (.action ⟨1, by decide⟩ (cityMsg 5 6 42) ()) := rfl
      cases hd with
      | error _ h2 => rw [key] at h2; cases h2
      | plainError h1 _ => exact absurd h1 (by decide)
      | plain h1 _ => exact absurd h1 (by decide)
      | action _ h2 h3 =>
        rw [key] at h2
        injection h2 with h2
        injection h2 with e1 e2 e3
        subst e1 e2
        cases e3
        rw [village_no_casts h3]
        exact ⟨village_rust_answer (.inr rfl), by simp⟩
  beacons _ _ _ _ := rfl
  events s e p h := nomatch h
  news s e p cs l h := nomatch h

abbrev ParishRustServer : ServerProg := villageNamed.rustServer village.server villageEnv .new

/-- Client 1 connects, is confirmed, and sends its self key. -/
def parishRustRun : List (UInt64 × Event ParishRustServer ParishClient) :=
  [(1, .opened 1), (2, .server .confirm), (3, .client 1 .connected), (4, .toServer 1 500)]

/-- After that, client 2 of the witness gets ready, is assigned, and makes the request `Q` twice. -/
example : ∃ es1 es2 : List (UInt64 × Event ParishRustServer ParishClient), (∀ e ∈ es1, Network.Regular 2 e.2) ∧
    (∀ e ∈ es2, Network.Regular 2 e.2) ∧
    (∃ cn, (run (parishRustRun ++ es1) .new).find 2 = some cn ∧ .emitted (.ready (.str ['2'])) ∈ cn.client.2.past) ∧
    Network.AllReturned (named villageNamed) 2 [(.request villageQ, villageJs 41), (.request villageQ, villageJs 40)]
      (run (parishRustRun ++ es1 ++ [(0, .server (.setAssigned 2 villageCodec.key true))]) .new)
      (run (parishRustRun ++ es1 ++ [(0, .server (.setAssigned 2 villageCodec.key true))] ++ es2) .new) := by
  have ok := (C179_texts_to_codecs_partial village_prot village_closed village_flow rfl village_none
    village_supported village_apart 7).2.2 (by decide) villageNamed village_named village_both (by decide) village_plain
  have call : ∀ x : Fin 256, RustCallable villageNamed villageFlow (.request villageQ) (villageJs x) := fun x =>
    .request (m := cityMsg 3 4 x) (by decide) (by decide) village_answers_apart
      ⟨stands_looks ok (village_stands (by simp [villageNamed]) x), village_portable (by simp [villageCodec]) (by decide) x, rfl,
        by simp [msgId, cityMsg, villageNamed, villageCodec]⟩
  refine C181_texts_to_answers_partial (u := 2) village_prot village_closed village_flow (c := villageConfig) rfl village_none
    village_supported village_apart (by decide) village_named village_both rfl village_plain rfl rfl
    ⟨⟨fun _ => rfl, fun _ _ => rfl, fun _ _ => rfl, fun _ _ => rfl⟩, fun _ _ _ _ => rfl, fun _ => rfl, fun _ _ => rfl⟩
    village_rust_user parishRustRun (by decide +kernel) ⟨?_, ?_⟩ ⟨'2', by decide, by decide⟩ _ (by decide) ?_ _
  · have : ((run parishRustRun (.new : Net ParishRustServer ParishClient)).find 2).isNone = true := by decide +kernel
    exact Option.isNone_iff_eq_none.1 this
  · have : (run parishRustRun (.new : Net ParishRustServer ParishClient)).server.2.past.all
        (fun a => match a with | .send v _ _ true => v != 2 | _ => true) = true := by decide +kernel
    intro q o h
    exact absurd (List.all_eq_true.1 this _ h) (by simp)
  · intro x hx
    simp only [List.mem_cons, List.not_mem_nil, or_false] at hx
    rcases hx with rfl | rfl
    · exact call 41
    · exact call 40

end Verif.Props
