import Verif.Proofs.NetworkRustTs
import Verif.Props.NetworkTsTsLive
import Verif.Props.NetworkCodec
import Verif.Props.SystemLive
set_option autoImplicit false
/-!
Property theorems about which generated clients can connect to which generated servers: C178. It should
not matter in which languages client and server were generated. A Rust client of a TypeScript server never gets
ready: it waits for a confirmation of its connection, and this server sends none.
-/
namespace Verif.Props

open Verif Verif.Spec Verif.Network

variable {P : Type} {cfg : TsServer.Cfg} {env : TsServer.Env} {opts : Server.Options}
  {takes : List TsServer.Act → Network.Uuid → UInt32 → TsServer.Out → Bool}
  {down : UInt64 → UInt32 → TsServer.Out → Bytes} {ccfg : Client.Cfg P} {up : UInt64 → UInt32 → Client.Out P → Bytes}

/-! ### A Rust client for the server of `wharf` for witnesses -/

abbrev MoleClient : ClientProg := rustClient town.client town.up

abbrev MoleNet : Type := Net WharfServer MoleClient

/-- Connection 1 is made, and its client makes a request: it gets to the server. Then another client connects. The event `T`
of the server has a broadcast for both. -/
def moleRun : List (UInt64 × Event WharfServer MoleClient) :=
  [(1, .opened 1)] ++ ([.work, .work, .call (.request townRequest) 41, .api true, .proceed 0, .api true, .authMessage, .proceed 0,
    .api true].map (fun i => (3, .client 1 i))) ++
  [(4, .toServer 1 100), (5, .opened 2), (5, .server (.event ['T'])),
   (5, .server (.settled 2 (.output [⟨[1, 2], TsServer.plain ['U'], quayVal 9⟩]))), (6, .toClient 1 100), (6, .toClient 2 100)] ++
  ([.work, .api true, .work, .work, .proceed 0, .timeout 0].map (fun i => (7, .client 1 i)))

/-- Every message is packed into a frame. -/
theorem mole_framed (n : MoleNet) : Network.Framed n := by
  refine ⟨fun u q o _ ts => ?_, fun u c _ q o _ ts => ?_⟩
  · show System.IsFrame q (wharfDown ts q o)
    cases o <;> simp only [wharfDown] <;> (try split) <;> (try split) <;> exact townFrame_is _ _ _ _
  · show System.IsFrame q (town.up ts q o)
    cases o <;> simp only [town] <;> (try split) <;> (try split) <;> exact townFrame_is _ _ _ _

/-- Few bytes arrived. -/
theorem mole_small {n : MoleNet}
    (h : n.conns.all (fun p => p.2.gotUp.length < 10000 && p.2.gotDown.length < 10000) = true) : Network.Small n := by
  intro u c hc
  rw [List.all_eq_true] at h
  have := h (u, c) (conn_mem hc)
  simp only [Bool.and_eq_true, decide_eq_true_eq] at this
  exact ⟨by omega, by omega⟩

/-- The names are declared. -/
def moleDown : TsServer.Act → Bool
  | .send _ _ _ (.msg ref _) => ref ∈ [['R'], ['U'], ['E']]
  | _ => true

def moleUp : Client.Act Nat → Bool
  | .sent _ _ (.msg _ ref _) => ref ∈ [['Q'], ['B']]
  | _ => true

theorem mole_no_hash {a : Char} {v b : TsServer.Js} (ha : a ≠ 'I') :
    ¬ TsServer.Found ⟨[[a]], v⟩ "InternalServiceGroup.HashRequest".toList b := by
  intro h
  have h1 := TsServer.leads_nest _ _ _ _ (TsServer.found_names h)
  have h2 : Flow.splitDot "InternalServiceGroup.HashRequest".toList = ['I' :: "nternalServiceGroup".toList, "HashRequest".toList] := by
    decide +kernel
  rw [h2] at h1
  have h3 : "nternalServiceGroup".toList ≠ [] := by decide +kernel
  rcases h1 with h1 | h1
  · obtain ⟨t, h1⟩ := h1
    injection h1 with h1 _
    injection h1 with h1 _
    exact ha h1
  · obtain ⟨t, h1⟩ := h1
    injection h1 with h1 _
    injection h1 with h1 _
    exact ha h1.symm

theorem mole_faithful (n : MoleNet) (h1 : n.server.2.past.all moleDown = true)
    (h2 : n.conns.all (fun p => p.2.client.past.all moleUp) = true) : RustTsFaithful n := by
  refine ⟨fun u c hc who q v ref body hm ts m hd => ?_, fun f u q o hm ts m hd => ?_⟩
  · have hs : moleUp (.sent who q (.msg v ref body)) = true := by
      rw [List.all_eq_true] at h2
      have := h2 (u, c) (conn_mem hc)
      rw [List.all_eq_true] at this
      exact this _ hm
    simp only [moleUp, List.mem_cons, List.not_mem_nil, or_false, decide_eq_true_eq] at hs
    rcases hs with rfl | rfl
    · cases (decodes_town (d := wharfUp) (id := 3) rfl).1 hd
      exact ⟨⟨by decide, rfl⟩, fun b => mole_no_hash (by decide)⟩
    · cases (decodes_town (d := wharfUp) (id := 5) rfl).1 hd
      exact ⟨⟨by decide, rfl⟩, fun b => mole_no_hash (by decide)⟩
  · have hs : moleDown (.send f u q o) = true := by
      rw [List.all_eq_true] at h1
      exact h1 _ hm
    cases o with
    | selfKey v => cases (decodes_town (d := townDown) (id := 2) rfl).1 hd; exact .selfKey
    | hash e => cases e with
      | true => cases (decodes_town (d := townDown) (id := 4) rfl).1 hd; exact .hash
      | false => cases (decodes_town (d := townDown) (id := 3) rfl).1 hd; exact .hash
    | beacon => cases (decodes_town (d := townDown) (id := 5) rfl).1 hd; exact .beacon
    | msg ref b =>
      simp only [moleDown, List.mem_cons, List.not_mem_nil, or_false, decide_eq_true_eq] at hs
      rcases hs with rfl | rfl | rfl
      · cases (decodes_town (d := townDown) (id := 6) rfl).1 hd; exact .msg
      · cases (decodes_town (d := townDown) (id := 7) rfl).1 hd; exact .msg
      · cases (decodes_town (d := townDown) (id := 8) rfl).1 hd; exact .msg

theorem mole_ok : Network.Framed (run moleRun (.new : MoleNet)) ∧ Network.Small (run moleRun (.new : MoleNet)) ∧
    RustTsFaithful (run moleRun (.new : MoleNet)) :=
  ⟨mole_framed _, mole_small (by decide +kernel), mole_faithful _ (by decide +kernel) (by decide +kernel)⟩

theorem mole_sees {es : List (UInt64 × Event WharfServer MoleClient)} {u : Network.Uuid} (f : Conn MoleClient → Bool)
    (h : ((run es .new).find u).any f = true) : ∃ c, (run es .new).find u = some c ∧ f c = true := by
  cases e : (run es .new).find u with
  | none => rw [e] at h; cases h
  | some c => exact ⟨c, rfl, by rwa [e] at h⟩

/-! ### C178 -/

/-- **C178** A generated client connects to a generated server whatever the languages: it does not. In no run of any program
does a Rust client of a TypeScript server start its handshake, so user code is never told that it connected. All that the client
sends are messages of calls, without id; and every call that ends does so with an error. The server runs no user code for the
client's calls. All there is are broadcasts of the server. -/
theorem C178_every_pair_connects_violated (es : List (UInt64 × Event (tsServer cfg env opts takes down) (rustClient ccfg up)))
    (hf : Network.Framed (run es .new)) (hs : Network.Small (run es .new)) (ha : RustTsFaithful (run es .new))
    {u : Network.Uuid} {c : Conn (rustClient ccfg up)} (hc : (run es .new).find u = some c) :
    (∀ k, .authStarted k ∉ c.client.past) ∧ .emitted .connected ∉ c.client.past ∧
    (∀ who q o, .sent who q o ∈ c.client.past → ∃ k job body ref, who = .call k ∧ .called k job body ∈ c.client.past ∧
      job.Asks ref ∧ o = .msg none ref body) ∧
    (∀ k r, .ended k r ∈ c.client.past → r = .failed ∨ r = .timeout ∨ r = .unexpected) ∧
    ∀ t ref b q, .respond t u ref b q ∉ (run es .new).server.2.past ∧ .beacon t u ref b q ∉ (run es .new).server.2.past := by
  obtain ⟨es0, hi⟩ := inv_run (growing_rustTs (cfg := cfg) (env := env) (opts := opts) (takes := takes) (down := down)
    (ccfg := ccfg) (up := up)) es
  have ht : Took (run es (.new : Net (tsServer cfg env opts takes down) (rustClient ccfg up))) := took_run es
  have hl := rustTs_lawful hi hc
  refine ⟨fun k => rustTs_unstarted hi ht hf ha hc k, fun h => ?_, fun who q o h => ?_, fun k r h => ?_, fun t ref b q =>
    rustTs_unserved hi ht hf hs ha hc⟩
  · obtain ⟨a, b, e⟩ := List.append_of_mem h
    rw [e] at hl
    obtain ⟨v, k, w, h1, _⟩ := Client.Lawful.at hl
    exact rustTs_unassigned hi ht hf ha hc (k := k) (r := some w) (by rw [e]; simp [h1])
  · obtain ⟨k, job, body, ref, h1, h2, h3, h4, _⟩ := rustTs_sent hi ht hf ha hc h
    exact ⟨k, job, body, ref, h1, h2, h3, h4⟩
  · obtain ⟨a, b, e⟩ := List.append_of_mem h
    rw [e] at hl
    obtain ⟨_, job, body, _, h1⟩ := Client.Lawful.at hl
    rcases h1 with h1 | ⟨h1, _⟩ | ⟨q, m, h1, h2⟩
    · exact .inl h1
    · exact .inr (.inl h1)
    · obtain ⟨v, rfl⟩ := rustTs_delivered hi ht hf hs ha hc (who := .call k) (q := q) (m := m) (by rw [e]; simp [h1])
      refine .inr (.inr ?_)
      cases h2 <;> rfl

/-- Such a run: the server got the request and did not answer, the broadcast came, and the call ended with a timeout. -/
example : Network.Framed (run moleRun (.new : MoleNet)) ∧ Network.Small (run moleRun (.new : MoleNet)) ∧
    RustTsFaithful (run moleRun (.new : MoleNet)) ∧
    ((run moleRun (.new : MoleNet)).server.2.past.any (fun | .got 1 m _ => m.path = [['Q']] | _ => false)) = true ∧
    ∃ c, (run moleRun (.new : MoleNet)).find 1 = some c ∧ decide (.ended 0 .timeout ∈ c.client.past ∧
      .got 0 (.msg ['U'] 9) ∈ c.client.past) = true :=
  ⟨mole_ok.1, mole_ok.2.1, mole_ok.2.2, by decide +kernel, mole_sees _ (by decide +kernel)⟩

/-! ### C178 with the generated codecs -/

section
variable {cd : Network.Codec}

/-- What user code has sent so far has the type it is sent as, values for which transport is exact, and is no
message of the group `InternalServiceGroup`. -/
structure RustTsTyped (cd : Network.Codec) {cfg : TsServer.Cfg} {env : TsServer.Env} {opts : Server.Options}
    {takes : List TsServer.Act → Network.Uuid → UInt32 → TsServer.Out → Bool} {ccfg : Client.Cfg Rust.Msg}
    (n : Net (cd.tsServer cfg env opts takes) (cd.rustClient ccfg)) : Prop where
  call : ∀ u c, n.find u = some c → ∀ who q v ref body, .sent who q (.msg v ref body) ∈ c.client.past →
    Portable cd body ∧ cd.codec.name (System.msgId body) = ref ∧ Network.Foreign ref
  answer : ∀ f u q ref body, .send f u q (.msg ref body) ∈ n.server.2.past → ∃ m, Stands cd m body ∧ Portable cd m ∧
    cd.codec.name (System.msgId m) = ref ∧ System.msgId m ∉ [cd.codec.confirmation, cd.codec.selfKeyResponse.1, cd.codec.hashResponse.1, cd.codec.beaconConfirmation.1]

theorem foreign_no_hash {ref : Flow.Ref} {v b : TsServer.Js} (h : Network.Foreign ref) :
    ¬ TsServer.Found ⟨Flow.splitDot ref, v⟩ "InternalServiceGroup.HashRequest".toList b := by
  intro k
  have h1 := TsServer.leads_nest _ _ _ _ (TsServer.found_names k)
  have h2 : Flow.splitDot "InternalServiceGroup.HashRequest".toList = ["InternalServiceGroup".toList, "HashRequest".toList] := by
    decide +kernel
  rw [h2] at h1
  have h3 := h _ (TsServer.spells_splitDot ref)
  cases e : Flow.splitDot ref with
  | nil => exact absurd (TsServer.spells_splitDot ref) (by rw [e]; exact id)
  | cons a l =>
    rw [e] at h1 h3
    apply h3
    rcases h1 with ⟨t, h1⟩ | ⟨t, h1⟩
    · injection h1 with h1 _; rw [h1]; rfl
    · injection h1 with h1 _; rw [← h1]; rfl

/-- What the server sends is what the client makes of it. -/
theorem rustTs_answer (ok : NamedOk cd) {o : TsServer.Out}
    (h : ∀ ref body, o = .msg ref body → ∃ m, Stands cd m body ∧ Portable cd m ∧ cd.codec.name (System.msgId m) = ref ∧
      System.msgId m ∉ [cd.codec.confirmation, cd.codec.selfKeyResponse.1, cd.codec.hashResponse.1, cd.codec.beaconConfirmation.1]) :
    ∃ m, cd.answer o = some m ∧ Portable cd m ∧ SameKind o (cd.codec.seenByClient m) := by
  have hs := ok.rust.services
  simp only [List.nodup_cons, List.mem_cons, List.not_mem_nil, or_false, not_or, not_false_eq_true, List.nodup_nil, and_true] at hs
  obtain ⟨⟨a1, a2, a3⟩, ⟨b1, b2⟩, c1⟩ := hs
  cases o with
  | selfKey v =>
    refine ⟨_, rfl, portable_answer ok (o := .selfKey v) (by intros; contradiction), ?_⟩
    rw [show cd.codec.seenByClient (cd.codec.answer (.selfKey v)) = .selfKey (cd.codec.uuid v) by
      simp [System.Codec.seenByClient, System.Codec.answer, System.msgId, System.msgTexts, System.oneText, System.texts, Ne.symm a1]]
    exact .selfKey
  | hash e =>
    refine ⟨_, rfl, portable_text ok.rust.hashResponse (ok.ids _ (by simp)) (fun y hy => ?_) (ok.smallHash e), ?_⟩
    · cases e with
      | false => cases hy
      | true => cases hy; exact ⟨by decide, by unfold NoBom; decide⟩
    · rw [show cd.codec.seenByClient (.struct cd.codec.hashResponse.1 (System.maybeText cd.codec.hashResponse.2)
        (if e then some invalidHashText else none, ())) = .hash e by
          generalize invalidHashText = t
          cases e <;> simp [System.Codec.seenByClient, System.msgId, System.msgTexts, System.maybeText, System.texts, Ne.symm a2, Ne.symm b1]]
      exact .hash
  | beacon =>
    refine ⟨_, rfl, portable_answer ok (o := .beacon) (by intros; contradiction), ?_⟩
    rw [show cd.codec.seenByClient (cd.codec.answer .beacon) = .beacon false by
      simp [System.Codec.seenByClient, System.Codec.answer, System.msgId, System.msgTexts, System.maybeText, System.texts, Ne.symm a3,
        Ne.symm b2, Ne.symm c1]]
    exact .beacon
  | msg ref body =>
    obtain ⟨m, h1, h2, rfl, h4⟩ := h ref body rfl
    simp only [List.mem_cons, List.not_mem_nil, or_false, not_or] at h4
    refine ⟨m, read_looks ok (stands_looks ok h1), h2, ?_⟩
    rw [System.Codec.seenByClient, if_neg h4.1, if_neg h4.2.1, if_neg h4.2.2.1, if_neg h4.2.2.2]
    exact .msg

/-- With the generated codecs, all hypotheses about codecs hold. -/
theorem rustTs_codec (ok : NamedOk cd) {ccfg : Client.Cfg Rust.Msg} (n : Net (cd.tsServer cfg env opts takes) (cd.rustClient ccfg))
    (ht : RustTsTyped cd n) : Network.Framed n ∧ RustTsFaithful n := by
  have up : ∀ u c, n.find u = some c → ∀ w q o, .sent w q o ∈ c.client.past → Portable cd (cd.codec.call o) := by
    intro u c hc w q o h
    cases o with
    | selfKey => exact ⟨ok.key, ok.rust.smallCall .selfKey (by intros; simp)⟩
    | hash => exact portable_hash ok
    | msg v ref body => exact (ht.call u c hc w q v ref body h).1
  have down : ∀ f u q o, .send f u q o ∈ n.server.2.past → ∃ m, cd.answer o = some m ∧ Portable cd m ∧ SameKind o (cd.codec.seenByClient m) :=
    fun f u q o h => rustTs_answer ok (fun ref body e => ht.answer f u q ref body (e ▸ h))
  refine ⟨⟨fun u q o h ts => ?_, fun u c hc q o h ts => ?_⟩, fun u c hc w q v ref body h ts m hm => ?_, fun f u q o h ts m hm => ?_⟩
  · obtain ⟨f, h⟩ := mem_tsServerSent h
    obtain ⟨m, e, hp, _⟩ := down f u q o h
    obtain ⟨f, h1, h2, h3, _⟩ := codec_frame ok.rust.distinct hp.canSend q ts
    refine ⟨f, h1, h3, ?_⟩
    dsimp only
    rw [e, pack_portable hp]
    exact h2
  · obtain ⟨w, h'⟩ := mem_rustClientSent.1 h
    obtain ⟨f, h1, h2, h3, _⟩ := codec_frame ok.rust.distinct (up u c hc w q o h').canSend q ts
    exact ⟨f, h1, h3, h2⟩
  · obtain ⟨_, rfl, h3⟩ := ht.call u c hc w q v ref body h
    obtain ⟨x, hx, hd⟩ := named_decodes ok (up u c hc w q _ h)
    have := (hd q ts m).1 hm
    subst this
    exact ⟨TsServer.spells_splitDot _, fun b => foreign_no_hash h3⟩
  · obtain ⟨m', e, hp, hk⟩ := down f u q o h
    dsimp only at hm
    rw [e, pack_portable hp] at hm
    have := (codec_decodes ok.rust.distinct hp.canSend q ts cd.codec.seenByClient m).1 hm
    subst this
    exact hk

/-- **C178** So it is with the generated codecs of both languages: in no run is user code of a Rust client of a
TypeScript server told that it connected, and every call that ends does so with an error. -/
theorem C178_generated_pair_violated (cd : Network.Codec) (ok : NamedOk cd) {ccfg : Client.Cfg Rust.Msg}
    (es : List (UInt64 × Event (cd.tsServer cfg env opts takes) (cd.rustClient ccfg))) (ht : RustTsTyped cd (run es .new))
    (hs : Network.Small (run es .new)) {u : Network.Uuid} {c : Conn (cd.rustClient ccfg)} (hc : (run es .new).find u = some c) :
    .emitted .connected ∉ c.client.past ∧
    (∀ k r, .ended k r ∈ c.client.past → r = .failed ∨ r = .timeout ∨ r = .unexpected) ∧
    ∀ t ref b q, .respond t u ref b q ∉ (run es .new).server.2.past ∧ .beacon t u ref b q ∉ (run es .new).server.2.past := by
  obtain ⟨hf, ha⟩ := rustTs_codec ok _ ht
  obtain ⟨_, h1, _, h2, h3⟩ := C178_every_pair_connects_violated es hf hs ha hc
  exact ⟨h1, h2, h3⟩

/-- A Rust client for the TypeScript server of `dock`. -/
abbrev DockRustClient : ClientProg := dock.rustClient city.client

abbrev DockRustNet : Type := Net DockTsServer DockRustClient

/-- The client makes a request; it gets to the server, and nothing comes back. -/
def dockRustRun : List (UInt64 × Event DockTsServer DockRustClient) :=
  [(1, .opened 1)] ++ ([.call (.request townRequest) dockQ, .api true, .proceed 0, .api true, .authMessage, .proceed 0,
    .api true].map (fun i => (3, .client 1 i))) ++
  [(4, .toServer 1 100), (6, .toClient 1 100)] ++ ([.work, .api true, .work, .timeout 0].map (fun i => (7, .client 1 i)))

/-- The message is `dockQ`. -/
def dockQIs : Rust.Msg → Bool
  | .struct id (.cons f1 (.num .u8) false false (.cons f2 .str true false (.cons f3
      (.enum (.cons (.num .u8) false (.cons .str false .nil))) false true .nil)))
      (x, ts, some (some (.inr (.inl s))), _) =>
    id == 13 && f1 == 14 && f2 == 17 && f3 == 18 && decide (x.val = 41) &&
      decide ((ts : List (List Char)) = [['x'], []]) && decide ((s : List Char) = ['z'])
  | _ => false

theorem dockQIs_eq {m : Rust.Msg} (h : dockQIs m = true) : m = dockQ := by
  unfold dockQIs at h
  split at h
  · simp only [Bool.and_eq_true, beq_iff_eq, decide_eq_true_eq] at h
    obtain ⟨⟨⟨⟨⟨⟨rfl, rfl⟩, rfl⟩, rfl⟩, h1⟩, rfl⟩, rfl⟩ := h
    rename_i x _
    cases (show x = (41 : Fin 256) from Fin.ext h1)
    rfl
  · cases h

def dockRustUp : Client.Act Rust.Msg → Bool
  | .sent _ _ (.msg _ ref body) => ref == ['Q'] && dockQIs body
  | _ => true

def dockRustDown : TsServer.Act → Bool
  | .send _ _ _ (.msg _ _) => false
  | _ => true

theorem dock_rust_typed (n : DockRustNet) (h1 : n.server.2.past.all dockRustDown = true)
    (h2 : n.conns.all (fun p => p.2.client.past.all dockRustUp) = true) : RustTsTyped dock n := by
  refine ⟨fun u c hc who q v ref body hm => ?_, fun f u q ref body hm => ?_⟩
  · rw [List.all_eq_true] at h2
    have := h2 (u, c) (conn_mem hc)
    rw [List.all_eq_true] at this
    have := this _ hm
    simp only [dockRustUp, Bool.and_eq_true, beq_iff_eq] at this
    obtain ⟨rfl, hb⟩ := this
    cases dockQIs_eq hb
    exact ⟨dockQ_portable, rfl, single_foreign 'Q' (by decide)⟩
  · rw [List.all_eq_true] at h1
    have := h1 _ hm
    cases this

theorem dock_rust_small {n : DockRustNet}
    (h : n.conns.all (fun p => p.2.gotUp.length < 10000 && p.2.gotDown.length < 10000) = true) : Network.Small n := by
  intro u c hc
  rw [List.all_eq_true] at h
  have := h (u, c) (conn_mem hc)
  simp only [Bool.and_eq_true, decide_eq_true_eq] at this
  exact ⟨by omega, by omega⟩

theorem dock_rust_sees {es : List (UInt64 × Event DockTsServer DockRustClient)} {u : Network.Uuid} (f : Conn DockRustClient → Bool)
    (h : ((run es .new).find u).any f = true) : ∃ c, (run es .new).find u = some c ∧ f c = true := by
  cases e : (run es .new).find u with
  | none => rw [e] at h; cases h
  | some c => exact ⟨c, rfl, by rwa [e] at h⟩

/-- Such a run: the server got the request, and the call ended with a timeout. -/
example : NamedOk dock ∧ RustTsTyped dock (run dockRustRun (.new : DockRustNet)) ∧ Network.Small (run dockRustRun (.new : DockRustNet)) ∧
    ((run dockRustRun (.new : DockRustNet)).server.2.past.any (fun | .got 1 m _ => m.path == [['Q']] && jsSame m.body dockQJs | _ => false)) = true ∧
    ∃ c, (run dockRustRun (.new : DockRustNet)).find 1 = some c ∧
      (c.client.past.any (fun | .ended 0 .timeout => true | _ => false)) = true :=
  ⟨dock_ok, dock_rust_typed _ (by decide +kernel) (by decide +kernel), dock_rust_small (by decide +kernel), by decide +kernel,
    dock_rust_sees _ (by decide +kernel)⟩

end

/-- **C178** What holds: the full statement is that of C178 for all pairs. TypeScript clients get ready with a TypeScript
server. (With a Rust server they do so if the server is quicker than the client, `C160_ts_client_gets_ready_partial`.) -/
theorem C178_ts_pair_connects_partial {ccfg : TsClient.Cfg} {cenv : TsClient.Env} {up : UInt64 → UInt32 → TsClient.Out → Bytes}
    (sm : TsSmooth cfg env takes ccfg cenv) (t : TsTerms)
    (es : List (UInt64 × Event (tsServer cfg env opts takes down) (tsClient ccfg cenv up)))
    (hrun : (run es .new).server.1 = false) {u : Network.Uuid} (hf : TsFresh (run es .new) u)
    (hhash : t.hashes = (cfg.protocolHash, cfg.workflowHash)) (hfk : Network.Foreign cfg.selfKey)
    (hk : TsHeardRight t cfg up .selfKey) (hh : TsHeardRight t cfg up .hash)
    (rk : TsReadRight t ccfg down (.selfKey u)) (rh : TsReadRight t ccfg down (.hash false))
    (hid : ∃ x ∈ t.name u, TsClient.jsSpace x = false) :
    ∃ es' : List (UInt64 × Event (tsServer cfg env opts takes down) (tsClient ccfg cenv up)),
      (∀ e ∈ es', TsRegular u e.2) ∧
      ∃ c, (run (es ++ es') .new).find u = some c ∧ .emitted (.ready (.str (t.name u))) ∈ c.client.2.past := by
  obtain ⟨es', h1, _, c, h2, h3, _⟩ := C166_ts_ts_client_gets_ready sm t es hrun hf hhash hfk hk hh rk rh hid
  exact ⟨es', h1, c, h2, h3⟩

/-- While client 1 connects, client 65 can connect. -/
example : ∃ es' : List (UInt64 × Event JettyServer JettyClient), (∀ e ∈ es', TsRegular 65 e.2) ∧
    ∃ c, (run (jettyBusy ++ es') (.new : Net JettyServer JettyClient)).find 65 = some c ∧
      .emitted (.ready (.str (wharfTerms.name 65))) ∈ c.client.2.past := by
  obtain ⟨es', h1, _, c, h2, h3, _⟩ := jetty_second
  exact ⟨es', h1, c, h2, h3⟩

/-- **C178** Rust clients get ready with a Rust server. -/
theorem C178_rust_pair_connects_partial (w : System.Setup P) (sm : System.Smooth w) (hem : ∀ s e p, w.env.emit s e p ≠ .panic)
    (name : System.Uuid → List Char) (es : List (UInt64 × System.Event P)) (hrun : (System.run w es .new).exit = .running)
    {u : System.Uuid} (hf : System.Fresh (System.run w es .new) u)
    (hk : System.HeardRight w (w.server.protocolHash, w.server.workflowHash) .selfKey)
    (hh : System.HeardRight w (w.server.protocolHash, w.server.workflowHash) .hash)
    (rc : System.ReadRight w name .confirmation) (rk : System.ReadRight w name (.selfKey u)) (rh : System.ReadRight w name (.hash false))
    (hid : w.client.parseUuid (name u) ≠ none)
    (hb : ∀ t e cs l, w.env.emit t e none = .ok cs → Server.Gives e.broadcasts cs l → ∀ x ∈ l, x.1 = u → System.ReadRight w name x.2) :
    ∃ es', System.Progress u [] es' ∧
      ∃ c, (System.run w (es ++ es') .new).find u = some c ∧ .emitted .connected ∈ c.client.past := by
  obtain ⟨es', h1, _, h2⟩ := C152_can_connect w sm hem name es hrun hf hk hh rc rk rh hid hb
  exact ⟨es', h1, h2⟩

/-- After client 1 has done all it does in `townAll`, client 2 can connect. -/
example : ∃ es', System.Progress 2 [] es' ∧
    ∃ c, (System.run town (townAll ++ es') .new).find 2 = some c ∧ .emitted .connected ∈ c.client.past := by
  obtain ⟨es', h1, _, h2⟩ := town_second
  exact ⟨es', h1, h2⟩

end Verif.Props
