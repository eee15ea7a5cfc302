import Verif.Props.RustServer
import Verif.Proofs.ServerReader
import Verif.Props.Protocol
set_option autoImplicit false
/-!
Property theorems about the generated Rust server, second part: C33–C36, C50, C51, C76–C80.
-/
namespace Verif.Props

open Verif Verif.Spec Verif.Server

variable {P : Type}

/-! ### C33, C34, C35: answers and broadcasts -/

/-- **C33** The code of a request first runs user code. Unless that panics, it decides on one answer
and a list of broadcasts; what happens then is exactly: the answer is sent once, to the client, with
the sequence of the request; if that succeeds one attempt per broadcast message, in order of
declaration, with sequence 0; then deferred code. It fails only if the answer cannot be sent or a
message cannot be packed. Nothing else in the server changes. -/
theorem C33_one_response (cfg : Cfg P) (env : Env P) (r : Flow.Request) (u : Uuid) (p : P)
    (seq : UInt32) (s : State P) :
    let s1 := s.push (.respond u (r.request.getD []) seq)
    (process cfg env r u p seq s = (.panic, s1) ∧
      (if 2 ≤ r.actions.length then env.conclude s1 r u p = none else env.reply s1 r u p = none)) ∨
    ∃ o l acts, Decides env r s1 u p o l ∧
      Answers u seq o l (process cfg env r u p seq s).1 acts ∧
      (process cfg env r u p seq s).2 = { s1 with past := acts.reverse ++ s1.past } ∧
      ((process cfg env r u p seq s).1 = .err → (∃ x, cfg.packs x = false) ∨
        env.send s1 u seq o = false) := by
  intro s1
  have key : ∀ (o : Out P) cs, (finish cfg env u seq o cs s1).1 = .err →
      (∃ x, cfg.packs x = false) ∨ env.send s1 u seq o = false := by
    intro o cs h
    by_cases hx : ∃ x, cfg.packs x = false
    · exact .inl hx
    · have hall : ∀ x, cfg.packs x = true := fun x => by
        cases hb : cfg.packs x
        · exact absurd ⟨x, hb⟩ hx
        · rfl
      right
      cases hs : env.send s1 u seq o with
      | false => rfl
      | true => rw [finish_pure u seq o cs s1 (hall _) (fun _ _ => hall _) hs] at h; cases h
  by_cases h2 : 2 ≤ r.actions.length
  · rw [if_pos h2]
    have hp : process cfg env r u p seq s = (match env.conclude s1 r u p with
        | none => (.panic, s1)
        | some (.error e) => finish cfg env u seq (.msg (r.error.getD []) e) [] s1
        | some (.action i x casts) =>
          finish cfg env u seq (.msg ((r.actions.get i).response.getD []) x) (castList _ casts) s1) := by
      unfold process; dsimp only; rw [if_pos (show r.actions.length > 1 from h2)]; rfl
    rw [hp]
    cases hc : env.conclude s1 r u p with
    | none => exact .inl ⟨rfl, rfl⟩
    | some x =>
      right
      cases x with
      | error e =>
        obtain ⟨acts, h, e1⟩ := finish_acts (cfg := cfg) (env := env) u seq (.msg (r.error.getD []) e) [] s1
        exact ⟨_, _, acts, .error h2 hc, h, e1, key _ _⟩
      | action i x casts =>
        obtain ⟨acts, h, e1⟩ := finish_acts (cfg := cfg) (env := env) u seq
          (.msg ((r.actions.get i).response.getD []) x) (castList _ casts) s1
        exact ⟨_, _, acts, .action h2 hc (castList_gives _ casts), h, e1, key _ _⟩
  · rw [if_neg h2]
    have hp : process cfg env r u p seq s = (match env.reply s1 r u p with
        | none => (.panic, s1)
        | some (.error e) => finish cfg env u seq (.msg (r.error.getD []) e) [] s1
        | some (.response x) =>
          finish cfg env u seq (.msg ((r.actions.head?.bind Flow.Action.response).getD []) x) [] s1) := by
      unfold process; dsimp only; rw [if_neg (show ¬ r.actions.length > 1 from h2)]; rfl
    rw [hp]
    have h2' : r.actions.length ≤ 1 := by omega
    cases hc : env.reply s1 r u p with
    | none => exact .inl ⟨rfl, rfl⟩
    | some x =>
      right
      cases x with
      | error e =>
        obtain ⟨acts, h, e1⟩ := finish_acts (cfg := cfg) (env := env) u seq (.msg (r.error.getD []) e) [] s1
        exact ⟨_, _, acts, .plainError h2' hc, h, e1, key _ _⟩
      | response x =>
        obtain ⟨acts, h, e1⟩ := finish_acts (cfg := cfg) (env := env) u seq
          (.msg ((r.actions.head?.bind Flow.Action.response).getD []) x) [] s1
        exact ⟨_, _, acts, .plain h2' hc, h, e1, key _ _⟩

/-- Like `shopEnv`, but the request is concluded with its first action: the required broadcast goes to
clients 2 and 3, the optional one to 4; client 2 cannot be reached. -/
def castEnv : Env Unit :=
  { shopEnv with
    send := fun _ u _ _ => u != 2
    conclude := fun _ r _ _ =>
      if h : r = shopRequest then some (h ▸ .action ⟨0, by decide⟩ () (([2, 3], ()), some ([4], ()), ()))
      else none }

set_option maxRecDepth 20000 in
/-- The whole sequence for the witness: the answer, three attempts of which one fails, the end. -/
example : (process shopCfg castEnv shopRequest 1 () 10 .new).2.past.reverse =
    [.respond 1 ['Q'] 10, .send 1 10 (.msg ['R'] ()) true, .send 2 0 (.msg ['U'] ()) false,
      .send 3 0 (.msg ['U'] ()) true, .send 4 0 (.msg ['V'] ()) true, .deferred] := by
  rfl

/-- A workflow with a request that has one conclusion, with a broadcast. -/
def soleText : List Char := "G.Q !E { (Y > G.R) > B; }".toList

/-- The request of `soleText`. -/
def soleDeclared (r : Flow.Request) : Prop :=
  ∃ a, r.actions = [a] ∧ a.response = some "G.R".toList ∧ a.broadcast = [⟨['B'], false⟩] ∧
    r.error = some ['E']

set_option maxRecDepth 20000 in
/-- **C34** violated: an accepted workflow declares a required broadcast for the only response of a
request, and whatever user code and transport do, the code of the request never sends it. -/
theorem C34_broadcast_sent_violated :
    (∃ w pr r, Flow.Parses flowProt soleText (.accepted w pr) ∧ r ∈ w.requests ∧ soleDeclared r) ∧
    ∀ (P : Type) (cfg : Cfg P) (env : Env P) (r : Flow.Request) (u : Uuid) (p : P) (seq : UInt32)
      (s : State P), soleDeclared r → ∃ l, (process cfg env r u p seq s).2.past = l ++ s.past ∧
        ∀ v q x ok, .send v q (.msg ['B'] x) ok ∉ l := by
  refine ⟨⟨_, _, _, ⟨300, by rfl⟩, List.mem_cons_self, _, rfl, by rfl, by rfl, by rfl⟩, ?_⟩
  rintro P cfg env r u p seq s ⟨a, ha, hr, _, he⟩
  rcases C33_one_response cfg env r u p seq s with ⟨h, _⟩ | ⟨o, l, acts, hd, h, e, _⟩
  · refine ⟨[.respond u (r.request.getD []) seq], by rw [h]; rfl, ?_⟩
    simp
  · have hlen : r.actions.length = 1 := by rw [ha]; rfl
    have ho : l = [] ∧ ∀ x, o ≠ .msg ['B'] x := by
      cases hd with
      | error h2 _ => omega
      | action h2 _ _ => omega
      | plainError _ _ =>
        refine ⟨rfl, fun x e => ?_⟩
        rw [he] at e
        injection e with e _
        exact absurd e (by decide)
      | plain _ _ =>
        refine ⟨rfl, fun x e => ?_⟩
        rw [ha] at e
        simp only [List.head?_cons, Option.bind_some, hr] at e
        injection e with e _
        exact absurd e (by decide)
    obtain ⟨rfl, ho⟩ := ho
    refine ⟨acts.reverse ++ [.respond u (r.request.getD []) seq], by rw [e]; simp, ?_⟩
    intro v q x ok hm
    rw [List.mem_append, List.mem_reverse] at hm
    rcases hm with hm | hm
    · generalize (process cfg env r u p seq s).1 = res at h
      cases h with
      | sent hA =>
        cases hA
        simp only [List.cons_append, List.nil_append, List.mem_cons, List.not_mem_nil, or_false] at hm
        rcases hm with hm | hm
        · injection hm with _ _ h3 _; exact ho x h3.symm
        · cases hm
      | failed =>
        rw [List.mem_singleton] at hm
        injection hm with _ _ h3 _; exact ho x h3.symm
      | unpacked => cases hm
    · rw [List.mem_singleton] at hm; cases hm

/-- **C34** (partial) For requests with at least two actions, if user code concludes with an action and
the code of the request succeeds: every required broadcast of the action has receivers and content,
and each broadcast with receivers and content is attempted for each receiver. The full property is
this for all requests. -/
theorem C34_broadcast_sent_partial (cfg : Cfg P) (env : Env P) (r : Flow.Request) (u : Uuid) (p : P)
    (seq : UInt32) (s : State P) (h2 : 2 ≤ r.actions.length) {i : Fin r.actions.length} {x : P}
    {casts : Casts P (r.actions.get i).broadcast}
    (hc : env.conclude (s.push (.respond u (r.request.getD []) seq)) r u p = some (.action i x casts))
    (hok : (process cfg env r u p seq s).1 = .ok ()) :
    (∀ ref, ⟨ref, false⟩ ∈ (r.actions.get i).broadcast →
      ∃ us y, CastFor ⟨ref, false⟩ us y (r.actions.get i).broadcast casts) ∧
    ∃ l, (process cfg env r u p seq s).2.past = l ++ s.past ∧
      ∀ b us y, CastFor b us y (r.actions.get i).broadcast casts →
        ∀ v ∈ us, ∃ ok, .send v 0 (.msg b.reference y) ok ∈ l := by
  refine ⟨fun ref h => castFor_required _ casts ref h, ?_⟩
  rcases C33_one_response cfg env r u p seq s with ⟨h, _⟩ | ⟨o, l, acts, hd, h, e, _⟩
  · rw [h] at hok; cases hok
  · refine ⟨acts.reverse ++ [.respond u (r.request.getD []) seq], by rw [e]; simp, ?_⟩
    intro b us y hb v hv
    have hg : Gives (r.actions.get i).broadcast casts l := by
      cases hd with
      | error _ k => rw [hc] at k; cases k
      | action _ k g =>
        rw [hc] at k
        injection k with k
        injection k with h3 h4 h5
        subst h3
        cases h5
        exact g
      | plainError k _ => omega
      | plain k _ => omega
    rw [hok] at h
    cases h with
    | sent hA =>
      obtain ⟨ok, m⟩ := hA.mem (hb.mem hg v hv)
      exact ⟨ok, by simp [m]⟩

set_option maxRecDepth 20000 in
example : 2 ≤ shopRequest.actions.length ∧ (process shopCfg castEnv shopRequest 1 () 10 .new).1 = .ok () :=
  ⟨by decide, by rfl⟩

/-- **C35** A broadcast is attempted exactly once for every receiver, in order, whatever the outcomes;
nothing else happens. -/
theorem C35_broadcast_complete (env : Env P) (o : Out P) (us : List Uuid) (s : State P) :
    ∃ acts, Attempts (us.map (fun u => (u, o))) acts ∧
      broadcast env o us s = { s with past := acts.reverse ++ s.past } :=
  broadcast_acts o us s

set_option maxRecDepth 20000 in
example : (broadcast castEnv (.msg ['U'] ()) [1, 2, 3] .new).past.reverse =
    [.send 1 0 (.msg ['U'] ()) true, .send 2 0 (.msg ['U'] ()) false, .send 3 0 (.msg ['U'] ()) true] := by
  rfl

/-! ### C51: beacons -/

/-- **C51** The code of a beacon first runs user code; if that fails nothing is sent; otherwise exactly
one confirmation is sent, with the sequence of the beacon, then deferred code runs. -/
theorem C51_beacon_confirmation (cfg : Cfg P) (env : Env P) (ref : Ref) (u : Uuid) (p : P)
    (seq : UInt32) (s : State P) :
    let s1 := s.push (.beacon u ref seq)
    (env.beacon s1 ref u p = .panic → emitBeacon cfg env ref u p seq s = (.panic, s1)) ∧
    (env.beacon s1 ref u p = .err → emitBeacon cfg env ref u p seq s = (.err, s1)) ∧
    (env.beacon s1 ref u p = .ok () → cfg.packs .beacon = true →
      emitBeacon cfg env ref u p seq s =
        if env.send s1 u seq .beacon then (.ok (), (s1.push (.send u seq .beacon true)).push .deferred)
        else (.err, s1.push (.send u seq .beacon false))) := by
  intro s1
  have hb : emitBeacon cfg env ref u p seq s = (match env.beacon s1 ref u p with
    | .panic => (.panic, s1)
    | .err => (.err, s1)
    | .ok _ => finish cfg env u seq .beacon [] s1) := rfl
  refine ⟨fun h => by rw [hb, h], fun h => by rw [hb, h], fun h hp => ?_⟩
  rw [hb, h]
  dsimp only
  unfold finish
  rw [if_neg (by simp [hp])]
  cases hs : env.send s1 u seq .beacon with
  | true => simp only [send, hs, broadcastAll, if_true]
  | false => simp [send, hs]

set_option maxRecDepth 20000 in
example : (listen shopCfg shopEnv .new (shopRun ++ [.received 1 (shopFrame 5 11).bytes]) .new).2.past.take 3 =
    [.deferred, .send 1 11 .beacon true, .beacon 1 ['B'] 11] := by
  rfl

/-! ### C36: keys -/

theorem lookup_of_mem_names {V : Type} {r : Record V} {f : Prot.Name} (h : f ∈ r.map Prod.fst) :
    ∃ v, r.lookup f = some v := by
  induction r with
  | nil => cases h
  | cons p r ih =>
    obtain ⟨a, b⟩ := p
    rw [List.lookup_cons]
    by_cases e : f = a
    · subst e; exact ⟨b, by simp⟩
    · rw [show (f == a) = false from by simpa using e]
      exact ih (by
        rcases List.mem_cons.1 h with h | h
        · exact absurd h e
        · exact h)

/-- **C36** Updating a key: without a key, or with `overwrite`, the key becomes the given one.
Otherwise the generated code changes exactly the fields present in the update, for the fields of any
struct of an accepted protocol. -/
theorem C36_identification_merge {V : Type} {text : List Char} {pr : Prot.Store}
    (hp : Prot.Parses text (.accepted pr)) {t : Prot.Struct} (ht : t ∈ pr.structs)
    (c : Consumer (Record V)) (k : Record V) (hk : Fits t.fields k) :
    (∀ o, c.key = none ∨ o = true → (c.setKey (mergeRecords t.fields) k o).key = some k) ∧
    (∀ o, c.assigned = none ∨ o = true → (c.assign (mergeRecords t.fields) k o).assigned = some k) ∧
    (∀ old, c.key = some old → Fits t.fields old →
      ∃ new, (c.setKey (mergeRecords t.fields) k false).key = some new ∧ Fits t.fields new ∧
        ∀ f, new.lookup f = updated (old.lookup f) (k.lookup f)) ∧
    (∀ old, c.assigned = some old → Fits t.fields old →
      ∃ new, (c.assign (mergeRecords t.fields) k false).assigned = some new ∧ Fits t.fields new ∧
        ∀ f, new.lookup f = updated (old.lookup f) (k.lookup f)) := by
  have hn := C25_field_names_unique hp t ht
  have none_of : ∀ {r : Record V} {f : Prot.Name}, f ∉ r.map Prod.fst → r.lookup f = none := by
    intro r f h
    cases hl : r.lookup f with
    | none => rfl
    | some v =>
      exfalso
      apply h
      clear h
      induction r with
      | nil => cases hl
      | cons p r ih =>
        obtain ⟨a, b⟩ := p
        rw [List.lookup_cons] at hl
        by_cases e : f = a
        · subst e; exact List.mem_cons_self
        · rw [show (f == a) = false from by simpa using e] at hl
          exact List.mem_cons_of_mem _ (ih hl)
  have main : ∀ old : Record V, Fits t.fields old →
      Fits t.fields (mergeRecords t.fields old k) ∧
      ∀ f, (mergeRecords t.fields old k).lookup f = updated (old.lookup f) (k.lookup f) := by
    intro old ho
    have hval : ∀ f, (mergeRecords t.fields old k).lookup f = updated (old.lookup f) (k.lookup f) := by
      intro f
      by_cases hf : f ∈ t.fields.map Prot.Field.name
      · obtain ⟨fd, hfd, rfl⟩ := List.mem_map.1 hf
        obtain ⟨a, b, hab⟩ := List.append_of_mem hfd
        have hs : overwriteStmts t.fields = overwriteStmts a ++
            (if fd.optional then Stmt.copySome fd.name else .copy fd.name) :: overwriteStmts b := by
          rw [hab]; simp [overwriteStmts]
        rw [hab, List.map_append, List.map_cons, List.nodup_append] at hn
        obtain ⟨_, hn2, hn3⟩ := hn
        rw [List.nodup_cons] at hn2
        have ho1 : fd.name ∈ old.map Prod.fst := by rw [ho.1]; exact hf
        obtain ⟨v, hv⟩ := lookup_of_mem_names (r := k) (f := fd.name) (by rw [hk.1]; exact hf)
        have hfit := hk.2 fd hfd v hv
        have na : fd.name ∉ (overwriteStmts a).map Stmt.field := by
          rw [stmts_fields]; intro hm; exact hn3 _ hm _ List.mem_cons_self rfl
        have nb : fd.name ∉ (overwriteStmts b).map Stmt.field := by
          rw [stmts_fields]; exact hn2.1
        unfold mergeRecords
        cases v with
        | plain v =>
          have hopt : fd.optional = false := hfit
          have h := fold_at k (overwriteStmts a) (overwriteStmts b) (.copy fd.name) old na nb
          rw [hopt] at hs
          simp only [Bool.false_eq_true, if_false] at hs
          rw [hs, hv]
          simp only [Stmt.field, hv] at h
          exact h.trans (if_pos ho1)
        | opt v =>
          have hopt : fd.optional = true := hfit
          have h := fold_at k (overwriteStmts a) (overwriteStmts b) (.copySome fd.name) old na nb
          rw [hopt] at hs
          simp only [if_true] at hs
          rw [hs, hv]
          cases v with
          | none => simp only [Stmt.field, hv] at h; exact h
          | some v => simp only [Stmt.field, hv] at h; exact h.trans (if_pos ho1)
      · have h1 : f ∉ (mergeRecords t.fields old k).map Prod.fst := by rw [merge_names, ho.1]; exact hf
        rw [none_of h1, none_of (r := old) (by rw [ho.1]; exact hf),
          none_of (r := k) (by rw [hk.1]; exact hf)]
        rfl
    refine ⟨⟨by rw [merge_names]; exact ho.1, ?_⟩, hval⟩
    intro fd hfd v hv
    rw [hval] at hv
    cases hkv : k.lookup fd.name with
    | none => rw [hkv] at hv; exact ho.2 fd hfd v hv
    | some w =>
      rw [hkv] at hv
      have hw := hk.2 fd hfd w hkv
      unfold updated at hv
      split at hv
      · exact ho.2 fd hfd v hv
      · rename_i e
        injection e with e
        injection hv with hv
        rw [← hv, ← e]; exact hw
      · rename_i e; cases e
  refine ⟨?_, ?_, ?_, ?_⟩
  · intro o h
    unfold Consumer.setKey
    split
    · rfl
    · rename_i old e
      rcases h with h | h
      · rw [h] at e; cases e
      · rw [h]; rfl
  · intro o h
    unfold Consumer.assign
    split
    · rfl
    · rename_i old e
      rcases h with h | h
      · rw [h] at e; cases e
      · rw [h]; rfl
  · intro old h ho
    refine ⟨mergeRecords t.fields old k, ?_, main old ho⟩
    unfold Consumer.setKey
    rw [h]
    rfl
  · intro old h ho
    refine ⟨mergeRecords t.fields old k, ?_, main old ho⟩
    unfold Consumer.assign
    rw [h]
    rfl

/-- The hypotheses hold for the struct `S { u8[] a; E b?; }`: `a` is replaced, `b` stays. -/
example : ∃ t ∈ demoStore.structs, Fits t.fields [(['a'], .plain 1), (['b'], .opt (none : Option Nat))] ∧
    Fits t.fields [(['a'], .plain 5), (['b'], .opt (some 6))] ∧
    mergeRecords t.fields [(['a'], .plain 5), (['b'], .opt (some 6))]
      [(['a'], .plain 1), (['b'], .opt (none : Option Nat))] =
        [(['a'], .plain 1), (['b'], .opt (some 6))] := by
  refine ⟨_, List.mem_cons_self, ⟨rfl, ?_⟩, ⟨rfl, ?_⟩, by rfl⟩ <;>
  · intro f hf v hv
    simp only [List.mem_cons, List.not_mem_nil, or_false] at hf
    rcases hf with rfl | rfl <;> (cases hv; rfl)

/-! ### C50: filters -/

/-- **C50** After any run: the filters contain no client twice; `all` is the connected clients;
`except` and `exclude` leave out exactly their arguments; `filter` selects by the record. -/
theorem C50_filters (cfg : Cfg P) (env : Env P) (opts : Options) (is : List (Input P)) :
    let s := (listen cfg env opts is .new).2
    (∀ v, v ∈ filterAll s ↔ Online v s.past) ∧ (filterAll s).Nodup ∧
    (∀ u, (∀ v, v ∈ filterExcept s u ↔ Online v s.past ∧ v ≠ u) ∧ (filterExcept s u).Nodup) ∧
    (∀ us, (∀ v, v ∈ filterExclude s us ↔ Online v s.past ∧ v ∉ us) ∧ (filterExclude s us).Nodup) ∧
    (∀ cb, (∀ v, v ∈ filterBy s cb ↔ ∃ c, s.find v = some c ∧ Online v s.past ∧ cb v c = true) ∧
      (filterBy s cb).Nodup) := by
  intro s
  have inv : Inv cfg opts none s := listen_inv env is inv_new
  have hd : Distinct s := listen_distinct is (by unfold Distinct; exact List.nodup_nil)
  have hall : ∀ v, v ∈ s.consumers.map Prod.fst ↔ Online v s.past := by
    intro v
    rw [← find_isSome_iff]
    cases h : s.find v with
    | none => simpa using inv.gone v h
    | some c => simpa using (inv.known v c h).online
  refine ⟨hall, hd, fun u => ⟨fun v => ?_, hd.filter _⟩, fun us => ⟨fun v => ?_, hd.filter _⟩,
    fun cb => ⟨fun v => ?_, ?_⟩⟩
  · simp only [filterExcept, List.mem_filter, hall, decide_eq_true_eq]
  · unfold filterExclude
    rw [List.mem_filter, hall]
    refine and_congr_right fun _ => ?_
    simp only [Bool.not_eq_true', List.any_eq_false, decide_eq_true_eq]
    exact ⟨fun h hm => h v hm rfl, fun h x hx e => h (e ▸ hx)⟩
  · simp only [filterBy, List.mem_map, List.mem_filter]
    constructor
    · rintro ⟨⟨w, c⟩, ⟨hm, hcb⟩, rfl⟩
      have hf : s.find w = some c := (mem_of_lookup hd).1 hm
      exact ⟨c, hf, (inv.known w c hf).online, hcb⟩
    · rintro ⟨c, hf, _, hcb⟩
      exact ⟨(v, c), ⟨(mem_of_lookup hd).2 hf, hcb⟩, rfl⟩
  · exact hd.sublist (List.filter_sublist.map _)

set_option maxRecDepth 20000 in
example : filterExclude (listen shopCfg shopEnv .new
    [.connected 1, .connected 2, .connected 3, .disconnected 1, .connected 4] .new).2 [3] = [2, 4] := by
  rfl

/-! ### C76–C80: packing into pieces, isolation, strategies -/

/-- The handshake and a request in one piece of data. -/
def pipelined : List (Input Unit) :=
  [.connected 1, .confirm,
    .received 1 ((shopFrame 1 0).bytes ++ ((shopFrame 2 1).bytes ++ (shopFrame 3 10).bytes))]

set_option maxRecDepth 20000 in
/-- **C76** violated: the same bytes as in `shopRun`, where the request is served. If they arrive in
one piece the client is kicked for a missing key, though the server answered its key before. -/
theorem C76_packing_violated :
    (listen shopCfg shopEnv .new pipelined .new).2.past =
      [.error (some 1), .drop 1, .got 1 (.msg ['Q'] ()) 10,
        .send 1 1 (.hash false) true, .got 1 (.hash ['p'] ['w']) 1,
        .send 1 0 (.selfKey 1) true, .got 1 (.msg ['K'] ()) 0, .chunk 1,
        .send 1 0 .confirmation true, .confirmed 1, .opened 1, .event "connected".toList] := by
  rfl

/-- A request frame: name and sequence of the request. -/
def IsRequest (cfg : Cfg P) (f : Frame) (q : Ref × UInt32) : Prop :=
  f.Ok ∧ f.hdr.signature = cfg.decoder.signature ∧ f.hdr.sequence = q.2 ∧
    (∃ p, cfg.decoder.getMsg f.hdr.id f.body = .ok (.msg q.1 p)) ∧
    ∃ r ∈ cfg.workflow.requests, r.request = some q.1

/-- Frames and the requests they are. -/
inductive AreRequests (cfg : Cfg P) : List Frame → List (Ref × UInt32) → Prop where
  | nil : AreRequests cfg [] []
  | cons {f : Frame} {q : Ref × UInt32} {fs : List Frame} {qs : List (Ref × UInt32)} :
      IsRequest cfg f q → AreRequests cfg fs qs → AreRequests cfg (f :: fs) (q :: qs)

theorem areRequests_delivered {cfg : Cfg P} {fs : List Frame} {reqs : List (Ref × UInt32)}
    (h : AreRequests cfg fs reqs) : (∀ f ∈ fs, Good cfg.decoder f) ∧
    (fs.filterMap (delivered cfg.decoder)).map (fun m => match m.msg with
      | .msg ref _ => some (ref, m.header.sequence)
      | .hash _ _ => none) = reqs.map some ∧
    ∀ q ∈ reqs, ∃ r ∈ cfg.workflow.requests, r.request = some q.1 := by
  induction h with
  | nil => simp
  | @cons f q fs qs h _ ih =>
    obtain ⟨h1, h2, h3, ⟨p, h4⟩, h5⟩ := h
    obtain ⟨i1, i2, i3⟩ := ih
    have hg : Good cfg.decoder f := ⟨h1, h2.symm, _, h4⟩
    refine ⟨?_, ?_, ?_⟩
    · intro g hg'
      rcases List.mem_cons.1 hg' with rfl | hg'
      · exact hg
      · exact i1 g hg'
    · have hd : delivered cfg.decoder f = some ⟨f.hdr, .msg q.1 p⟩ := by
        obtain ⟨t, ht, hd⟩ := Rust.delivered_good cfg.decoder hg
        rw [h4] at ht
        cases ht
        exact hd
      rw [List.filterMap_cons, hd]
      simp only [List.map_cons, i2, h3]
    · intro q' hq'
      rcases List.mem_cons.1 hq' with rfl | hq'
      · exact h5
      · exact i3 q' hq'

/-- **C76** (partial) After the handshake, any number of requests in one piece of data reach their
handlers, once each and in order, unless the server ends in the middle. The full property is that
the packing never matters, also during the handshake. -/
theorem C76_packing_partial (cfg : Cfg P) (env : Env P) (opts : Options) {u : Uuid} {s : State P}
    {c : Consumer P} (hc : s.find u = some c) (h1 : c.confirmed = true) (h2 : c.discredited = false)
    (h3 : c.reader = ⟨[], []⟩) (h4 : c.hashAccepted = true) (h5 : c.key.isSome = true)
    (h6 : Strict opts.identification → c.assigned.isSome = true)
    {fs : List Frame} {reqs : List (Ref × UInt32)} (hfs : AreRequests cfg fs reqs)
    (hok : (received cfg env opts u (stream fs) s).1 = .ok ()) :
    ∃ l, (received cfg env opts u (stream fs) s).2.past = l ++ s.past ∧
      (l.reverse.filterMap (fun a => match a with
        | .respond v ref seq => if v = u then some (ref, seq) else none
        | _ => none)) = reqs := by
  obtain ⟨g1, g2, g3⟩ := areRequests_delivered hfs
  have hch : Rust.chunk cfg.decoder c.reader (stream fs) =
      (.ok, ⟨[], fs.filterMap (delivered cfg.decoder)⟩) := by
    rw [h3]
    unfold Rust.chunk
    simpa using Rust.chunkLoop_good_all cfg.decoder fs g1 _ (Rust.stream_length_le fs) []
  have e : received cfg env opts u (stream fs) s =
      onMessages cfg env opts u (c.isAssigned opts.identification) true
        (fs.filterMap (delivered cfg.decoder))
        ((s.push (.chunk u)).set u { c with reader := ⟨[], []⟩ }) := by
    unfold received
    dsimp only
    rw [find_push, hc]
    dsimp only
    rw [if_neg (by simp [h1]), if_neg (by simp [h2]), hch, h5]
  rw [e] at hok ⊢
  have hid : c.isAssigned opts.identification = true ∨ opts.identification = .ignore := by
    left
    unfold Consumer.isAssigned
    split
    · rename_i hn
      have hns : ¬ Strict opts.identification := fun hs => by
        have := h6 hs
        cases ha : c.assigned with
        | none => rw [ha] at this; cases this
        | some _ => rw [ha] at hn; cases hn
      cases ho : opts.identification with
      | log => rfl
      | ignore => rfl
      | emitError => exact absurd (.inl ho) hns
      | disconnect => exact absurd (.inr (.inl ho)) hns
      | emitErrorAndDisconnect => exact absurd (.inr (.inr ho)) hns
    · rfl
  have hfind : ((s.push (.chunk u)).set u { c with reader := ⟨[], []⟩ }).find u =
      some { c with reader := ⟨[], []⟩ } := find_set_self (d := c) (by rw [find_push]; exact hc)
  obtain ⟨l, hl, hr⟩ := batch_served hid _ reqs g2 g3 hfind h4 hok
  refine ⟨l ++ [.chunk u], by rw [hl]; simp, ?_⟩
  exact (responds_append u l [.chunk u]).trans (by rw [hr]; rfl)

example : AreRequests shopCfg [shopFrame 3 10, shopFrame 3 11] [(['Q'], 10), (['Q'], 11)] :=
  .cons ⟨⟨rfl, by decide⟩, rfl, rfl, ⟨(), rfl⟩, shopRequest, List.mem_cons_self, rfl⟩
    (.cons ⟨⟨rfl, by decide⟩, rfl, rfl, ⟨(), rfl⟩, shopRequest, List.mem_cons_self, rfl⟩ .nil)

set_option maxRecDepth 20000 in
/-- **C77** violated: after the handshake client 1 sends a request and then a message with an unknown
id, in one piece. The request never reaches its handler; in two pieces it does. -/
theorem C77_good_before_bad_violated :
    (listen shopCfg shopEnv .new (shopRun ++
      [.received 1 ((shopFrame 3 11).bytes ++ (shopFrame 9 12).bytes)]) .new).2.past =
        [.error (some 1), .drop 1, .chunk 1] ++ (listen shopCfg shopEnv .new shopRun .new).2.past ∧
    .respond 1 ['Q'] 11 ∈ (listen shopCfg shopEnv .new (shopRun ++
      [.received 1 (shopFrame 3 11).bytes, .received 1 (shopFrame 9 12).bytes]) .new).2.past := by
  refine ⟨by rfl, ?_⟩
  have : (listen shopCfg shopEnv .new (shopRun ++
      [.received 1 (shopFrame 3 11).bytes, .received 1 (shopFrame 9 12).bytes]) .new).2.past =
        [.error (some 1), .drop 1, .chunk 1, .deferred, .send 1 11 (.msg ['E'] ()) true,
          .respond 1 ['Q'] 11, .got 1 (.msg ['Q'] ()) 11, .chunk 1] ++
        (listen shopCfg shopEnv .new shopRun .new).2.past := by rfl
  rw [this]
  simp

/-- One round of the loop looks at one message. -/
theorem onMessage_got {cfg : Cfg P} {env : Env P} {opts : Options} {u : Uuid} {a k : Bool} {m : In P}
    {seq : UInt32} {s : State P} (h : (s.find u).isSome = true) :
    ∃ l, (onMessage cfg env opts u a k m seq s).2.past = l ++ .got u m seq :: s.past ∧
      ∀ x ∈ l, Inner u x := by
  have key : ∀ {t : State P}, Local (Inner u) u (s.push (.got u m seq)) t →
      ∃ l, t.past = l ++ .got u m seq :: s.past ∧ ∀ x ∈ l, Inner u x :=
    fun h => h.past
  unfold onMessage
  split
  · rename_i e; rw [e] at h; cases h
  · dsimp only
    split
    · exact key (onHash_local env u _ _ _ _ _)
    · split
      · exact key (onSelfKey_local env u _ _ _ _)
      · exact key (onOther_local env u _ _ _ _ _ _ _)

/-- The messages of `u` that were looked at, oldest first. -/
def looked (u : Uuid) (h : List (Act P)) : List (In P × UInt32) :=
  h.reverse.filterMap (fun a => match a with
    | .got v m seq => if v = u then some (m, seq) else none
    | _ => none)

theorem looked_append (u : Uuid) (a b : List (Act P)) :
    looked u (a ++ b) = looked u b ++ looked u a := by
  simp [looked]

theorem looked_inner {u : Uuid} {l : List (Act P)} (h : ∀ x ∈ l, Inner u x) : looked u l = [] := by
  rw [looked, List.filterMap_eq_nil_iff]
  intro a ha
  have := h a (List.mem_reverse.1 ha)
  cases a <;> first | rfl | exact this.elim

theorem onMessages_looked {cfg : Cfg P} {env : Env P} {opts : Options} {u : Uuid} {a k : Bool}
    (ms : List (Rust.Income (In P))) {s : State P} (h : (s.find u).isSome = true)
    (hok : (onMessages cfg env opts u a k ms s).1 = .ok ()) :
    ∃ l, (onMessages cfg env opts u a k ms s).2.past = l ++ s.past ∧
      looked u l = ms.map (fun m => (m.msg, m.header.sequence)) := by
  induction ms generalizing s with
  | nil => exact ⟨[], rfl, rfl⟩
  | cons m ms ih =>
    obtain ⟨l, hl, hi⟩ := onMessage_got (cfg := cfg) (env := env) (opts := opts) (a := a) (k := k)
      (m := m.msg) (seq := m.header.sequence) h
    have hloc := onMessage_local (cfg := cfg) (opts := opts) env u a k m.msg m.header.sequence s
    rw [onMessages] at hok ⊢
    unfold Proc.andThen at hok ⊢
    split at hok
    · rename_i s1 e
      rw [e] at hl hloc
      have h1 : (s1.find u).isSome = true := by
        rw [find_isSome_iff] at h ⊢
        rw [hloc.keys]
        exact h
      obtain ⟨l2, hl2, hm⟩ := ih h1 hok
      refine ⟨l2 ++ (l ++ [.got u m.msg m.header.sequence]), ?_, ?_⟩
      · rw [hl2, hl]
        simp
      · rw [looked_append, hm, looked_append, looked_inner hi]
        simp [looked]
    · cases hok
    · cases hok

/-- **C77** (partial) If a piece of data contains no bad message, all its messages are looked at, once
each and in order, when it arrives; so are messages left from pieces before; and then none is left, so
none is looked at again (unless the server ends in the middle). The full property is this for the good messages before a bad one, too. -/
theorem C77_good_before_bad_partial (cfg : Cfg P) (env : Env P) (opts : Options) {u : Uuid} {s : State P}
    {c : Consumer P} (hc : s.find u = some c) (h1 : c.confirmed = true) (h2 : c.discredited = false)
    (h3 : c.reader.buffer = []) {fs : List Frame} (hfs : ∀ f ∈ fs, Good cfg.decoder f)
    (hok : (received cfg env opts u (stream fs) s).1 = .ok ()) :
    (∃ d, (received cfg env opts u (stream fs) s).2.find u = some d ∧ d.reader = ⟨[], []⟩) ∧
    ∃ l, (received cfg env opts u (stream fs) s).2.past = l ++ s.past ∧
      (l.reverse.filterMap (fun a => match a with
        | .got v m seq => if v = u then some (m, seq) else none
        | _ => none)) =
      (c.reader.queue ++ fs.filterMap (delivered cfg.decoder)).map (fun m => (m.msg, m.header.sequence)) := by
  have hch : Rust.chunk cfg.decoder c.reader (stream fs) =
      (.ok, ⟨[], c.reader.queue ++ fs.filterMap (delivered cfg.decoder)⟩) := by
    unfold Rust.chunk
    rw [h3]
    simpa using Rust.chunkLoop_good_all cfg.decoder fs hfs _ (Rust.stream_length_le fs) c.reader.queue
  have e : received cfg env opts u (stream fs) s =
      onMessages cfg env opts u (c.isAssigned opts.identification) c.key.isSome
        (c.reader.queue ++ fs.filterMap (delivered cfg.decoder))
        ((s.push (.chunk u)).set u { c with reader := ⟨[], []⟩ }) := by
    unfold received
    dsimp only
    rw [find_push, hc]
    dsimp only
    rw [if_neg (by simp [h1]), if_neg (by simp [h2]), hch]
  rw [e] at hok ⊢
  have hset : ((s.push (.chunk u)).set u { c with reader := ⟨[], []⟩ }).find u =
      some { c with reader := ⟨[], []⟩ } := find_set_self (d := c) (by rw [find_push]; exact hc)
  have hfind : (((s.push (.chunk u)).set u { c with reader := ⟨[], []⟩ }).find u).isSome = true := by
    rw [hset]; rfl
  refine ⟨onMessages_reader _ hset rfl, ?_⟩
  obtain ⟨l, hl, hr⟩ := onMessages_looked _ hfind hok
  refine ⟨l ++ [.chunk u], by rw [hl]; simp, ?_⟩
  exact (looked_append u l [.chunk u]).trans (by rw [hr]; rfl)

example : ∀ f ∈ [shopFrame 3 10, shopFrame 2 11], Good shopCfg.decoder f := by
  intro f hf
  simp only [List.mem_cons, List.not_mem_nil, or_false] at hf
  rcases hf with rfl | rfl
  · exact ⟨⟨rfl, by decide⟩, rfl, _, rfl⟩
  · exact ⟨⟨rfl, by decide⟩, rfl, _, rfl⟩

set_option maxRecDepth 20000 in
/-- **C78** violated: a self key sent again after the hash was accepted gets no answer at all, though
the client waits for it. -/
theorem C78_self_key_answered_violated :
    (listen shopCfg shopEnv .new (shopRun ++ [.received 1 (shopFrame 1 20).bytes]) .new).1 = .running ∧
    (listen shopCfg shopEnv .new (shopRun ++ [.received 1 (shopFrame 1 20).bytes]) .new).2.past =
      [.got 1 (.msg ['K'] ()) 20, .chunk 1] ++ (listen shopCfg shopEnv .new shopRun .new).2.past :=
  ⟨by rfl, by rfl⟩

/-- **C78** (partial) Before the hash is accepted every self key of a confirmed client is answered, the
first one and repeated ones. The full property has no such condition. -/
theorem C78_self_key_answered_partial (cfg : Cfg P) (env : Env P) (opts : Options) {u : Uuid}
    {s : State P} {c : Consumer P} (hc : s.find u = some c) (h1 : c.confirmed = true)
    (h2 : c.discredited = false) (h3 : c.reader = ⟨[], []⟩) (h4 : c.hashAccepted = false)
    {f : Frame} {k : P} (hf : f.Ok) (hsig : cfg.decoder.signature = f.hdr.signature)
    (hm : cfg.decoder.getMsg f.hdr.id f.body = .ok (.msg cfg.selfKey k))
    (hp : cfg.packs (.selfKey u) = true) :
    ∃ ok older newer, (received cfg env opts u f.bytes s).2.past =
      newer ++ .send u f.hdr.sequence (.selfKey u) ok :: older ++ s.past := by
  have st : Stage u true c.key.isSome false c.assigned.isSome s :=
    ⟨c, hc, fun _ => h1, h2, h3, fun x => x, h4, fun x => x⟩
  obtain ⟨d, s1, e1, e2, _, _, _, _, e7, _, e⟩ :=
    received_frame (env := env) (opts := opts) st hf hsig hm
  rw [e]
  unfold onMessage
  rw [e1]
  dsimp only
  rw [if_pos ⟨rfl, e7⟩]
  unfold onSelfKey answer
  rw [if_neg (by simp [hp])]
  split
  · rename_i t ht
    have := congrArg (fun x => x.2.past) ht
    have hb := congrArg Prod.fst ht
    simp only [send] at hb
    simp only [send, past_push, past_set, hb, e2] at this
    refine ⟨true, [.got u (.msg cfg.selfKey k) f.hdr.sequence, .chunk u], [], ?_⟩
    rw [← this]
    rfl
  · rename_i t ht
    have := congrArg (fun x => x.2.past) ht
    have hb := congrArg Prod.fst ht
    simp only [send] at hb
    simp only [send, past_push, past_set, hb, e2] at this
    obtain ⟨l, hl, _⟩ := (responsingErr_local (opts := opts) env u t).past
    refine ⟨false, [.got u (.msg cfg.selfKey k) f.hdr.sequence, .chunk u], l, ?_⟩
    rw [hl, ← this]
    simp

/-- **C79** Whatever bytes a client sends, in whatever state of the server: no other client appears,
disappears or changes, the queue of confirmations stays, only code for messages of this client runs,
and only this client is dropped. -/
theorem C79_isolation (cfg : Cfg P) (env : Env P) (opts : Options) (u : Uuid) (bytes : Bytes)
    (s : State P) :
    let s' := (received cfg env opts u bytes s).2
    s'.consumers.map Prod.fst = s.consumers.map Prod.fst ∧ (∀ v, v ≠ u → s'.find v = s.find v) ∧
      s'.confirms = s.confirms ∧ ∃ l, s'.past = l ++ s.past ∧ ∀ a ∈ l, Because u a := by
  have h := received_local (cfg := cfg) (opts := opts) env u bytes s
  obtain ⟨l, hl, hA⟩ := h.past
  refine ⟨h.keys, h.others, h.confirms, l, hl, fun a ha => ?_⟩
  have := hA a ha
  cases a <;> exact this

set_option maxRecDepth 20000 in
example : (received shopCfg shopEnv .new 1 (shopFrame 9 0).bytes
    ⟨[(1, ⟨.new, none, none, false, false, true⟩), (2, .new)], [2], []⟩).2.past =
      [.error (some 1), .drop 1, .chunk 1] := by rfl

/-- **C80** What the server does when a client makes an error: exactly what the strategy says. A
client already kicked is not dropped again. -/
theorem C80_error_strategies (env : Env P) (opts : Options) {u : Uuid} {s : State P} {c : Consumer P}
    (hc : s.find u = some c) (hd : c.discredited = false) (h1 : ∀ s, env.drop s u = true) :
    let s1 := (s.set u { c with discredited := true }).push (.drop u)
    (opts.onError = .log → responsingErr env opts u s = (.ok (), s)) ∧
    (opts.onError = .emitError → responsingErr env opts u s =
      (env.error (s.push (.error (some u))) (some u), s.push (.error (some u)))) ∧
    (opts.onError = .disconnect → responsingErr env opts u s = (.ok (), s1)) ∧
    (opts.onError = .emitErrorAndDisconnect → responsingErr env opts u s =
      (env.error (s1.push (.error (some u))) (some u), s1.push (.error (some u)))) := by
  intro s1
  have hdis : disconnect env u s = (.ok (), s1) := by
    unfold disconnect
    rw [hc]
    dsimp only
    rw [if_neg (by simp [hd]), h1]
    rfl
  refine ⟨fun h => ?_, fun h => ?_, fun h => ?_, fun h => ?_⟩ <;>
    simp [responsingErr, h, Proc.andThen, Proc.skip, hdis, emitError]

example : ∀ s u, shopEnv.drop s u = true := fun _ _ => rfl

end Verif.Props
