import Verif.Spec.NetworkTsRust
import Verif.Proofs.NetworkRustServer
import Verif.Proofs.NetworkTsClient
import Verif.Proofs.TsClientMore
set_option autoImplicit false
/-!
TypeScript clients of a Rust server.
-/
namespace Verif.Network

open Verif Verif.Spec

variable {P : Type} {cfg : Server.Cfg P} {env : Server.Env P} {opts : Server.Options}
  {down : UInt64 → UInt32 → Server.Out P → Bytes} {ccfg : TsClient.Cfg} {cenv : TsClient.Env}
  {up : UInt64 → UInt32 → TsClient.Out → Bytes}

theorem growing_tsRust : Growing (rustServer cfg env opts down) (tsClient ccfg cenv up) :=
  ⟨rustServer_sent, tsClient_sent, rfl⟩

theorem mem_tsLooked {q : UInt32} {m : TsServer.Msg} {h : List TsClient.Act} :
    (q, m) ∈ TsClient.looked h ↔ .got q m ∈ h := by
  induction h with
  | nil => simp [TsClient.looked]
  | cons x h ih => cases x <;> simp [TsClient.looked, ih, or_comm]

section
variable {n : Net (rustServer cfg env opts down) (tsClient ccfg cenv up)} {es : List (ServerEvent (Server.Input P))}
  {u : Uuid} {c : Conn (tsClient ccfg cenv up)}

theorem tsRust_law (hi : InvWith n es) (hc : n.find u = some c) : TsClient.Lawful ccfg c.client.2.past := by
  obtain ⟨is, h1, _⟩ := (hi.links u c hc).client
  obtain ⟨js, h2, _⟩ := tsClient_run (cfg := ccfg) (env := cenv) (pack := up) is
  rw [h1, h2]
  exact TsClient.lawful_run ccfg cenv js

theorem tsRust_reads_down (hi : InvWith n es) (hs : Small n) (hc : n.find u = some c) :
    Flows down (System.sends u n.server.2.past) (c.gotDown ++ c.down) ∧
    ReadsOf ccfg.decoder c.gotDown (TsClient.looked c.client.2.past) := by
  have hl := hi.links u c hc
  obtain ⟨is, h1, h2⟩ := hl.client
  have hr := tsClient_reads (cfg := ccfg) (env := cenv) (pack := up) (is := is) (by rw [h2]; exact (hs u c hc).2)
  rw [← h1, h2] at hr
  have hd := hl.down
  rw [show (rustServer cfg env opts down).sent n.server = rustSent n.server.2.past from rfl, sendsTo_rustSent] at hd
  exact ⟨hd, hr⟩

theorem tsRust_framed_down (hf : Framed n) (q : UInt32) (o : Server.Out P) (ho : (q, o) ∈ System.sends u n.server.2.past) (ts : UInt64) :
    System.IsFrame q (down ts q o) :=
  hf.down u q o (mem_rustSent.2 (System.mem_sends.1 ho)) ts

/-- What a client looked at comes from what the server sent. -/
theorem tsRust_down (hi : InvWith n es) (hf : Framed n) (hs : Small n) (hc : n.find u = some c) :
    System.Sub (fun x (y : UInt32 × TsServer.Msg) => x.1 = y.1 ∧ System.Arrives down ccfg.decoder x.1 x.2 y.2)
      (System.sends u n.server.2.past) (TsClient.looked c.client.2.past) :=
  sub_of_reads (tsRust_reads_down hi hs hc).1 (tsRust_framed_down hf) (tsRust_reads_down hi hs hc).2

theorem tsRust_reads_up (hi : InvWith n es) (hc : n.find u = some c) :
    ReadsOf cfg.decoder c.gotUp (System.heard u n.server.2.past) := by
  obtain ⟨h1, h2⟩ := hi.once u c hc
  have hr := rustServer_reads (cfg := cfg) (env := env) (opts := opts) (pack := down) h1
  rw [← hi.server, h2] at hr
  exact hr

/-- What the server looked at comes from what the client sent. -/
theorem tsRust_up (hi : InvWith n es) (hf : Framed n) (hc : n.find u = some c) :
    System.Sub (fun x (y : UInt32 × Server.In P) => x.1 = y.1 ∧ System.Arrives up cfg.decoder x.1 x.2 y.2)
      (tsSent c.client.2.past) (System.heard u n.server.2.past) :=
  sub_of_reads (hi.links u c hc).up (fun q o ho ts => hf.up u c hc q o ho ts) (tsRust_reads_up hi hc)

/-- The answer a client gets is the server's answer to its very message. -/
theorem tsRust_answer (hi : InvWith n es) (hf : Framed n) (hs : Small n) (hc : n.find u = some c) {w : TsClient.Waiter}
    {q : UInt32} {m : TsServer.Msg} (hd : .delivered w q m ∈ c.client.2.past) :
    ∃ o out x newer h, .sent w q.toNat o ∈ c.client.2.past ∧ System.Arrives up cfg.decoder q o x ∧
      n.server.2.past = newer ++ .send u q out true :: h ∧ System.Answer cfg env u q h x out ∧
      System.Arrives down ccfg.decoder q out m := by
  have hl := tsRust_law hi hc
  obtain ⟨l1, l2, e⟩ := List.append_of_mem hd
  have hl' := hl
  rw [e] at hl'
  obtain ⟨⟨o, h1⟩, _, h', rfl⟩ := hl'.at
  have hs1 : .sent w q.toNat o ∈ c.client.2.past := by rw [e]; simp [h1]
  have hg : (q, m) ∈ TsClient.looked c.client.2.past := mem_tsLooked.2 (by rw [e]; simp)
  obtain ⟨⟨q', out⟩, k1, rfl, k2⟩ := (tsRust_down hi hf hs hc).mem hg
  have hj : System.J cfg env n.server.2 := by rw [hi.server]; exact (rustKnown_run es).just
  have h1q : 1 ≤ q'.toNat ∧ q'.toNat < 4294967296 := by
    obtain ⟨a, b, e2⟩ := List.append_of_mem hs1
    rw [e2] at hl
    exact ⟨(hl.at).1, (hl.at).2.1⟩
  rcases System.justified_mem hj (System.mem_sends.1 k1) with ⟨rfl, _⟩ | ⟨newer, h, x, e3, ha⟩
  · exact absurd h1q.1 (by decide)
  · have hx : (q', x) ∈ System.heard u n.server.2.past := System.mem_heard.2 (by rw [e3]; simp [ha.got])
    obtain ⟨⟨q2, o2⟩, g1, g2, g3⟩ := (tsRust_up hi hf hc).mem hx
    cases (show q2 = q' from g2)
    obtain ⟨w2, k, g4, g5⟩ := mem_tsSent.1 g1
    have hk : k = q'.toNat := by
      obtain ⟨a, b, e2⟩ := List.append_of_mem g4
      rw [e2] at hl
      have := (hl.at).2.1
      rw [← g5]
      simp only [Nat.toUInt32_eq, UInt32.toNat_ofNat']
      omega
    subst hk
    obtain ⟨rfl, rfl⟩ := TsClient.law_sent_number hl g4 hs1
    exact ⟨_, out, x, newer, h, hs1, g3, e3, ha, k2⟩

/-- The numbers of a client grow. -/
theorem tsSent_increasing {h : List TsClient.Act} (hl : TsClient.Lawful ccfg h) :
    (tsSent h).Pairwise (fun a b => a.1 < b.1) := by
  induction h with
  | nil => exact .nil
  | cons x h ih =>
    have ih := ih hl.2
    cases x with
    | sent w q o =>
      rw [tsSent, List.pairwise_append]
      refine ⟨ih, by simp, ?_⟩
      rintro ⟨q', o'⟩ ha y hy
      rw [List.mem_singleton.1 hy]
      obtain ⟨w', k, h1, rfl⟩ := mem_tsSent.1 ha
      obtain ⟨_, h2, h3, _⟩ := hl.1
      have := h3 w' k o' h1
      show k.toUInt32 < q.toUInt32
      rw [UInt32.lt_iff_toNat_lt]
      simp only [Nat.toUInt32_eq, UInt32.toNat_ofNat']
      omega
    | _ => exact ih

theorem sub_increasing {α β : Type} {R : UInt32 × α → UInt32 × β → Prop} (hr : ∀ a b, R a b → a.1 = b.1)
    {as : List (UInt32 × α)} {bs : List (UInt32 × β)} (h : System.Sub R as bs) (hp : as.Pairwise (fun a b => a.1 < b.1)) :
    bs.Pairwise (fun a b => a.1 < b.1) := by
  induction h with
  | nil => exact .nil
  | skip _ ih => exact ih (List.pairwise_cons.1 hp).2
  | keep r k ih =>
    obtain ⟨h1, h2⟩ := List.pairwise_cons.1 hp
    refine List.pairwise_cons.2 ⟨fun b hb => ?_, ih h2⟩
    obtain ⟨a, h3, h4⟩ := k.mem hb
    rw [← hr _ _ r, ← hr _ _ h4]
    exact h1 a h3

/-- So do those the server looks at. -/
theorem tsRust_increasing (hi : InvWith n es) (hf : Framed n) (hc : n.find u = some c) :
    (System.heard u n.server.2.past).Pairwise (fun a b => a.1 < b.1) :=
  sub_increasing (fun _ _ h => h.1) (tsRust_up hi hf hc) (tsSent_increasing (tsRust_law hi hc))

end

/-! ### Values inside messages -/

theorem reaches_wraps {path : List TsServer.Name} {b w : TsServer.Js} (h : TsServer.Wraps path b w) {ns : List TsServer.Name}
    {v : TsServer.Js} (hr : TsClient.Reaches w ns v) : (ns <+: path ∨ path <+: ns) ∧ (ns = path → v = b) := by
  induction h generalizing ns with
  | body =>
    refine ⟨.inr (List.nil_prefix), ?_⟩
    rintro rfl
    cases hr
    rfl
  | @inside n path b w _ ih =>
    cases hr with
    | here => exact ⟨.inl List.nil_prefix, fun k => by cases k⟩
    | @step ps m ns v' t h1 h2 =>
      by_cases e : m = n
      · subst e
        have : v' = w := by simpa using h1.symm
        subst this
        obtain ⟨k1, k2⟩ := ih h2
        refine ⟨?_, fun k => k2 (List.cons.inj k).2⟩
        rcases k1 with k1 | k1
        · exact .inl (List.cons_prefix_cons.2 ⟨rfl, k1⟩)
        · exact .inr (List.cons_prefix_cons.2 ⟨rfl, k1⟩)
      · have hne : (m == n) = false := by simpa using e
        rw [List.lookup_cons, hne] at h1
        cases h1

theorem holds_path {m : TsServer.Msg} {ref : Flow.Ref} {v : TsServer.Js} (h : TsClient.Holds m ref v) :
    ∃ ns, TsServer.Spells ns ref ∧ (ns <+: m.path ∨ m.path <+: ns) ∧ (ns = m.path → v = m.body) := by
  obtain ⟨ns, w, h1, h2, h3⟩ := h
  exact ⟨ns, h1, reaches_wraps h2 h3⟩

theorem spells_ne_nil {ns : List TsServer.Name} {ref : Flow.Ref} (h : TsServer.Spells ns ref) : ns ≠ [] := by
  rintro rfl; exact h

theorem heads_of_prefix {α : Type} {a b : List α} (h : a <+: b ∨ b <+: a) (ha : a ≠ []) (hb : b ≠ []) : a.head? = b.head? := by
  cases a with
  | nil => exact absurd rfl ha
  | cons x a =>
    cases b with
    | nil => exact absurd rfl hb
    | cons y b =>
      rcases h with h | h
      · rw [(List.cons_prefix_cons.1 h).1]; rfl
      · rw [(List.cons_prefix_cons.1 h).1]; rfl

/-- A message of the service group has no other values. -/
theorem service_foreign {m : TsServer.Msg} {name : String} (h : IsService m name) {ref : Flow.Ref} (hf : Foreign ref)
    {v : TsServer.Js} (hh : TsClient.Holds m ref v) : False := by
  obtain ⟨ns, h1, h2, _⟩ := holds_path hh
  refine hf ns h1 ?_
  rw [heads_of_prefix h2 (spells_ne_nil h1) (by rw [h]; simp), h]
  rfl

/-- A message with a foreign name has nothing of the service group. -/
theorem foreign_service {m : TsServer.Msg} {ref : Flow.Ref} (h : TsServer.Spells m.path ref) (hf : Foreign ref)
    {name : Flow.Ref} {v : TsServer.Js} (hh : TsClient.Holds m ("InternalServiceGroup".toList ++ '.' :: name) v) : False := by
  obtain ⟨ns, h1, h2, _⟩ := holds_path hh
  refine hf _ h ?_
  rw [← heads_of_prefix h2 (spells_ne_nil h1) (spells_ne_nil h)]
  cases ns with
  | nil => exact h1.elim
  | cons x ns =>
    have e := TsServer.spells_unique h1
    have : (Flow.splitDot ("InternalServiceGroup".toList ++ '.' :: name)).head? = some "InternalServiceGroup".toList := by
      have h2 : TsServer.Spells ("InternalServiceGroup".toList :: Flow.splitDot name) ("InternalServiceGroup".toList ++ '.' :: name) := by
        cases h3 : Flow.splitDot name with
        | nil => have := TsServer.spells_splitDot name; rw [h3] at this; exact this.elim
        | cons y ys =>
          refine ⟨by decide, name, ?_, rfl⟩
          rw [← h3]; exact TsServer.spells_splitDot name
      rw [← TsServer.spells_unique h2]; rfl
    rw [e]; exact this

/-- A message of the service group has only the value of its type. -/
theorem service_same {m : TsServer.Msg} {a b : String} (h : IsService m a) (hb : '.' ∉ b.toList)
    {v : TsServer.Js} (hh : TsClient.Holds m ("InternalServiceGroup".toList ++ '.' :: b.toList) v) : a = b ∧ v = m.body := by
  obtain ⟨ns, h1, h2, h3⟩ := holds_path hh
  have hn : TsServer.Spells ["InternalServiceGroup".toList, b.toList] ("InternalServiceGroup".toList ++ '.' :: b.toList) :=
    ⟨by decide, b.toList, ⟨hb, rfl⟩, rfl⟩
  obtain rfl : ns = ["InternalServiceGroup".toList, b.toList] := (TsServer.spells_unique h1).trans (TsServer.spells_unique hn).symm
  rw [h] at h2 h3
  have : b.toList = a.toList := by
    rcases h2 with h2 | h2
    · exact (List.cons_prefix_cons.1 (List.cons_prefix_cons.1 h2).2).1
    · exact (List.cons_prefix_cons.1 (List.cons_prefix_cons.1 h2).2).1.symm
  refine ⟨(String.toList_injective this).symm, h3 ?_⟩
  rw [this]

end Verif.Network
