import Verif.Proofs.NetworkTsRust
set_option autoImplicit false
/-!
Results, order, broadcasts and handshake of TypeScript clients of a Rust server.
-/
namespace Verif.Network

open Verif Verif.Spec

variable {P : Type} {cfg : Server.Cfg P} {env : Server.Env P} {opts : Server.Options}
  {down : UInt64 → UInt32 → Server.Out P → Bytes} {ccfg : TsClient.Cfg} {cenv : TsClient.Env}
  {up : UInt64 → UInt32 → TsClient.Out → Bytes}

/-- What user code of the server decides on is an answer of the request. -/
theorem answer_of_decides {r : Flow.Request} {s : Server.State P} {u : Uuid} {p : P} {o : Server.Out P}
    {l : List (Uuid × Server.Out P)} (hc : Complete r) (h : Server.Decides env r s u p o l) :
    ∃ a x, o = .msg a x ∧ AnswerOf r a := by
  obtain ⟨h1, h2, h3⟩ := hc
  have he : AnswerOf r (r.error.getD []) := by
    cases e : r.error with
    | none => exact absurd e h1
    | some a => exact .inr e
  have ha : ∀ a ∈ r.actions, AnswerOf r (a.response.getD []) := by
    intro a ha
    cases e : a.response with
    | none => exact absurd e (h3 a ha)
    | some x => exact .inl ⟨a, ha, e⟩
  cases h with
  | error => exact ⟨_, _, rfl, he⟩
  | @action i => exact ⟨_, _, rfl, ha _ (List.get_mem _ _)⟩
  | plainError => exact ⟨_, _, rfl, he⟩
  | plain =>
    refine ⟨_, _, rfl, ?_⟩
    cases e : r.actions with
    | nil => exact absurd e h2
    | cons a l => exact ha a (by rw [e]; simp)

/-- Names spell one reference. -/
theorem spells_ref {ns : List TsServer.Name} {a b : Flow.Ref} (ha : TsServer.Spells ns a) (hb : TsServer.Spells ns b) : a = b := by
  induction ns generalizing a b with
  | nil => exact ha.elim
  | cons n ns ih =>
    cases ns with
    | nil => exact ha.2.trans hb.2.symm
    | cons m ns =>
      obtain ⟨_, x, h1, rfl⟩ := ha
      obtain ⟨_, y, h2, rfl⟩ := hb
      rw [ih h1 h2]

theorem selfKey_name : "InternalServiceGroup.SelfKeyResponse".toList =
    "InternalServiceGroup".toList ++ '.' :: "SelfKeyResponse".toList := by decide

theorem hash_name : "InternalServiceGroup.HashResponse".toList =
    "InternalServiceGroup".toList ++ '.' :: "HashResponse".toList := by decide

theorem beacon_name : "InternalServiceGroup.BeaconConfirmation".toList =
    "InternalServiceGroup".toList ++ '.' :: "BeaconConfirmation".toList := by decide

section
variable {n : Net (rustServer cfg env opts down) (tsClient ccfg cenv up)} {es : List (ServerEvent (Server.Input P))}
  {u : Uuid} {c : Conn (tsClient ccfg cenv up)}

theorem sent_request {h : List TsClient.Act} (hl : TsClient.Lawful ccfg h) {k o q : Nat} {kind : TsClient.Kind} {b : TsServer.Js}
    {out : TsClient.Out} (h1 : .created o kind b ∈ h) (h2 : .sent (.call k o) q out ∈ h) :
    ∃ ref, kind.Asks ref ∧ out = .msg ref b := by
  obtain ⟨h', ⟨_, _, kind', b', ref, k1, k2, k3⟩, k4⟩ := hl.cause h2
  obtain ⟨rfl, rfl⟩ := TsClient.law_created_unique hl h1 (k4 _ k1)
  exact ⟨ref, k2, k3⟩

/-- A value of an answer that a request waits for comes from user code of the server. -/
theorem tsRust_told {t : Terms P} (hi : InvWith n es) (hf : Framed n) (hs : Small n) (ha : Faithful t n)
    (hc : n.find u = some c) {k o : Nat} {q : UInt32} {m : TsServer.Msg} (hd : .delivered (.call k o) q m ∈ c.client.2.past)
    {r : Flow.Request} {b : TsServer.Js} (hr : .created o (.request r) b ∈ c.client.2.past) {ref : Flow.Ref}
    {v : TsServer.Js} (hv : TsClient.Holds m ref v) (hfo : Foreign ref)
    (hap : ∀ served ∈ cfg.workflow.requests, Complete served ∧ ∀ a, AnswerOf served a → Apart ref a) :
    ∃ asked p x newer older served s l, r.request.getD [] = asked ∧ .sent (.call k o) q.toNat (.msg asked b) ∈ c.client.2.past ∧
      n.server.2.past = newer ++ .send u q (.msg ref x) true :: .respond u asked q :: .got u (.msg asked p) q :: older ∧
      t.same p b ∧ t.same x v ∧ served ∈ cfg.workflow.requests ∧ served.request = some asked ∧
      s.past = .respond u asked q :: .got u (.msg asked p) q :: older ∧
      Server.Decides env served s u p (.msg ref x) l := by
  obtain ⟨o', out, x, newer, h, h1, ⟨ts1, h2⟩, h3, h4, ⟨ts2, h5⟩⟩ := tsRust_answer hi hf hs hc hd
  obtain ⟨asked, e1, rfl⟩ := sent_request (tsRust_law hi hc) hr h1
  have hup := ha.up u c hc _ _ _ h1 ts1 x (by simpa using h2)
  obtain ⟨p, rfl, hp⟩ := hup
  have hdown := ha.down u q out (by rw [h3]; simp) ts2 m h5
  cases h4 with
  | selfKey => exact (service_foreign hdown.1 hfo hv).elim
  | beacon _ _ _ => exact (service_foreign hdown.1 hfo hv).elim
  | request k1 k2 k3 k4 =>
    rename_i served s older l
    obtain ⟨g1, g2⟩ := hap _ k1
    obtain ⟨a, x, rfl, g3⟩ := answer_of_decides g1 k4
    obtain ⟨g4, g5⟩ := hdown
    obtain ⟨ns, f1, f2, f3⟩ := holds_path hv
    obtain rfl : ref = a := g2 a g3 ns m.path f1 g4 f2
    obtain rfl : v = m.body := f3 ((TsServer.spells_unique f1).trans (TsServer.spells_unique g4).symm)
    exact ⟨asked, p, x, newer, older, served, s, l, e1, h1, h3, hp, g5, k1, k2, k3, k4⟩

/-- A confirmation that a beacon waits for comes from the server: it has no error, and user code took the
beacon. -/
theorem tsRust_confirmed {t : Terms P} (hi : InvWith n es) (hf : Framed n) (hs : Small n) (ha : Faithful t n)
    (hc : n.find u = some c) {k o : Nat} {q : UInt32} {m : TsServer.Msg} (hd : .delivered (.call k o) q m ∈ c.client.2.past)
    {ref : Flow.Ref} {b : TsServer.Js} (hr : .created o (.beacon ref) b ∈ c.client.2.past) {e : Bool}
    (hv : TsClient.Confirms m e) (ho : Outside cfg.workflow) :
    e = false ∧ ∃ p newer older d s, .sent (.call k o) q.toNat (.msg ref b) ∈ c.client.2.past ∧
      n.server.2.past = newer ++ .send u q .beacon true :: .beacon u ref q :: .got u (.msg ref p) q :: older ∧
      t.same p b ∧ d ∈ cfg.workflow.beacons ∧ d.reference = ref ∧
      s.past = .beacon u ref q :: .got u (.msg ref p) q :: older ∧ env.beacon s ref u p = .ok () := by
  obtain ⟨body, hv, he⟩ := hv
  rw [beacon_name] at hv
  obtain ⟨o', out, x, newer, h, h1, ⟨ts1, h2⟩, h3, h4, ⟨ts2, h5⟩⟩ := tsRust_answer hi hf hs hc hd
  obtain ⟨asked, rfl, rfl⟩ := sent_request (tsRust_law hi hc) hr h1
  have hup := ha.up u c hc _ _ _ h1 ts1 x (by simpa using h2)
  obtain ⟨p, rfl, hp⟩ := hup
  have hdown := ha.down u q out (by rw [h3]; simp) ts2 m h5
  cases h4 with
  | selfKey =>
    have := (service_same hdown.1 (by decide) hv).1
    exact absurd this (by decide)
  | request k1 k2 k3 k4 =>
    obtain ⟨g1, g2⟩ := ho _ k1
    obtain ⟨a, x, rfl, g3⟩ := answer_of_decides g1 k4
    exact (foreign_service hdown.1 (g2 a g3) hv).elim
  | @beacon d p s older k1 k2 k3 =>
    obtain ⟨_, rfl⟩ := service_same hdown.1 (by decide) hv
    obtain ⟨_, ps, e1, e2⟩ := hdown
    refine ⟨?_, p, newer, older, d, s, h1, h3, hp, k1, rfl, k2, k3⟩
    cases e with
    | false => rfl
    | true =>
      obtain ⟨ps', x, e3, e4⟩ := he.1 rfl
      rw [e1] at e3
      cases e3
      rw [e2] at e4
      cases e4

end

/-! ### Order -/

theorem Sub.of_map {α β γ : Type} {R : β → γ → Prop} {f : α → β} {as : List α} {bs : List γ} (h : System.Sub R (as.map f) bs) :
    System.Sub (fun a b => R (f a) b) as bs := by
  induction as generalizing bs with
  | nil => cases h; exact .nil
  | cons a as ih =>
    cases h with
    | skip h => exact .skip (ih h)
    | keep r h => exact .keep r (ih h)

theorem Pairs.of_map {α β γ : Type} {R : β → γ → Prop} {f : α → β} {as : List α} {bs : List γ} (h : System.Pairs R (as.map f) bs) :
    System.Pairs (fun a b => R (f a) b) as bs := by
  induction as generalizing bs with
  | nil => cases h; exact .nil
  | cons a as ih =>
    cases h with
    | cons r h => exact .cons r (ih h)

theorem tsSent_sents (h : List TsClient.Act) : tsSent h = (tsSents h).map (fun x => (x.1.toUInt32, x.2)) := by
  induction h with
  | nil => rfl
  | cons x h ih => cases x <;> simp [tsSent, tsSents, ih]

theorem mem_tsSents {h : List TsClient.Act} {q : Nat} {o : TsClient.Out} :
    (q, o) ∈ tsSents h ↔ ∃ w, .sent w q o ∈ h := by
  induction h with
  | nil => simp [tsSents]
  | cons x h ih =>
    cases x with
    | sent w q' o' =>
      simp only [tsSents, List.mem_append, ih, List.mem_cons, List.not_mem_nil, or_false, Prod.mk.injEq]
      constructor
      · rintro (⟨w', k⟩ | ⟨rfl, rfl⟩)
        · exact ⟨w', .inr k⟩
        · exact ⟨w, .inl rfl⟩
      · rintro ⟨w', k | k⟩
        · cases k; exact .inr ⟨rfl, rfl⟩
        · exact .inl ⟨w', k⟩
    | _ => simp [tsSents, ih]

/-- The broadcasts of a client come from what it looked at. -/
theorem tsCasts_looked {h : List TsClient.Act} (hl : TsClient.Lawful ccfg h) :
    System.Sub (fun (x : UInt32 × TsServer.Msg) (y : Flow.Ref × TsServer.Js) => TsServer.Spells x.2.path y.1 ∧ y.2 = x.2.body ∧
      TsClient.Broadcasts ccfg.workflow y.1) (TsClient.looked h) (tsCasts h) ∧
    ∀ q m h', h = .got q m :: h' → System.Sub (fun (x : UInt32 × TsServer.Msg) (y : Flow.Ref × TsServer.Js) =>
      TsServer.Spells x.2.path y.1 ∧ y.2 = x.2.body ∧ TsClient.Broadcasts ccfg.workflow y.1) (TsClient.looked h') (tsCasts h) := by
  induction h with
  | nil => exact ⟨.nil, fun _ _ _ e => by cases e⟩
  | cons a h ih =>
    obtain ⟨ih, ih'⟩ := ih hl.2
    cases a with
    | emitted e =>
      cases e with
      | broadcast ref b =>
        refine ⟨?_, fun _ _ _ e => by cases e⟩
        obtain ⟨q, m, h', rfl, k1, k2, k3, _⟩ := hl.1
        exact (ih' q m h' rfl).append (.keep ⟨k1, k2, k3⟩ .nil)
      | _ => exact ⟨ih, fun _ _ _ e => by cases e⟩
    | got q m =>
      refine ⟨?_, ?_⟩
      · show System.Sub _ (TsClient.looked h ++ [(q, m)]) (tsCasts h)
        have := ih.append (System.Sub.empty [(q, m)])
        rwa [List.append_nil] at this
      · intro q' m' h' e
        cases e
        exact ih
    | _ => exact ⟨ih, fun _ _ _ e => by cases e⟩

/-- At most one answer per message. -/
theorem answers_increasing {u : Uuid} {h : List (Server.Act P)} (hj : System.Justified cfg env h)
    (hp : (System.heard u h).Pairwise (fun a b => a.1 < b.1)) :
    ((System.sends u h).filter (fun x => x.1 ≠ 0)).Pairwise (fun a b => a.1 < b.1) ∧
    ∀ x ∈ System.sends u h, x.1 ≠ 0 → ∃ y ∈ System.heard u h, y.1 = x.1 := by
  have main : ∀ (k : Nat) (h : List (Server.Act P)), h.length ≤ k → System.Justified cfg env h →
      (System.heard u h).Pairwise (fun a b => a.1 < b.1) →
      ((System.sends u h).filter (fun x => x.1 ≠ 0)).Pairwise (fun a b => a.1 < b.1) ∧
      ∀ x ∈ System.sends u h, x.1 ≠ 0 → ∃ y ∈ System.heard u h, y.1 = x.1 := by
    intro k
    induction k with
    | zero =>
      intro h hk _ _
      obtain rfl := List.length_eq_zero_iff.1 (Nat.le_zero.1 hk)
      exact ⟨.nil, fun x hx => by cases hx⟩
    | succ k ih =>
      intro h hk hj hp
      cases h with
      | nil => exact ⟨.nil, fun x hx => by cases hx⟩
      | cons a h =>
        have hk' : h.length ≤ k := Nat.le_of_succ_le_succ hk
        cases a with
        | send v q o ok =>
          obtain ⟨h1, h2⟩ := ih h hk' hj.2 hp
          cases ok with
          | false => exact ⟨h1, h2⟩
          | true =>
            by_cases hv : v = u
            · subst hv
              have e : System.sends v (.send v q o true :: h) = System.sends v h ++ [(q, o)] := by simp [System.sends]
              have e' : System.heard v (.send v q o true :: h) = System.heard v h := rfl
              rw [e, e']
              rw [e'] at hp
              by_cases h0 : q = 0
              · subst h0
                refine ⟨by simpa using h1, ?_⟩
                intro x hx hx0
                rcases List.mem_append.1 hx with hx | hx
                · exact h2 x hx hx0
                · rw [List.mem_singleton.1 hx] at hx0; exact absurd rfl hx0
              · rcases hj.1 with ⟨k0, _⟩ | ⟨m, ha⟩
                · exact absurd k0 h0
                · have key : ∀ h2 : List (Server.Act P), h2.length ≤ k → System.Justified cfg env h2 →
                      System.heard v h = System.heard v h2 ++ [(q, m)] → System.sends v h = System.sends v h2 →
                      ((System.sends v h ++ [(q, o)]).filter (fun x => x.1 ≠ 0)).Pairwise (fun a b => a.1 < b.1) ∧
                      ∀ x ∈ System.sends v h ++ [(q, o)], x.1 ≠ 0 → ∃ y ∈ System.heard v h, y.1 = x.1 := by
                    intro h2 k1 k2 k3 k4
                    rw [k3] at hp
                    obtain ⟨p1, _, p3⟩ := List.pairwise_append.1 hp
                    obtain ⟨g1, g2⟩ := ih h2 k1 k2 p1
                    rw [k3, k4]
                    refine ⟨?_, ?_⟩
                    · rw [List.filter_append, List.pairwise_append]
                      refine ⟨g1, by simp [List.filter_cons]; split <;> simp, ?_⟩
                      intro a ha' b hb'
                      obtain ⟨b1, _⟩ := List.mem_filter.1 hb'
                      rw [List.mem_singleton.1 b1]
                      obtain ⟨a1, a2⟩ := List.mem_filter.1 ha'
                      obtain ⟨y, y1, y2⟩ := g2 a a1 (by simpa using a2)
                      rw [← y2]
                      exact p3 y y1 (q, m) (by simp)
                    · intro x hx hx0
                      rcases List.mem_append.1 hx with hx | hx
                      · obtain ⟨y, y1, y2⟩ := g2 x hx hx0
                        exact ⟨y, by simp [y1], y2⟩
                      · rw [List.mem_singleton.1 hx]
                        exact ⟨(q, m), by simp, rfl⟩
                  cases ha with
                  | @selfKey _ g => exact key g (by simp at hk'; omega) hj.2 (by simp [System.heard]) rfl
                  | @hash g => exact key g (by simp at hk'; omega) hj.2 (by simp [System.heard]) rfl
                  | @wrongHash _ _ g _ => exact key g (by simp at hk'; omega) hj.2 (by simp [System.heard]) rfl
                  | @request _ _ _ _ g _ _ _ _ _ _ => exact key g (by simp at hk'; omega) hj.2 (by simp [System.heard]) rfl
                  | @beacon _ _ _ g _ _ _ => exact key g (by simp at hk'; omega) hj.2 (by simp [System.heard]) rfl
            · have e : System.sends u (.send v q o true :: h) = System.sends u h := by simp [System.sends, hv]
              rw [e]
              exact ⟨h1, h2⟩
        | got v m q =>
          have e' : System.sends u (.got v m q :: h) = System.sends u h := rfl
          rw [e']
          by_cases hv : v = u
          · subst hv
            have e : System.heard v (.got v m q :: h) = System.heard v h ++ [(q, m)] := by simp [System.heard]
            rw [e] at hp ⊢
            obtain ⟨g1, g2⟩ := ih h hk' hj (List.pairwise_append.1 hp).1
            refine ⟨g1, fun x hx hx0 => ?_⟩
            obtain ⟨y, y1, y2⟩ := g2 x hx hx0
            exact ⟨y, by simp [y1], y2⟩
          · have e : System.heard u (.got v m q :: h) = System.heard u h := by simp [System.heard, hv]
            rw [e] at hp ⊢
            exact ih h hk' hj hp
        | _ => exact ih h hk' hj hp
  exact main h.length h (Nat.le_refl _) hj hp

/-- Of two answers, the one to the message with the smaller number comes first. -/
theorem answers_order {u : Uuid} {past newer1 newer2 older1 older2 : List (Server.Act P)} {q1 q2 : UInt32} {o1 o2 : Server.Out P}
    {m1 m2 : Server.In P} (hp : (System.heard u past).Pairwise (fun a b => a.1 < b.1)) (hq : q1 < q2)
    (e1 : past = newer1 ++ .send u q1 o1 true :: .got u m1 q1 :: older1)
    (e2 : past = newer2 ++ .send u q2 o2 true :: .got u m2 q2 :: older2) :
    ∃ mid, older2 = mid ++ .send u q1 o1 true :: .got u m1 q1 :: older1 := by
  have hne : q1 ≠ q2 := by rintro rfl; exact absurd hq (by simp)
  have e := e1.symm.trans e2
  rcases List.append_eq_append_iff.1 e with ⟨l, rfl, k⟩ | ⟨l, rfl, k⟩
  · -- the answer to the first message is newer
    rcases l with _ | ⟨a, l⟩
    · cases k; exact absurd rfl hne
    · simp only [List.cons_append, List.cons.injEq] at k
      obtain ⟨rfl, k⟩ := k
      rcases l with _ | ⟨b, l⟩
      · cases k
      · simp only [List.cons_append, List.cons.injEq] at k
        obtain ⟨rfl, rfl⟩ := k
        rw [e1] at hp
        have happ : ∀ a b : List (Server.Act P), System.heard u (a ++ b) = System.heard u b ++ System.heard u a := by
          intro a b
          induction a with
          | nil => simp [System.heard]
          | cons x a ih =>
            cases x with
            | got v m q =>
              by_cases hv : v = u <;> simp [System.heard, hv, ih]
            | _ => simp [System.heard, ih]
        have hp' := hp
        rw [happ] at hp'
        have hp2 := (List.pairwise_append.1 hp').1
        have e3 : System.heard u (.send u q1 o1 true :: .got u m1 q1 :: (l ++ .send u q2 o2 true :: .got u m2 q2 :: older2)) =
            System.heard u (l ++ .send u q2 o2 true :: .got u m2 q2 :: older2) ++ [(q1, m1)] := by simp [System.heard]
        rw [e3] at hp2
        have := (List.pairwise_append.1 hp2).2.2 (q2, m2) (System.mem_heard.2 (by simp)) (q1, m1) (by simp)
        have h1 := UInt32.lt_iff_toNat_lt.1 this
        have h2 := UInt32.lt_iff_toNat_lt.1 hq
        dsimp only at h1
        omega
  · rcases l with _ | ⟨a, l⟩
    · cases k; exact absurd rfl hne
    · simp only [List.cons_append, List.cons.injEq] at k
      obtain ⟨rfl, k⟩ := k
      rcases l with _ | ⟨b, l⟩
      · cases k
      · simp only [List.cons_append, List.cons.injEq] at k
        obtain ⟨rfl, k⟩ := k
        exact ⟨l, k⟩

end Verif.Network
