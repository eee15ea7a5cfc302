import Verif.Proofs.ServerServe
set_option autoImplicit false
/-!
Several messages in one piece of data.
-/
namespace Verif.Server

open Verif Verif.Spec

variable {P : Type} {cfg : Cfg P} {opts : Options} {env : Env P}

/-- The requests of `u` handed to user code, oldest first. -/
def responds (u : Uuid) (h : List (Act P)) : List (Ref × UInt32) :=
  h.reverse.filterMap (fun a => match a with
    | .respond v ref seq => if v = u then some (ref, seq) else none
    | _ => none)

theorem responds_append (u : Uuid) (a b : List (Act P)) :
    responds u (a ++ b) = responds u b ++ responds u a := by
  simp [responds]

/-- Acts that run no handler for requests. -/
def NoRespond : Act P → Prop
  | .respond _ _ _ => False
  | _ => True

theorem responds_none {u : Uuid} {l : List (Act P)} (h : ∀ a ∈ l, NoRespond a) :
    responds u l = [] := by
  rw [responds, List.filterMap_eq_nil_iff]
  intro a ha
  have := h a (List.mem_reverse.1 ha)
  cases a <;> first | rfl | exact this.elim

/-- The piece runs no handler for requests, and keeps whether the hash was accepted. -/
structure Quiet (u : Uuid) (s s' : State P) : Prop where
  past : ∃ l, s'.past = l ++ s.past ∧ ∀ a ∈ l, NoRespond a
  hash : ∀ c, s.find u = some c → ∃ d, s'.find u = some d ∧ d.hashAccepted = c.hashAccepted

theorem Quiet.refl (u : Uuid) (s : State P) : Quiet u s s := ⟨⟨[], rfl, by simp⟩, fun c h => ⟨c, h, rfl⟩⟩

theorem Quiet.trans {u : Uuid} {s t r : State P} (h : Quiet u s t) (k : Quiet u t r) : Quiet u s r := by
  obtain ⟨l, hl, hA⟩ := h.past
  obtain ⟨m, hm, hB⟩ := k.past
  refine ⟨⟨m ++ l, by rw [hm, hl, List.append_assoc], fun a ha => ?_⟩, fun c hc => ?_⟩
  · rcases List.mem_append.1 ha with ha | ha
    · exact hB a ha
    · exact hA a ha
  · obtain ⟨d, hd, e⟩ := h.hash c hc
    obtain ⟨d', hd', e'⟩ := k.hash d hd
    exact ⟨d', hd', e'.trans e⟩

theorem Quiet.push {u : Uuid} {s : State P} {a : Act P} (h : NoRespond a) : Quiet u s (s.push a) :=
  ⟨⟨[a], rfl, by simpa using h⟩, fun c hc => ⟨c, hc, rfl⟩⟩

theorem emitError_quiet (u : Uuid) (v : Option Uuid) (s : State P) : Quiet u s (emitError env v s).2 :=
  .push trivial

theorem disconnect_quiet (u v : Uuid) (s : State P) : Quiet u s (disconnect env v s).2 := by
  unfold disconnect
  split
  · exact .refl u s
  · rename_i c hc
    split
    · exact .refl u s
    · refine ⟨⟨[.drop v], rfl, by simp [NoRespond]⟩, fun d hd => ?_⟩
      show ∃ e, ((s.set v { c with discredited := true }).push (.drop v)).find u = some e ∧ _
      rw [find_push]
      by_cases e : u = v
      · subst e
        rw [hc] at hd
        obtain rfl := Option.some.inj hd
        exact ⟨_, find_set_self hc, rfl⟩
      · rw [find_set_other e]
        exact ⟨d, hd, rfl⟩

theorem andThen_quiet {u : Uuid} {p q : Proc P} (hp : ∀ s, Quiet u s (p s).2)
    (hq : ∀ s, Quiet u s (q s).2) (s : State P) : Quiet u s (p.andThen q s).2 := by
  have := hp s
  unfold Proc.andThen
  split
  · rename_i e; rw [e] at this; exact this.trans (hq _)
  · rename_i e; rw [e] at this; exact this
  · rename_i e; rw [e] at this; exact this

theorem responsingErr_quiet (u : Uuid) (s : State P) : Quiet u s (responsingErr env opts u s).2 := by
  unfold responsingErr
  refine andThen_quiet (fun s => ?_) (fun s => ?_) s
  · split
    · exact disconnect_quiet u u s
    · exact .refl u s
  · split
    · exact emitError_quiet u _ s
    · exact .refl u s

theorem broadcast_quiet (u : Uuid) (o : Out P) (us : List Uuid) (s : State P) :
    Quiet u s (broadcast env o us s) := by
  induction us generalizing s with
  | nil => exact .refl u s
  | cons v us ih =>
    rw [broadcast]
    exact Quiet.trans (Quiet.push (a := .send v 0 o (env.send s v 0 o)) trivial) (ih _)

theorem broadcastAll_quiet (u : Uuid) (cs : List (Ref × Cast P)) (s : State P) :
    Quiet u s (broadcastAll env cs s) := by
  induction cs generalizing s with
  | nil => exact .refl u s
  | cons c cs ih =>
    obtain ⟨r, us, p⟩ := c
    rw [broadcastAll]
    exact (broadcast_quiet u _ us s).trans (ih _)

theorem finish_quiet (u v : Uuid) (seq : UInt32) (o : Out P) (cs : List (Ref × Cast P)) (s : State P) :
    Quiet u s (finish cfg env v seq o cs s).2 := by
  unfold finish
  split
  · exact .refl u s
  · have h1 : Quiet u s (send env v seq o s).2 := .push trivial
    split
    · rename_i e; rw [e] at h1; exact h1
    · rename_i e; rw [e] at h1
      exact h1.trans ((broadcastAll_quiet u cs _).trans (.push trivial))

theorem process_once (r : Flow.Request) (u : Uuid) (p : P) (seq : UInt32) (s : State P) :
    Quiet u (s.push (.respond u (r.request.getD []) seq)) (process cfg env r u p seq s).2 := by
  unfold process
  dsimp only
  split
  · split
    · exact .refl u _
    · exact finish_quiet u u seq _ _ _
    · exact finish_quiet u u seq _ _ _
  · split
    · exact .refl u _
    · exact finish_quiet u u seq _ _ _
    · exact finish_quiet u u seq _ _ _

theorem dispatch_once {ref : Ref} {r : Flow.Request} (hr : r ∈ cfg.workflow.requests)
    (hn : r.request = some ref) (u : Uuid) (p : P) (seq : UInt32) (s : State P) :
    Quiet u (s.push (.respond u ref seq)) (dispatch cfg env opts u ref p seq s).2 := by
  unfold dispatch
  cases hq : cfg.workflow.requests.find? (fun r => r.request = some ref) with
  | none =>
    have := List.find?_eq_none.1 hq r hr
    simp [hn] at this
  | some q =>
    have hq' : q.request = some ref := by simpa using List.find?_some hq
    have h1 := process_once (cfg := cfg) (env := env) q u p seq s
    rw [hq'] at h1
    simp only [Option.getD_some] at h1
    dsimp only
    split
    · rename_i e; rw [e] at h1; exact h1
    · rename_i e; rw [e] at h1; exact h1.trans (responsingErr_quiet u _)
    · rename_i e; rw [e] at h1; exact h1

/-- A list of declared requests of one client after the handshake. -/
theorem batch_served {u : Uuid} {a : Bool} (hid : a = true ∨ opts.identification = .ignore)
    (ms : List (Rust.Income (In P))) (reqs : List (Ref × UInt32))
    (hms : ms.map (fun m => match m.msg with
      | .msg ref _ => some (ref, m.header.sequence)
      | .hash _ _ => none) = reqs.map some)
    (hreq : ∀ q ∈ reqs, ∃ r ∈ cfg.workflow.requests, r.request = some q.1)
    {s : State P} {c : Consumer P} (hc : s.find u = some c) (hh : c.hashAccepted = true)
    (hok : (onMessages cfg env opts u a true ms s).1 = .ok ()) :
    ∃ l, (onMessages cfg env opts u a true ms s).2.past = l ++ s.past ∧ responds u l = reqs := by
  induction ms generalizing s c reqs with
  | nil =>
    cases reqs with
    | nil => exact ⟨[], rfl, rfl⟩
    | cons q qs => simp at hms
  | cons m ms ih =>
    cases reqs with
    | nil => simp at hms
    | cons q qs =>
      obtain ⟨ref, sq⟩ := q
      rw [List.map_cons, List.map_cons] at hms
      injection hms with h1 h2
      obtain ⟨hdr, msg⟩ := m
      cases msg with
      | hash x y => cases h1
      | msg ref' p =>
        simp only [Option.some.injEq, Prod.mk.injEq] at h1
        obtain ⟨rfl, rfl⟩ := h1
        obtain ⟨r, hr, hn⟩ := hreq _ List.mem_cons_self
        have hone : onMessage cfg env opts u a true (.msg ref' p) hdr.sequence s =
            dispatch cfg env opts u ref' p hdr.sequence (s.push (.got u (.msg ref' p) hdr.sequence)) := by
          unfold onMessage
          rw [hc]
          dsimp only
          rw [if_neg (by simp [hh])]
          unfold onOther
          rw [if_neg (by simp [hh]), if_neg (by simp), if_neg]
          simp only [Bool.and_eq_true, Bool.not_eq_true', decide_eq_true_eq, not_and]
          intro e
          rcases hid with hid | hid
          · rw [hid] at e; cases e
          · simp [hid]
        have hq := dispatch_once (cfg := cfg) (env := env) (opts := opts) hr hn u p hdr.sequence
          (s.push (.got u (.msg ref' p) hdr.sequence))
        rw [onMessages] at hok ⊢
        unfold Proc.andThen at hok ⊢
        dsimp only at hok ⊢
        rw [hone] at hok ⊢
        obtain ⟨l, hl, hA⟩ := hq.past
        split at hok
        · rename_i s1 e
          rw [e] at hq hl
          obtain ⟨d, hd, he⟩ := hq.hash c hc
          obtain ⟨l2, hl2, hr2⟩ := ih qs h2 (fun q hq => hreq q (List.mem_cons_of_mem _ hq)) hd
            (he.trans hh) hok
          refine ⟨l2 ++ (l ++ [.respond u ref' hdr.sequence, .got u (.msg ref' p) hdr.sequence]), ?_, ?_⟩
          · rw [hl2, hl]
            simp
          · rw [responds_append, hr2, responds_append, responds_none hA]
            simp [responds]
        · cases hok
        · cases hok

end Verif.Server
