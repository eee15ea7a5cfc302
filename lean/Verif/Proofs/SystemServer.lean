import Verif.Spec.System
import Verif.Proofs.ServerReader
import Verif.Proofs.ServerHandlers
set_option autoImplicit false
/-!
The server answers what it has just looked at.
-/
namespace Verif.System

open Verif Verif.Server

variable {P : Type} {cfg : Server.Cfg P} {opts : Server.Options} {env : Server.Env P}

/-- The state is in order. -/
def J (cfg : Server.Cfg P) (env : Server.Env P) (s : Server.State P) : Prop := Justified cfg env s.past

theorem J.push {s : Server.State P} {a : Server.Act P} (ha : ∀ u q o ok, a ≠ .send u q o ok) (h : J cfg env s) :
    J cfg env (s.push a) := by
  show Justified cfg env (a :: s.past)
  cases a <;> first | exact h | exact absurd rfl (ha _ _ _ _)

theorem J.send {s : Server.State P} {u : Uuid} {q : UInt32} {o : Server.Out P} (h : J cfg env s)
    (ha : (q = 0 ∧ (o = .confirmation ∨ ∃ ref p, o = .msg ref p)) ∨ ∃ m, Answer cfg env u q s.past m o) :
    J cfg env (Server.send env u q o s).2 := ⟨ha, h⟩

theorem J.broadcast {ref : Ref} {p : P} (us : List Uuid) {s : Server.State P} (h : J cfg env s) :
    J cfg env (Server.broadcast env (.msg ref p) us s) := by
  induction us generalizing s with
  | nil => exact h
  | cons u us ih => exact ih (h.send (.inl ⟨rfl, .inr ⟨_, _, rfl⟩⟩))

theorem J.broadcastAll (cs : List (Ref × Cast P)) {s : Server.State P} (h : J cfg env s) :
    J cfg env (Server.broadcastAll env cs s) := by
  induction cs generalizing s with
  | nil => exact h
  | cons c cs ih =>
    obtain ⟨r, us, p⟩ := c
    exact ih (h.broadcast us)

theorem J.finish {u : Uuid} {q : UInt32} {o : Server.Out P} (cs : List (Ref × Cast P)) {s : Server.State P}
    (h : J cfg env s) {m : Server.In P} (ha : Answer cfg env u q s.past m o) :
    J cfg env (Server.finish cfg env u q o cs s).2 := by
  unfold Server.finish
  split
  · exact h
  · have := h.send (.inr ⟨m, ha⟩)
    split
    · rename_i e; rw [e] at this; exact this
    · rename_i e; rw [e] at this
      exact (this.broadcastAll cs).push (by simp)

theorem castList_gives' : (bs : List Flow.Broadcast) → (cs : Casts P bs) → ∃ l, Gives bs cs l
  | [], () => ⟨_, .nil⟩
  | ⟨_, true⟩ :: bs, (some (_, _), cs) => by
    obtain ⟨l, h⟩ := castList_gives' bs cs
    exact ⟨_, .chosen h⟩
  | ⟨_, true⟩ :: bs, (none, cs) => by
    obtain ⟨l, h⟩ := castList_gives' bs cs
    exact ⟨_, .omitted h⟩
  | ⟨_, false⟩ :: bs, ((_, _), cs) => by
    obtain ⟨l, h⟩ := castList_gives' bs cs
    exact ⟨_, .required h⟩

theorem J.process {r : Flow.Request} {ref : Ref} (hr : r ∈ cfg.workflow.requests) (hn : r.request = some ref)
    {u : Uuid} {p : P} {q : UInt32} {s : Server.State P} {t : List (Server.Act P)}
    (e : s.past = .got u (.msg ref p) q :: t) (h : J cfg env s) :
    J cfg env (Server.process cfg env r u p q s).2 := by
  unfold Server.process
  have hs : J cfg env (s.push (.respond u (r.request.getD []) q)) := h.push (by simp)
  have en : r.request.getD [] = ref := by rw [hn]; rfl
  have e1 : (s.push (.respond u (r.request.getD []) q)).past = .respond u ref q :: .got u (.msg ref p) q :: t := by
    rw [past_push, e, en]
  have key : ∀ {o l}, Decides env r (s.push (.respond u (r.request.getD []) q)) u p o l →
      Answer cfg env u q (s.push (.respond u (r.request.getD []) q)).past (.msg ref p) o := by
    intro o l d
    rw [e1]
    exact .request hr hn e1 d
  dsimp only
  split
  · rename_i h2
    split
    · exact hs
    · rename_i hc
      exact hs.finish _ (key (.error h2 hc))
    · rename_i i x casts hc
      obtain ⟨l, hl⟩ := castList_gives' _ casts
      exact hs.finish _ (key (.action h2 hc hl))
  · rename_i h2
    split
    · exact hs
    · rename_i hc
      exact hs.finish _ (key (.plainError (by omega) hc))
    · rename_i x hc
      exact hs.finish _ (key (.plain (by omega) hc))

theorem J.emitBeacon {b : Flow.Broadcast} (hb : b ∈ cfg.workflow.beacons) {u : Uuid} {p : P} {q : UInt32}
    {s : Server.State P} {t : List (Server.Act P)} (e : s.past = .got u (.msg b.reference p) q :: t)
    (h : J cfg env s) : J cfg env (Server.emitBeacon cfg env b.reference u p q s).2 := by
  unfold Server.emitBeacon
  have hs : J cfg env (s.push (.beacon u b.reference q)) := h.push (by simp)
  have e1 : (s.push (.beacon u b.reference q)).past = .beacon u b.reference q :: .got u (.msg b.reference p) q :: t := by
    rw [past_push, e]
  dsimp only
  split
  · exact hs
  · exact hs
  · rename_i hk
    refine hs.finish _ (m := .msg b.reference p) ?_
    rw [e1]
    exact .beacon hb e1 hk

theorem J.emitEvent {e : Flow.Event} {p : Option P} {s : Server.State P} (h : J cfg env s) :
    J cfg env (Server.emitEvent cfg env e p s).2 := by
  unfold Server.emitEvent
  have hs : J cfg env (s.push (.event (e.reference.getD []))) := h.push (by simp)
  dsimp only
  split
  · exact hs
  · exact hs
  · split
    · exact hs
    · exact (hs.broadcastAll _).push (by simp)

theorem j_emitError (u : Option Uuid) : Keeps (J cfg env) (Server.emitError env u) :=
  fun _ h => h.push (by simp)

theorem j_disconnect (u : Uuid) : Keeps (J cfg env) (Server.disconnect env u) := by
  intro s h
  unfold Server.disconnect
  split
  · exact h
  · split
    · exact h
    · exact J.push (s := s.set u _) (by simp) h

theorem j_responsingErr (u : Uuid) : Keeps (J cfg env) (Server.responsingErr env opts u) := by
  unfold Server.responsingErr
  exact keeps_andThen (keeps_ite (j_disconnect u) keeps_skip) (keeps_ite (j_emitError _) keeps_skip)

theorem j_kick (u : Uuid) : Keeps (J cfg env) (Server.kick env u) :=
  keeps_andThen (j_disconnect u) (j_emitError _)

theorem J.answer {u : Uuid} {q : UInt32} {o : Server.Out P} {s : Server.State P} (h : J cfg env s)
    {m : Server.In P} (ha : Answer cfg env u q s.past m o) :
    J cfg env (Server.answer cfg env opts u q o s).2 := by
  unfold Server.answer
  split
  · exact j_responsingErr u s h
  · have := h.send (.inr ⟨m, ha⟩)
    split
    · rename_i e; rw [e] at this; exact this
    · rename_i e; rw [e] at this; exact j_responsingErr u _ this

theorem J.dispatch {u : Uuid} {ref : Ref} {p : P} {q : UInt32} {s : Server.State P} {t : List (Server.Act P)}
    (e : s.past = .got u (.msg ref p) q :: t) (h : J cfg env s) :
    J cfg env (Server.dispatch cfg env opts u ref p q s).2 := by
  unfold Server.dispatch
  split
  · rename_i r hr
    have := h.process (List.mem_of_find?_eq_some hr) (by simpa using List.find?_some hr) e
    split
    · rename_i e; rw [e] at this; exact this
    · rename_i e; rw [e] at this; exact j_responsingErr u _ this
    · rename_i e; rw [e] at this; exact this
  · split
    · rename_i b hb
      have hn : b.reference = ref := by simpa using List.find?_some hb
      subst hn
      have := h.emitBeacon (List.mem_of_find?_eq_some hb) e
      split
      · rename_i e; rw [e] at this; exact this
      · rename_i e; rw [e] at this; exact j_emitError _ _ this
      · rename_i e; rw [e] at this; exact this
    · exact h

theorem j_onMessage (u : Uuid) (a k : Bool) (m : Server.In P) (q : UInt32) :
    Keeps (J cfg env) (Server.onMessage cfg env opts u a k m q) := by
  intro s h
  unfold Server.onMessage
  split
  · exact h
  · rename_i c hc
    have hs : J cfg env (s.push (.got u m q)) := h.push (by simp)
    dsimp only
    split
    · unfold Server.onHash
      split
      · rename_i hw
        unfold Proc.andThen
        have := hs.answer (opts := opts) (.wrongHash hw)
        split
        · rename_i e; rw [e] at this; exact j_kick u _ this
        · rename_i e; rw [e] at this; exact this
        · rename_i e; rw [e] at this; exact this
      · rename_i a b hw
        have e1 : a = cfg.protocolHash := Classical.byContradiction (fun x => hw (.inl x))
        have e2 : b = cfg.workflowHash := Classical.byContradiction (fun x => hw (.inr x))
        subst e1 e2
        exact J.answer (s := (s.push _).set u _) hs .hash
    · split
      · rename_i ref p hk
        obtain ⟨rfl, _⟩ := hk
        exact J.answer (s := (s.push _).set u _) hs .selfKey
      · unfold Server.onOther
        split
        · exact j_kick u _ hs
        · split
          · exact j_kick u _ hs
          · split
            · exact keeps_andThen (keeps_ite (j_disconnect u) keeps_skip)
                (keeps_ite (j_emitError _) keeps_skip) _ hs
            · exact hs.dispatch rfl

theorem j_onMessages (u : Uuid) (a k : Bool) (ms : List (Rust.Income (Server.In P))) :
    Keeps (J cfg env) (Server.onMessages cfg env opts u a k ms) := by
  induction ms with
  | nil => exact keeps_skip
  | cons m ms ih => exact keeps_andThen (j_onMessage u a k m.msg _) ih

theorem j_received (u : Uuid) (bytes : Bytes) : Keeps (J cfg env) (Server.received cfg env opts u bytes) := by
  intro s h
  unfold Server.received
  have hs : J cfg env (s.push (.chunk u)) := h.push (by simp)
  dsimp only
  split
  · exact j_responsingErr u _ hs
  · split
    · exact j_kick u _ hs
    · split
      · exact hs
      · split
        · exact hs
        · exact j_onMessages u _ _ _ _ hs
        · exact j_responsingErr u _ hs

theorem j_step (i : Server.Input P) : Keeps (J cfg env) (Server.step cfg env opts i) := by
  cases i with
  | ready => exact fun s h => h.push (by simp)
  | connected u =>
    intro s h
    show J cfg env (Server.addConnection cfg env u s).2
    unfold Server.addConnection
    split
    · exact h
    · refine keeps_andThen (keeps_warned (fun s h => h.emitEvent)) (fun s h => ?_) s h
      exact J.push (s := { s with consumers := _, confirms := _ }) (by simp) h
  | disconnected u =>
    intro s h
    show J cfg env (Server.removeConnection cfg env u s).2
    unfold Server.removeConnection
    split
    · exact h
    · exact keeps_warned (fun s h => h.emitEvent) _ (J.push (s := { s with consumers := _ }) (by simp) h)
  | received u b => exact j_received u b
  | serverEvent u => exact j_emitError u
  | event ref p =>
    unfold Server.step
    dsimp only
    split
    · exact keeps_warned (fun s h => h.emitEvent)
    · exact keeps_skip
  | setKey u k o =>
    intro s h
    unfold Server.step
    dsimp only
    split
    · exact J.push (s := s.set u _) (by simp) h
    · exact j_emitError _ _ h
  | setAssigned u k o =>
    intro s h
    unfold Server.step
    dsimp only
    split
    · exact J.push (s := s.set u _) (by simp) h
    · exact j_emitError _ _ h
  | confirm =>
    intro s h
    unfold Server.step
    dsimp only
    split
    · exact h
    · unfold Server.confirmation
      split
      · exact j_emitError _ _ h
      · rename_i u us _ _ c hc
        have h1 : J cfg env ((({ s with confirms := us } : Server.State P).set u { c with confirmed := true }).push
            (.confirmed u)) := J.push (by simp) h
        dsimp only
        split
        · exact h1
        · have h2 := J.send (u := u) (q := 0) (o := .confirmation) h1 (.inl ⟨rfl, .inl rfl⟩)
          split
          · rename_i e; rw [e] at h2; exact h2
          · rename_i e; rw [e] at h2; exact h2
  | shutdown => exact keeps_skip
  | stop => exact keeps_skip

end Verif.System
