import Verif.Proofs.ServerBatch
import Verif.Proofs.ServerHandlers
set_option autoImplicit false
/-!
Processing messages does not touch the reader.
-/
namespace Verif.Server

open Verif

variable {P : Type} {cfg : Cfg P} {opts : Options} {env : Env P}

/-- From `s` to `s'` client `u` keeps its reader. -/
def SameReader (u : Uuid) (s s' : State P) : Prop :=
  ∀ c, s.find u = some c → ∃ d, s'.find u = some d ∧ d.reader = c.reader

theorem SameReader.refl (u : Uuid) (s : State P) : SameReader u s s := fun c h => ⟨c, h, rfl⟩

theorem SameReader.trans {u : Uuid} {s t r : State P} (h : SameReader u s t) (k : SameReader u t r) :
    SameReader u s r := by
  intro c hc
  obtain ⟨d, hd, e⟩ := h c hc
  obtain ⟨d', hd', e'⟩ := k d hd
  exact ⟨d', hd', e'.trans e⟩

theorem SameReader.of_find {u : Uuid} {s t : State P} (h : t.find u = s.find u) : SameReader u s t :=
  fun c hc => ⟨c, h.trans hc, rfl⟩

theorem SameReader.set {u : Uuid} {s : State P} {c d : Consumer P} (h : s.find u = some c)
    (e : d.reader = c.reader) : SameReader u s (s.set u d) := by
  intro c' hc
  rw [h] at hc
  obtain rfl := Option.some.inj hc
  exact ⟨d, find_set_self h, e⟩

theorem emitError_reader (u : Uuid) (v : Option Uuid) (s : State P) :
    SameReader u s (emitError env v s).2 := .of_find rfl

theorem disconnect_reader (u : Uuid) (s : State P) : SameReader u s (disconnect env u s).2 := by
  unfold disconnect
  split
  · exact .refl u s
  · rename_i c hc
    split
    · exact .refl u s
    · exact (SameReader.set (d := { c with discredited := true }) hc rfl).trans (.of_find rfl)

theorem andThen_reader {u : Uuid} {p q : Proc P} (hp : ∀ s, SameReader u s (p s).2)
    (hq : ∀ s, SameReader u s (q s).2) (s : State P) : SameReader u s (p.andThen q s).2 := by
  have := hp s
  unfold Proc.andThen
  split
  · rename_i e; rw [e] at this; exact this.trans (hq _)
  · rename_i e; rw [e] at this; exact this
  · rename_i e; rw [e] at this; exact this

theorem responsingErr_reader (u : Uuid) (s : State P) :
    SameReader u s (responsingErr env opts u s).2 := by
  unfold responsingErr
  refine andThen_reader (fun s => ?_) (fun s => ?_) s
  · split
    · exact disconnect_reader u s
    · exact .refl u s
  · split
    · exact emitError_reader u _ s
    · exact .refl u s

theorem kick_reader (u : Uuid) (s : State P) : SameReader u s (kick env u s).2 :=
  andThen_reader (disconnect_reader u) (emitError_reader u _) s

theorem answer_reader (u : Uuid) (seq : UInt32) (o : Out P) (s : State P) :
    SameReader u s (answer cfg env opts u seq o s).2 := by
  unfold answer
  split
  · exact responsingErr_reader u s
  · have h1 : SameReader u s (send env u seq o s).2 := .of_find rfl
    split
    · rename_i e; rw [e] at h1; exact h1
    · rename_i e; rw [e] at h1; exact h1.trans (responsingErr_reader u _)

theorem finish_reader (u : Uuid) (seq : UInt32) (o : Out P) (cs : List (Ref × Cast P)) (s : State P) :
    SameReader u s (finish cfg env u seq o cs s).2 := by
  obtain ⟨acts, _, e⟩ := finish_acts (cfg := cfg) (env := env) u seq o cs s
  rw [e]
  exact .of_find rfl

theorem process_reader (r : Flow.Request) (u : Uuid) (p : P) (seq : UInt32) (s : State P) :
    SameReader u s (process cfg env r u p seq s).2 := by
  have h0 : SameReader u s (s.push (.respond u (r.request.getD []) seq)) := .of_find rfl
  unfold process
  dsimp only
  split <;> split
  · exact h0
  · exact h0.trans (finish_reader u seq _ _ _)
  · exact h0.trans (finish_reader u seq _ _ _)
  · exact h0
  · exact h0.trans (finish_reader u seq _ _ _)
  · exact h0.trans (finish_reader u seq _ _ _)

theorem emitBeacon_reader (ref : Ref) (u : Uuid) (p : P) (seq : UInt32) (s : State P) :
    SameReader u s (emitBeacon cfg env ref u p seq s).2 := by
  have h0 : SameReader u s (s.push (.beacon u ref seq)) := .of_find rfl
  unfold emitBeacon
  dsimp only
  split
  · exact h0
  · exact h0
  · exact h0.trans (finish_reader u seq _ _ _)

theorem dispatch_reader (u : Uuid) (ref : Ref) (p : P) (seq : UInt32) (s : State P) :
    SameReader u s (dispatch cfg env opts u ref p seq s).2 := by
  unfold dispatch
  split
  · rename_i r _
    have h := process_reader (cfg := cfg) (env := env) r u p seq s
    split
    · rename_i e; rw [e] at h; exact h
    · rename_i e; rw [e] at h; exact h.trans (responsingErr_reader u _)
    · rename_i e; rw [e] at h; exact h
  · split
    · have h := emitBeacon_reader (cfg := cfg) (env := env) ref u p seq s
      split
      · rename_i e; rw [e] at h; exact h
      · rename_i e; rw [e] at h; exact h.trans (emitError_reader u _ _)
      · rename_i e; rw [e] at h; exact h
    · exact .refl u s

theorem setKey_reader (merge : P → P → P) (c : Consumer P) (k : P) (o : Bool) :
    (c.setKey merge k o).reader = c.reader := by
  unfold Consumer.setKey
  split <;> rfl

theorem onMessage_reader (u : Uuid) (a k : Bool) (m : In P) (seq : UInt32) (s : State P) :
    SameReader u s (onMessage cfg env opts u a k m seq s).2 := by
  unfold onMessage
  split
  · exact .refl u s
  · rename_i c hc
    have h0 : SameReader u s (s.push (.got u m seq)) := .of_find rfl
    have hc' : (s.push (.got u m seq)).find u = some c := hc
    dsimp only
    split
    · refine h0.trans ?_
      unfold onHash
      split
      · exact andThen_reader (answer_reader u seq _) (kick_reader u) _
      · exact (SameReader.set (d := { c with hashAccepted := true }) hc' rfl).trans
          (answer_reader u seq _ _)
    · split
      · exact h0.trans ((SameReader.set hc' (setKey_reader _ _ _ _)).trans (answer_reader u seq _ _))
      · refine h0.trans ?_
        unfold onOther
        split
        · exact kick_reader u _
        · split
          · exact kick_reader u _
          · split
            · refine andThen_reader (fun s => ?_) (fun s => ?_) _
              · split
                · exact disconnect_reader u s
                · exact .refl u s
              · split
                · exact emitError_reader u _ s
                · exact .refl u s
            · exact dispatch_reader u _ _ _ _

theorem onMessages_reader {u : Uuid} {a k : Bool} (ms : List (Rust.Income (In P))) {s : State P}
    {c : Consumer P} {r : Rust.Reader (In P)} (h : s.find u = some c) (e : c.reader = r) :
    ∃ d, (onMessages cfg env opts u a k ms s).2.find u = some d ∧ d.reader = r := by
  have key : ∀ s : State P, SameReader u s (onMessages cfg env opts u a k ms s).2 := by
    induction ms with
    | nil => exact fun s => .refl u s
    | cons m ms ih => exact andThen_reader (onMessage_reader u a k m.msg _) ih
  obtain ⟨d, hd, e'⟩ := key s c h
  exact ⟨d, hd, e'.trans e⟩

end Verif.Server
