import Verif.Spec.Server
set_option autoImplicit false
/-!
Vocabulary for statements about messages a Rust server did not answer. Histories are newest first.
-/
namespace Verif.Server

open Verif

variable {P : Type}

/-- The server drops clients whose messages it cannot answer. -/
def Drops (opts : Options) : Prop := opts.onError = .disconnect ∨ opts.onError = .emitErrorAndDisconnect

/-- In state `s` user code decides on an answer to the request `p` of `u` that cannot be packed, or gives a
broadcast with it that cannot be packed. -/
def Unpackable (cfg : Cfg P) (env : Env P) (r : Flow.Request) (s : State P) (u : Uuid) (p : P) : Prop :=
  ∃ ref x, cfg.packs (.msg ref x) = false ∧ ((∃ l, Decides env r s u p (.msg ref x) l) ∨
    ∃ i y casts b us, env.conclude s r u p = some (.action i y casts) ∧ b.reference = ref ∧
      CastFor b us x (r.actions.get i).broadcast casts)

/-- Why the server sent no answer to the message of `u` of type `ref` with number `q` it looked at after
`older`. The argument is what happened after that, newest first. -/
inductive Unanswered (cfg : Cfg P) (env : Env P) (opts : Options) (u : Uuid) (q : UInt32) (ref : Ref) (p : P)
    (older : List (Act P)) : List (Act P) → Prop where
  /-- It asks for an assignment, and reports an error. -/
  | unassigned {l : List (Act P)} : opts.identification = .emitError →
      Unanswered cfg env opts u q ref p older (l ++ [.error (some u)])
  /-- User code decided on something that cannot be packed. -/
  | unpacked {r : Flow.Request} {s : State P} {l : List (Act P)} : r ∈ cfg.workflow.requests → r.request = some ref →
      s.past = .respond u ref q :: .got u (.msg ref p) q :: older → Unpackable cfg env r s u p → ¬ Drops opts →
      Unanswered cfg env opts u q ref p older (l ++ [.respond u ref q])
  /-- User code decided on an answer, and the transport did not take it. -/
  | unsent {r : Flow.Request} {s : State P} {o : Out P} {casts : List (Uuid × Out P)} {l : List (Act P)} :
      r ∈ cfg.workflow.requests → r.request = some ref →
      s.past = .respond u ref q :: .got u (.msg ref p) q :: older → Decides env r s u p o casts → ¬ Drops opts →
      Unanswered cfg env opts u q ref p older (l ++ [.send u q o false, .respond u ref q])
  /-- User code for a beacon returned an error, or confirmations cannot be packed. -/
  | beacon {b : Flow.Broadcast} {s : State P} {l : List (Act P)} : b ∈ cfg.workflow.beacons → b.reference = ref →
      s.past = .beacon u ref q :: .got u (.msg ref p) q :: older →
      env.beacon s ref u p = .err ∨ cfg.packs .beacon = false →
      Unanswered cfg env opts u q ref p older (l ++ [.beacon u ref q])
  /-- User code took the beacon, and the transport did not take the confirmation. -/
  | unconfirmed {b : Flow.Broadcast} {s : State P} {l : List (Act P)} : b ∈ cfg.workflow.beacons → b.reference = ref →
      s.past = .beacon u ref q :: .got u (.msg ref p) q :: older → env.beacon s ref u p = .ok () →
      Unanswered cfg env opts u q ref p older (l ++ [.send u q .beacon false, .beacon u ref q])

/-- The server expects messages of this type: it is the one of a request or a beacon of its workflow, and not
the self key. -/
structure Expected (cfg : Cfg P) (ref : Ref) : Prop where
  declared : (∃ r ∈ cfg.workflow.requests, r.request = some ref) ∨ ∃ b ∈ cfg.workflow.beacons, b.reference = ref
  own : ref ≠ cfg.selfKey

end Verif.Server
