import Verif.Spec.WorkflowSyntax
set_option autoImplicit false
/-!
What a sequence diagram says, line by line, and what it has to say about declarations of a workflow.
-/
namespace Verif.Puml

open Verif.Prot (Name)
open Verif.Flow.Syntax (Path BroadcastD ActionD Decl dotted beaconRefs)

/-! ### Reading a diagram -/

/-- The parts of a text between line ends. -/
def partsAtLineEnds : List Char → List Char → List (List Char)
  | [], acc => [acc.reverse]
  | c :: cs, acc => if c = '\n' then acc.reverse :: partsAtLineEnds cs [] else partsAtLineEnds cs (c :: acc)

/-- Without blanks at both ends. -/
def stripped (l : List Char) : List Char :=
  ((l.dropWhile (· = ' ')).reverse.dropWhile (· = ' ')).reverse

/-- The lines of a text without blanks at both ends and without empty lines. -/
def linesOf (t : List Char) : List (List Char) :=
  ((partsAtLineEnds t []).map stripped).filter (· ≠ [])

/-! ### What there is to be said -/

inductive Party where
  | consumer
  | consumers
  | producer
  deriving DecidableEq

def Party.name : Party → List Char
  | .consumer => "Consumer".toList
  | .consumers => "Consumers".toList
  | .producer => "Producer".toList

inductive Stroke where
  | solid
  | dashed
  deriving DecidableEq

def Stroke.arrow : Stroke → List Char
  | .solid => "->".toList
  | .dashed => "-->".toList

/-- A line of a diagram. -/
inductive Item where
  | start
  | participants
  | group (title : List Char)
  | message (sender : Party) (stroke : Stroke) (receiver : Party) (name : List Char)
  | failure (name : List Char)
  | case (name : List Char)
  | close
  | finish
  deriving DecidableEq

def Item.line : Item → List Char
  | .start => "@startuml".toList
  | .participants => "collections Consumers as Consumers".toList
  | .group title => "group ".toList ++ title
  | .message s k r n => s.name ++ ' ' :: k.arrow ++ ' ' :: r.name ++ ": ".toList ++ n
  | .failure n => "Producer -->x Consumer: <font color=red>".toList ++ n
  | .case n => "== ".toList ++ n ++ " ==".toList
  | .close => "end".toList
  | .finish => "@enduml".toList

/-- Optional messages have dashed arrows. -/
def strokeOf (optional : Bool) : Stroke := if optional then .dashed else .solid

/-- An answer with its conclusion and what is broadcast with it. -/
def caseItems (a : ActionD) : List Item :=
  .case (a.conclusion.getD []) :: .message .producer .solid .consumer (dotted a.response) ::
    a.broadcasts.map fun b => .message .producer (strokeOf b.optional) .consumers (dotted b.ref)

/-- The answers of a request. Where there is only one there are no cases. -/
def answerItems : List ActionD → List Item
  | [a] => [.message .producer .solid .consumer (dotted a.response)]
  | as => as.flatMap caseItems

/-- A request with its error and its answers. -/
def requestItems (r e : Path) (as : List ActionD) : List Item :=
  .group r.flatten :: .message .consumer .solid .producer (dotted r) :: .failure (dotted e) ::
    (answerItems as ++ [.close])

/-- An event of the server with what is broadcast. -/
def eventItems (r : Path) (bs : List BroadcastD) : List Item :=
  .group (dotted r) :: .message .producer .solid .producer (dotted r) ::
    (bs.map (fun b => .message .producer .dashed .consumer (dotted b.ref)) ++ [.close])

def beaconItems (rs : List Path) : List Item :=
  .group "Beacons".toList :: .message .consumer .solid .producer "Connected Event".toList ::
    .message .consumer .solid .producer "Disconnected Event".toList ::
    (rs.map (fun r => .message .consumer .dashed .producer (dotted r)) ++ [.close])

/-- All requests, then all events, then all beacons. -/
def diagram (ds : List Decl) : List Item :=
  .start :: .participants ::
    ((ds.flatMap fun | .request r e as => requestItems r e as | _ => []) ++
      (ds.flatMap fun | .event r bs => eventItems r bs | _ => []) ++
      beaconItems (beaconRefs ds) ++ [.finish])

/-- Every request has answers: it is not one of the short forms. -/
def Answered (ds : List Decl) : Prop :=
  ∀ d ∈ ds, match d with | .plain _ => False | .announce _ _ => False | _ => True

/-- The messages a declaration mentions. -/
def mentioned : Decl → List Path
  | .config _ => []
  | .plain r => [r]
  | .announce r bs => r :: bs
  | .request r e as => r :: e :: as.flatMap fun a => a.response :: a.broadcasts.map BroadcastD.ref
  | .beacons rs => rs
  | .event r bs => r :: bs.map BroadcastD.ref

/-- The last word of a line, behind a blank or behind markup. -/
def Shown (t : List Char) (p : Path) : Prop :=
  ∃ l ∈ linesOf t, ∃ front c, l = front ++ c :: dotted p ∧ (c = ' ' ∨ c = '>')

/-- Requests with a single answer broadcast nothing. -/
def SingleQuiet (ds : List Decl) : Prop :=
  ∀ r e a, Decl.request r e [a] ∈ ds → a.broadcasts = []

end Verif.Puml
