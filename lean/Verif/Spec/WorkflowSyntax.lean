import Verif.Spec.Protocol
import Verif.Spec.ProtocolSyntax
import Verif.Model.WorkflowParser
set_option autoImplicit false
/-!
The language of workflow files, independently of the parser: declarations, how they may be written
down, when they are well formed, and what a store says about them.
-/
namespace Verif.Flow.Syntax

open Verif.Prot (Name isSpace isDigit isAlnum)
open Verif.Prot.Syntax (IdChar Ident)

/-- A reference to a struct or enum of the protocol. -/
abbrev Path := List Name

structure BroadcastD where
  ref : Path
  optional : Bool
  deriving DecidableEq

/-- One way to answer a request. -/
structure ActionD where
  conclusion : Option Name
  response : Path
  broadcasts : List BroadcastD
  deriving DecidableEq

inductive EntryD where
  | producer (ts : List Target)
  | consumer (ts : List Target)
  | selfKey (p : Path)
  | assignedKey (p : Path)
  deriving DecidableEq

/-- A declaration. `plain` is a request with reference only, `announce` one with broadcasts only. -/
inductive Decl where
  | config (entries : List EntryD)
  | plain (ref : Path)
  | announce (ref : Path) (broadcasts : List Path)
  | request (ref err : Path) (actions : List ActionD)
  | beacons (refs : List Path)
  | event (ref : Path) (broadcasts : List BroadcastD)
  deriving DecidableEq

/-! ### Writing down -/

/-- Punctuation. -/
inductive Mark where
  | opn
  | cls
  | openBracket
  | closeBracket
  | arrow
  | exclamation
  | question
  | semicolon
  | dot
  | colon

def Mark.char : Mark → Char
  | .opn => '{'
  | .cls => '}'
  | .openBracket => '('
  | .closeBracket => ')'
  | .arrow => '>'
  | .exclamation => '!'
  | .question => '?'
  | .semicolon => ';'
  | .dot => '.'
  | .colon => ':'

/-- Symbols of the language. -/
inductive Sym where
  | word (w : Name)
  | mark (m : Mark)

def pathSyms : Path → List Sym
  | [] => []
  | [w] => [.word w]
  | w :: w2 :: ws => .word w :: .mark .dot :: pathSyms (w2 :: ws)

def optSyms (b : Bool) : List Sym := if b then [.mark .question] else []

def broadcastSyms (b : BroadcastD) : List Sym :=
  .mark .arrow :: (pathSyms b.ref ++ (optSyms b.optional ++ [.mark .semicolon]))

def refSyms (p : Path) : List Sym := .mark .arrow :: (pathSyms p ++ [.mark .semicolon])

def conclusionSyms : Option Name → List Sym
  | none => []
  | some w => [.word w, .mark .arrow]

/-- An action; without broadcasts a `;` follows the bracket. -/
def actionSyms (a : ActionD) : List Sym :=
  .mark .openBracket :: (conclusionSyms a.conclusion ++ (pathSyms a.response ++
    (.mark .closeBracket ::
      (if a.broadcasts = [] then [.mark .semicolon] else a.broadcasts.flatMap broadcastSyms))))

def aliasOf : Target → Name
  | .rust => "rust".toList
  | .typescript => "typescript".toList

def entrySyms : EntryD → List Sym
  | .producer ts => .word "Producer".toList :: .mark .colon ::
      (ts.map (fun t => .word (aliasOf t)) ++ [.mark .semicolon])
  | .consumer ts => .word "Consumer".toList :: .mark .colon ::
      (ts.map (fun t => .word (aliasOf t)) ++ [.mark .semicolon])
  | .selfKey p => .word "SelfKey".toList :: .mark .colon :: (pathSyms p ++ [.mark .semicolon])
  | .assignedKey p =>
    .word "AssignedKey".toList :: .mark .colon :: (pathSyms p ++ [.mark .semicolon])

/-- Put `@` in front of the first name. -/
def atPath : Path → Path
  | [] => []
  | w :: ws => ('@' :: w) :: ws

def declSyms : Decl → List Sym
  | .config es =>
    .word "&config".toList :: .mark .opn :: (es.flatMap entrySyms ++ [.mark .cls])
  | .plain r => pathSyms r ++ [.mark .semicolon]
  | .announce r bs => pathSyms r ++ (.mark .opn :: (bs.flatMap refSyms ++ [.mark .cls]))
  | .request r e as =>
    pathSyms r ++ (.mark .exclamation ::
      (pathSyms e ++ (.mark .opn :: (as.flatMap actionSyms ++ [.mark .cls]))))
  | .beacons rs => .word "@beacons".toList :: .mark .opn :: (rs.flatMap refSyms ++ [.mark .cls])
  | .event r bs =>
    pathSyms (atPath r) ++ (.mark .opn :: (bs.flatMap broadcastSyms ++ [.mark .cls]))

/-- White space and comments. Comments consist of ASCII characters and end with the line. -/
inductive Gap : List Char → Prop where
  | nil : Gap []
  | space {c : Char} {g : List Char} : isSpace c = true → Gap g → Gap (c :: g)
  | comment {body g : List Char} : (∀ c ∈ body, c ≠ '\n' ∧ c.toNat < 128) → Gap g →
      Gap ('#' :: (body ++ '\n' :: g))

/-- A name, perhaps with `@` or `&` in front. -/
def IsWord (w : Name) : Prop := Ident w ∨ ∃ v, Ident v ∧ (w = '@' :: v ∨ w = '&' :: v)

/-- A character that ends a word. -/
def Separates (c : Char) : Prop := isSpace c = true ∨ c = '#' ∨ ∃ m : Mark, c = m.char

/-- `text` writes down the symbols, with any gap in front of each symbol and at the end. The last
comment need not end. -/
inductive Spelled : List Sym → List Char → Prop where
  | nil {g : List Char} : Gap g → Spelled [] g
  | tail {g body : List Char} : Gap g → (∀ c ∈ body, c ≠ '\n' ∧ c.toNat < 128) →
      Spelled [] (g ++ '#' :: body)
  | word {g : List Char} {w : Name} {ts : List Sym} {c : Char} {rest : List Char} :
      Gap g → IsWord w → Separates c → ts ≠ [] → Spelled ts (c :: rest) →
      Spelled (.word w :: ts) (g ++ (w ++ c :: rest))
  | mark {g : List Char} {m : Mark} {ts : List Sym} {rest : List Char} :
      Gap g → Spelled ts rest → Spelled (.mark m :: ts) (g ++ m.char :: rest)

/-! ### Well formed declarations -/

/-- The entry sets the self key. -/
def EntryD.isSelf : EntryD → Bool
  | .selfKey _ => true
  | _ => false

def EntryD.isAssigned : EntryD → Bool
  | .assignedKey _ => true
  | _ => false

def EntryD.isProducer : EntryD → Bool
  | .producer _ => true
  | _ => false

def EntryD.isConsumer : EntryD → Bool
  | .consumer _ => true
  | _ => false

/-- Service structs added by a config for the self key. -/
def selfServices (es : List EntryD) : List Name :=
  (if es.any EntryD.isSelf then [] else ["SelfKeyRequest".toList]) ++ ["SelfKeyResponse".toList]

/-- Service structs added by a config. -/
def servicesOf (es : List EntryD) : List Name :=
  selfServices es ++
  (if es.any EntryD.isAssigned then [] else ["AssignedKey".toList]) ++
  ["HashRequest".toList, "HashResponse".toList, "BeaconConfirmation".toList,
    "ConnectConfirmationBeacon".toList]

/-- The reference of a service struct, as a path. -/
def servicePath (n : Name) : Path := ["InternalServiceGroup".toList, n]

def PathShape (p : Path) : Prop := p ≠ [] ∧ ∀ w ∈ p, Ident w

def RequestShape (p : Path) : Prop := PathShape p ∧ ∀ w, p.head? = some w → ∀ c ∈ w, c ≠ '_'

def ActionD.Shape (a : ActionD) : Prop :=
  (∀ w, a.conclusion = some w → Ident w) ∧ PathShape a.response ∧
  (∀ b ∈ a.broadcasts, PathShape b.ref) ∧ (a.conclusion = none → a.broadcasts = [])

def EntryD.Shape : EntryD → Prop
  | .producer ts => ts ≠ []
  | .consumer ts => ts ≠ []
  | .selfKey p => PathShape p
  | .assignedKey p => PathShape p

/-- The form of a declaration that the language admits: no empty lists or paths; the first name of
a request has no underscore; a request written without `!` has at least two names; an answer without
conclusion has no broadcasts; an event is not called `beacons`. -/
def Decl.Shape : Decl → Prop
  | .config es => ∀ e ∈ es, e.Shape
  | .plain r => RequestShape r ∧ 2 ≤ r.length
  | .announce r bs => RequestShape r ∧ 2 ≤ r.length ∧ bs ≠ [] ∧ ∀ b ∈ bs, PathShape b
  | .request r e as => RequestShape r ∧ PathShape e ∧ as ≠ [] ∧ ∀ a ∈ as, a.Shape
  | .beacons rs => rs ≠ [] ∧ ∀ r ∈ rs, PathShape r
  | .event r bs => PathShape r ∧ r.head? ≠ some "beacons".toList ∧ bs ≠ [] ∧
      ∀ b ∈ bs, PathShape b.ref

/-- The references of an action are known, and none is broadcast twice. -/
def ActionD.Fine (K : Path → Prop) (a : ActionD) : Prop :=
  K a.response ∧ (∀ b ∈ a.broadcasts, K b.ref) ∧ (a.broadcasts.map BroadcastD.ref).Nodup

/-- `own` are the service structs added before the assigned key is looked up. -/
def EntryD.Fine (K : Path → Prop) (own : List Name) : EntryD → Prop
  | .producer ts => ts.Nodup
  | .consumer ts => ts.Nodup
  | .selfKey p => K p
  | .assignedKey p => K p ∨ ∃ n ∈ own, p = servicePath n

/-- All declared references are known; conclusions are given where there is a choice; nothing is
configured or broadcast twice. `K` tells which references are known. -/
def Decl.Fine (K : Path → Prop) : Decl → Prop
  | .config es => (∀ e ∈ es, e.Fine K (selfServices es)) ∧ es.countP EntryD.isProducer = 1 ∧
      es.countP EntryD.isConsumer = 1 ∧ es.countP EntryD.isSelf ≤ 1 ∧
      es.countP EntryD.isAssigned ≤ 1
  | .plain r => K r
  | .announce r bs => K r ∧ ∀ b ∈ bs, K b
  | .request r e as => K r ∧ K e ∧ (∀ a ∈ as, a.Fine K) ∧
      (as.length ≠ 1 → ∀ a ∈ as, a.conclusion ≠ none)
  | .beacons rs => ∀ r ∈ rs, K r
  | .event r bs => (r = ["connected".toList] ∨ r = ["disconnected".toList] ∨ K r) ∧
      ∀ b ∈ bs, K b.ref

/-- What is known after a declaration: a config adds service structs. -/
def knownAfter (K : Path → Prop) : Decl → Path → Prop
  | .config es, p => K p ∨ ∃ n ∈ servicesOf es, p = servicePath n
  | _, p => K p

/-- What is known after all declarations. -/
def knownAfterAll (K : Path → Prop) : List Decl → Path → Prop
  | [] => K
  | d :: ds => knownAfterAll (knownAfter K d) ds

/-- References are known where they are used. -/
def AllFine (K : Path → Prop) : List Decl → Prop
  | [] => True
  | d :: ds => d.Fine K ∧ AllFine (knownAfter K d) ds

def requestRefs (ds : List Decl) : List Path :=
  ds.filterMap fun
    | .plain r => some r
    | .announce r _ => some r
    | .request r _ _ => some r
    | _ => none

def eventRefs (ds : List Decl) : List Path :=
  ds.filterMap fun
    | .event r _ => some r
    | _ => none

def beaconRefs (ds : List Decl) : List Path :=
  ds.flatMap fun
    | .beacons rs => rs
    | _ => []

def configs (ds : List Decl) : List (List EntryD) :=
  ds.filterMap fun
    | .config es => some es
    | _ => none

/-- Nothing is declared twice. -/
def Unique (ds : List Decl) : Prop :=
  (requestRefs ds).Nodup ∧ (eventRefs ds).Nodup ∧ (beaconRefs ds).Nodup ∧
  (configs ds).length ≤ 1 ∧ ∀ r ∈ beaconRefs ds, r ∉ requestRefs ds

/-! ### What a store says -/

/-- Names with dots between them. -/
def dotted : Path → Ref
  | [] => []
  | [w] => w
  | w :: w2 :: ws => w ++ '.' :: dotted (w2 :: ws)

def broadcastOf (b : BroadcastD) : Broadcast := ⟨dotted b.ref, b.optional⟩

/-- Conclusion, response and broadcasts of an action. -/
def actionView (a : Action) : Option Ref × Option Ref × List Broadcast :=
  (a.conclusion, a.response, a.broadcast)

def actionOf (a : ActionD) : Option Ref × Option Ref × List Broadcast :=
  (a.conclusion, some (dotted a.response), a.broadcasts.map broadcastOf)

/-- Reference, error, actions and broadcasts of a request. -/
def requestView (r : Request) :
    Option Ref × Option Ref × List (Option Ref × Option Ref × List Broadcast) × List Ref :=
  (r.request, r.error, r.actions.map actionView, r.broadcasts)

def requestsOf (ds : List Decl) :
    List (Option Ref × Option Ref × List (Option Ref × Option Ref × List Broadcast) × List Ref) :=
  ds.filterMap fun
    | .plain r => some (some (dotted r), none, [], [])
    | .announce r bs => some (some (dotted r), none, [], bs.map dotted)
    | .request r e as => some (some (dotted r), some (dotted e), as.map actionOf, [])
    | _ => none

def eventView (e : Event) : Option Ref × List Broadcast := (e.reference, e.broadcasts)

def eventsOf (ds : List Decl) : List (Option Ref × List Broadcast) :=
  ds.filterMap fun
    | .event r bs => some (some (dotted r), bs.map broadcastOf)
    | _ => none

def beaconsOf (ds : List Decl) : List Broadcast := (beaconRefs ds).map (fun r => ⟨dotted r, false⟩)

/-- Targets and keys of a config. -/
def configView (c : Config) : List Target × List Target × Option Ref × Option Ref :=
  (c.producer, c.consumer, c.selfKey, c.assignedKey)

/-- The reference of a service struct. -/
def serviceStruct (n : Name) : Ref := "InternalServiceGroup.".toList ++ n

def configOf (es : List EntryD) : List Target × List Target × Option Ref × Option Ref :=
  (es.flatMap (fun | .producer ts => ts | _ => []),
   es.flatMap (fun | .consumer ts => ts | _ => []),
   some ((es.findSome? (fun | .selfKey p => some (dotted p) | _ => none)).getD
     (serviceStruct "SelfKeyRequest".toList)),
   some ((es.findSome? (fun | .assignedKey p => some (dotted p) | _ => none)).getD
     (serviceStruct "AssignedKey".toList)))

/-- The reference leads from the root of the protocol to a type. -/
def Refers (pr : Prot.Store) (r : Ref) : Prop :=
  ∃ p id, r = dotted p ∧ Prot.Leads pr.groups pr 0 p id

/-- All references of a request. -/
def requestNames (r : Request) : List Ref :=
  r.request.toList ++ r.error.toList ++ r.broadcasts ++
    r.actions.flatMap (fun a => a.response.toList ++ a.broadcast.map Broadcast.reference)

/-- All references of a config. -/
def configNames (c : Config) : List Ref := c.selfKey.toList ++ c.assignedKey.toList

/-- All references of a workflow but the names of events. -/
def storeNames (s : Store) : List Ref :=
  s.requests.flatMap requestNames ++
  s.events.flatMap (fun e => e.broadcasts.map Broadcast.reference) ++
  s.beacons.map Broadcast.reference ++ s.config.toList.flatMap configNames

end Verif.Flow.Syntax
