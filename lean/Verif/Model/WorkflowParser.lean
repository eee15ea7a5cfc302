import Verif.Model.WorkflowEntities
set_option autoImplicit false
/-!
Model of the workflow parser, `cli/src/workflow/parser.rs`.

Offsets are counted in characters (L212) but used as byte offsets (`&content[offset..]`, L151), and
comments may contain any character. So slicing is modelled on bytes.
-/
namespace Verif.Flow

open Verif.Prot (Name isSpace isDigit isAlnum)

/-- `&content[offset..]`, `parser.rs` L151: the rest behind `offset` bytes. `none`: a panic, when
`offset` is behind the end or inside a character. -/
def sliceFrom : Nat → List Char → Option (List Char)
  | 0, cs => some cs
  | _ + 1, [] => none
  | n + 1, c :: cs => if c.utf8Size ≤ n + 1 then sliceFrom (n + 1 - c.utf8Size) cs else none

/-- `break_chars`, `parser.rs` L195-206, and the token of each, L238-250. -/
def breakTok (c : Char) : Option Tok :=
  if c = '}' then some .cls
  else if c = '{' then some .opn
  else if c = ':' then some .valueDelimiter
  else if c = '?' then some .question
  else if c = ';' then some .semicolon
  else if c = '.' then some .pathDelimiter
  else if c = '(' then some .openBracket
  else if c = ')' then some .closeBracket
  else if c = '>' then some .arrow
  else if c = '!' then some .exclamation
  else none

/-- `limited_chars`, `parser.rs` L208. -/
def isLimited (c : Char) : Bool := c == '@' || c == '&'

/-- The test at the end of a word, `parser.rs` L253-255. -/
def misplaced (str : Name) : Bool :=
  (str.head? != some '&' && str.contains '&') || (str.head? != some '@' && str.contains '@')

/-- The loop of `next`, `parser.rs` L211-285. `none` is an error (`ENextErr`, kinds not kept);
`some` the token and the offset. -/
def lexLoop (str : Name) (pass : Nat) (limited comment : Bool) : List Char → Option (Tok × Nat)
  | [] => if str.isEmpty then some (.eof, pass) else some (.word str, pass - 1)
  | c :: rest =>
    let pass := pass + 1
    if comment && c != '\n' then lexLoop str pass limited true rest
    else if !comment && c == '#' then lexLoop str pass limited true rest
    else if ¬ c.toNat < 128 then none
    else if isDigit c && str.isEmpty then none
    else if isSpace c && str.isEmpty then lexLoop str pass limited false rest
    else if str.isEmpty && (breakTok c).isSome then (breakTok c).map (fun t => (t, pass))
    else if isSpace c || (breakTok c).isSome then
      if limited && misplaced str then none else some (.word str, pass - 1)
    else
      let limited := limited || isLimited c
      if !isAlnum c && c != '_' && !limited then none
      else lexLoop (str ++ [c]) pass limited false rest

/-- `next`, `parser.rs` L192-286. -/
def lex (content : List Char) : Option (Tok × Nat) := lexLoop [] 0 false false content

/-- `Box<dyn EntityParser>`, `parser.rs` L87. -/
inductive Entity where
  | config (c : Config)
  | request (r : Request)
  | beacons (b : Beacons)
  | event (e : Event)
  deriving DecidableEq

/-- Opening an entity, `parser.rs` L94-102, with `Config::open` (`config.rs` L253-259),
`Request::open` (`request.rs` L246-252), `Beacons::open` (`beacon.rs` L96-102) and `Event::open`
(`event.rs` L107-113). Words are ASCII, so `char::is_alphanumeric` is `isAlnum`. -/
def openEntity (w : Name) : Option Entity :=
  if w = "&config".toList then some (.config Config.new)
  else if w.all isAlnum then some (.request (Request.new w))
  else if w = "@beacons".toList then some (.beacons Beacons.new)
  else if w.head? = some '@' then some (.event (Event.new w.tail))
  else none

/-- What the loop of `parse` keeps. -/
structure PState where
  opened : Option Entity
  store : Store
  protocol : Prot.Store
  deriving DecidableEq

/-- The end of `parse`: `Ok(store)` (with the changed protocol), `Err(..)` or a panic. -/
inductive Outcome where
  | accepted (s : Store) (protocol : Prot.Store)
  | rejected
  | panicked
  deriving DecidableEq

/-- Keep an entity that is not closed; put a closed one into the store with `add`. -/
def keep (p : PState) (closed : Bool) (e : Entity) (added : Option Store) : Option PState :=
  if closed then added.map (fun s => ⟨none, s, p.protocol⟩)
  else some { p with opened := some e }

/-- A token for the opened entity, `parser.rs` L117-143. -/
def feed (p : PState) (e : Entity) (t : Tok) : Option PState :=
  match e with
  | .config c =>
    match c.next p.protocol t with
    | none => none
    | some (c, protocol) =>
      keep { p with protocol := protocol } c.closed (.config c) (p.store.setConfig c)
  | .event e =>
    match e.next p.protocol t with
    | none => none
    | some e => keep p e.closed (.event e) (p.store.addEvent e)
  | .beacons b =>
    match b.next p.protocol t with
    | none => none
    | some b => keep p b.closed (.beacons b) (p.store.addBeacons b.beacons)
  | .request r =>
    match r.next p.protocol t with
    | none => none
    | some r => keep p r.closed (.request r) (p.store.addRequest r)

/-- The arms of `parse` for a token other than `End`, `parser.rs` L91-150. A word that opens an
entity is not given to it, unless the offset is 0 (L116). -/
def onTok (p : PState) (t : Tok) (offset : Nat) : Option PState :=
  match p.opened with
  | some e => feed p e t
  | none =>
    match t with
    | .word w =>
      match openEntity w with
      | none => none
      | some e => if offset = 0 then feed p e t else some { p with opened := some e }
    | _ => none

/-- One round: go on or end. -/
inductive Next where
  | go (p : PState) (content : List Char)
  | halt (o : Outcome)

/-- One round of the loop of `parse`, `parser.rs` L88-170, and the end L171-175. -/
def step (p : PState) (content : List Char) : Next :=
  match lex content with
  | none => .halt .rejected
  | some (t, offset) =>
    if t = .eof then .halt (if p.store.validate then .accepted p.store p.protocol else .rejected)
    else
      match onTok p t offset with
      | none => .halt .rejected
      | some p2 =>
        match sliceFrom offset content with
        | none => .halt .panicked
        | some rest => .go p2 rest

/-- At most `n` rounds. `none`: not finished. -/
def loop : Nat → PState → List Char → Option Outcome
  | 0, _, _ => none
  | n + 1, p, content =>
    match step p content with
    | .go p2 c2 => loop n p2 c2
    | .halt o => some o

/-- The state at the start, `parser.rs` L72-87. -/
def PState.init (protocol : Prot.Store) : PState := ⟨none, Store.new, protocol⟩

/-- `parse` of a text with a protocol ends with this outcome. -/
def Parses (protocol : Prot.Store) (text : List Char) (o : Outcome) : Prop :=
  ∃ n, loop n (PState.init protocol) text = some o

end Verif.Flow
