import Verif.Model.ProtocolParser
set_option autoImplicit false
/-!
Model of the entity parsers of workflow files: `cli/src/workflow/{config,request,beacon,event}.rs`
(cited without the directory) and of the workflow store `store.rs`.

`none` stands for `Err(..)`; the text of errors is not kept. References are kept as the source keeps
them: as one string with dots.
-/
namespace Verif.Flow

open Verif.Prot (Name)

/-- A reference to a struct or enum: names with dots between them. -/
abbrev Ref := List Char

/-- `ENext`, `parser.rs` L42-55, without offsets and without the character behind a word, which no
entity looks at. `eof` is `End`. -/
inductive Tok where
  | word (w : Name)
  | opn
  | cls
  | openBracket
  | closeBracket
  | arrow
  | exclamation
  | question
  | semicolon
  | pathDelimiter
  | valueDelimiter
  | eof
  deriving DecidableEq

/-- `EExpectation` of all four entities, `config.rs` L23-31, `request.rs` L4-15, `beacon.rs` L8-15,
`event.rs` L9-17. `Comma` (`config.rs` L28) has no token and is left out. -/
inductive Expect where
  | word
  | semicolon
  | pathDelimiter
  | valueDelimiter
  | opn
  | cls
  | arrow
  | openBracket
  | closeBracket
  | exclamation
  | question
  deriving DecidableEq

/-- `format!("{}{}{}", path, if path.is_empty() { "" } else { "." }, word)`, for example
`beacon.rs` L142-147. -/
def joinDot (path : Ref) (w : Name) : Ref := if path.isEmpty then w else path ++ '.' :: w

/-- `path.split('.')`, `cli/src/protocol/store.rs` L197-202. -/
def splitDot : Ref → List Name
  | [] => [[]]
  | c :: cs =>
    if c = '.' then [] :: splitDot cs
    else
      match splitDot cs with
      | [] => [[c]]
      | w :: ws => (c :: w) :: ws

/-- `protocol.find_by_str_path(0, r).is_some()`, `cli/src/protocol/store.rs` L196-204. -/
def defined (protocol : Prot.Store) (r : Ref) : Bool :=
  (protocol.findByPath 0 (splitDot r)).isSome

/-- `Broadcast`, `beacon.rs` L24-27. -/
structure Broadcast where
  reference : Ref
  optional : Bool
  deriving DecidableEq

/-! ### Beacons -/

/-- `Beacons`, `beacon.rs` L43-48; `pending` is `none` for `Nothing`, L18-21. -/
structure Beacons where
  beacons : List Broadcast
  expect : List Expect
  pending : Option Ref
  closed : Bool
  deriving DecidableEq

/-- `Beacons::new`, `beacon.rs` L57-64. -/
def Beacons.new : Beacons := ⟨[], [.opn], none, false⟩

/-- `Beacons::close`, `beacon.rs` L66-84. -/
def Beacons.close (b : Beacons) (protocol : Prot.Store) : Option Beacons :=
  if b.beacons.isEmpty then none
  else if b.beacons.all (fun x => defined protocol x.reference) then some ⟨b.beacons, [], none, true⟩
  else none

/-- `Beacons::next`, `beacon.rs` L104-276. -/
def Beacons.next (b : Beacons) (protocol : Prot.Store) : Tok → Option Beacons
  | .opn =>
    if b.expect.contains .opn then some { b with pending := none, expect := [.arrow] } else none
  | .word w =>
    match b.pending with
    | some p =>
      some { b with
        pending := some (joinDot p w), expect := [.word, .pathDelimiter, .semicolon] }
    | none => none
  | .pathDelimiter =>
    if b.expect.contains .pathDelimiter then some { b with expect := [.word] } else none
  | .semicolon =>
    if b.expect.contains .semicolon then
      match b.pending with
      | some p =>
        if p.isEmpty then none
        else some { b with
          beacons := b.beacons ++ [⟨p, false⟩], expect := [.arrow, .cls], pending := none }
      | none => none
    else none
  | .arrow =>
    if b.expect.contains .arrow then
      match b.pending with
      | none => some { b with pending := some [], expect := [.word, .pathDelimiter] }
      | some _ => none
    else none
  | .cls =>
    if b.expect.contains .cls then
      match b.pending with
      | none => b.close protocol
      | some _ => none
    else none
  | _ => none

/-! ### Events -/

/-- `Pending` of events, `event.rs` L20-24. -/
inductive EventPending where
  | nothing
  | reference (r : Ref)
  | broadcast (b : Broadcast)
  deriving DecidableEq

/-- `Event`, `event.rs` L27-33. -/
structure Event where
  reference : Option Ref
  broadcasts : List Broadcast
  expect : List Expect
  pending : EventPending
  closed : Bool
  deriving DecidableEq

/-- `Event::new`, `event.rs` L36-48. -/
def Event.new (r : Ref) : Event :=
  ⟨none, [], [.word, .pathDelimiter, .opn], .reference r, false⟩

/-- `defaults`, `event.rs` L4-7. -/
def isDefaultEvent (r : Ref) : Bool := r = "connected".toList || r = "disconnected".toList

/-- `Event::close`, `event.rs` L50-83. -/
def Event.close (e : Event) (protocol : Prot.Store) : Option Event :=
  match e.reference with
  | none => none
  | some r =>
    if !isDefaultEvent r && !defined protocol r then none
    else if e.broadcasts.isEmpty then none
    else if e.broadcasts.all (fun x => defined protocol x.reference) then
      some ⟨e.reference, e.broadcasts, [], .nothing, true⟩
    else none

/-- `Event::next`, `event.rs` L115-364. -/
def Event.next (e : Event) (protocol : Prot.Store) : Tok → Option Event
  | .opn =>
    if e.expect.contains .opn then
      match e.pending with
      | .reference p =>
        if p.isEmpty then none
        else some { e with reference := some p, pending := .nothing, expect := [.arrow] }
      | _ => none
    else none
  | .word w =>
    match e.pending with
    | .reference p =>
      some { e with
        pending := .reference (joinDot p w), expect := [.word, .pathDelimiter, .opn, .semicolon] }
    | .broadcast b =>
      some { e with
        pending := .broadcast ⟨joinDot b.reference w, b.optional⟩
        expect := [.word, .pathDelimiter, .semicolon, .question] }
    | .nothing => none
  | .question =>
    if e.expect.contains .question then
      match e.pending with
      | .broadcast b =>
        if !b.reference.isEmpty then
          some { e with pending := .broadcast ⟨b.reference, true⟩, expect := [.semicolon] }
        else none
      | _ => none
    else none
  | .pathDelimiter =>
    if e.expect.contains .pathDelimiter then some { e with expect := [.word] } else none
  | .semicolon =>
    if e.expect.contains .semicolon then
      match e.pending with
      | .reference p =>
        if p.isEmpty then none else ({ e with reference := some p } : Event).close protocol
      | .broadcast b =>
        if b.reference.isEmpty then none
        else some { e with
          broadcasts := e.broadcasts ++ [b], expect := [.arrow, .cls], pending := .nothing }
      | .nothing => none
    else none
  | .arrow =>
    if e.expect.contains .arrow then
      match e.pending with
      | .nothing =>
        some { e with pending := .broadcast ⟨[], false⟩, expect := [.word, .pathDelimiter] }
      | _ => none
    else none
  | .cls =>
    if e.expect.contains .cls then
      match e.pending with
      | .nothing => if e.reference.isNone then none else e.close protocol
      | _ => none
    else none
  | _ => none

/-! ### Requests -/

/-- `Action`, `request.rs` L27-34. -/
structure Action where
  conclusion : Option Ref
  response : Option Ref
  broadcast : List Broadcast
  current : Ref
  optional : Bool
  deriving DecidableEq

/-- `Action::new`, `request.rs` L43-51. -/
def Action.new : Action := ⟨none, none, [], [], false⟩

/-- `Action::valid`, `request.rs` L69-82. -/
def Action.valid (a : Action) : Bool := a.response.isSome && a.current.isEmpty

/-- `Pending` of requests, `request.rs` L18-24. -/
inductive ReqPending where
  | nothing
  | error (r : Ref)
  | request (r : Ref)
  | action (a : Action)
  | broadcast (r : Ref)
  deriving DecidableEq

/-- `Request`, `request.rs` L115-123. -/
structure Request where
  request : Option Ref
  error : Option Ref
  actions : List Action
  broadcasts : List Ref
  expect : List Expect
  pending : ReqPending
  closed : Bool
  deriving DecidableEq

/-- `Request::new`, `request.rs` L126-140. -/
def Request.new (r : Ref) : Request :=
  ⟨none, none, [], [], [.word, .pathDelimiter, .exclamation], .request r, false⟩

/-- The checks of one action in `Request::close`, `request.rs` L169-193. -/
def Action.checked (a : Action) (alone : Bool) (protocol : Prot.Store) : Bool :=
  (a.conclusion.isSome || alone) &&
  (match a.response with
    | some r => defined protocol r
    | none => false) &&
  a.broadcast.all (fun b => defined protocol b.reference)

/-- `Request::close`, `request.rs` L142-198. -/
def Request.close (r : Request) (protocol : Prot.Store) : Option Request :=
  match r.request with
  | none => none
  | some q =>
    if !defined protocol q then none
    else if !(match r.error with
      | some e => defined protocol e
      | none => r.actions.isEmpty) then none
    else if !r.broadcasts.all (fun b => defined protocol b) then none
    else if !r.actions.all (fun a => a.checked (r.actions.length == 1) protocol) then none
    else some ⟨r.request, r.error, r.actions, r.broadcasts, [], .nothing, true⟩

/-- Arm `ENext::Word` of `Request::next`, `request.rs` L305-419. The word after a response is
accepted only if the action has a conclusion (L380, L399-401). -/
def Request.onWord (r : Request) (w : Name) : Option Request :=
  match r.pending with
  | .nothing => some r
  | .request p =>
    some { r with
      pending := .request (joinDot p w)
      expect := [.word, .pathDelimiter, .semicolon, .exclamation, .opn] }
  | .error p =>
    some { r with pending := .error (joinDot p w), expect := [.word, .pathDelimiter, .opn] }
  | .action a =>
    if a.response.isNone && a.conclusion.isNone then
      some { r with
        pending := .action { a with current := joinDot a.current w }
        expect := [.pathDelimiter, .word, .arrow, .closeBracket] }
    else if a.response.isNone && a.conclusion.isSome then
      some { r with
        pending := .action { a with current := joinDot a.current w }
        expect := [.pathDelimiter, .word, .closeBracket] }
    else if a.response.isSome && a.conclusion.isSome then
      some { r with
        pending := .action { a with current := joinDot a.current w }
        expect := [.pathDelimiter, .word, .semicolon, .question] }
    else none
  | .broadcast p =>
    some { r with pending := .broadcast (joinDot p w), expect := [.word, .pathDelimiter, .semicolon] }

/-- Arm `ENext::Semicolon` of `Request::next`, `request.rs` L465-552, with `add_broadcast`
L53-67. -/
def Request.onSemicolon (r : Request) (protocol : Prot.Store) : Option Request :=
  match r.pending with
  | .request p =>
    if p.isEmpty then none else ({ r with request := some p } : Request).close protocol
  | .action a =>
    if a.current.isEmpty then
      if a.valid then
        some { r with
          expect := [.cls, .openBracket], actions := r.actions ++ [a], pending := .nothing }
      else none
    else if a.broadcast.any (fun b => b.reference == a.current) then none
    else
      some { r with
        pending := .action { a with
          broadcast := a.broadcast ++ [⟨a.current, a.optional⟩], optional := false, current := [] }
        expect := [.cls, .openBracket, .arrow] }
  | .broadcast p =>
    some { r with broadcasts := r.broadcasts ++ [p], expect := [.arrow, .cls], pending := .nothing }
  | _ => none

/-- `Request::next`, `request.rs` L254-778. -/
def Request.next (r : Request) (protocol : Prot.Store) : Tok → Option Request
  | .opn =>
    if r.expect.contains .opn then
      match r.pending with
      | .request p =>
        if p.isEmpty then none
        else some { r with request := some p, pending := .nothing, expect := [.arrow] }
      | .error p =>
        if r.request.isNone then none
        else some { r with error := some p, pending := .nothing, expect := [.openBracket] }
      | _ => none
    else none
  | .word w => r.onWord w
  | .question =>
    if r.expect.contains .question then
      match r.pending with
      | .action a =>
        if a.response.isSome && a.conclusion.isSome then
          some { r with pending := .action { a with optional := true }, expect := [.semicolon] }
        else none
      | _ => none
    else none
  | .pathDelimiter =>
    if r.expect.contains .pathDelimiter then some { r with expect := [.word] } else none
  | .semicolon => if r.expect.contains .semicolon then r.onSemicolon protocol else none
  | .exclamation =>
    if r.expect.contains .exclamation then
      match r.pending with
      | .request p => some { r with request := some p, pending := .error [], expect := [.word] }
      | _ => none
    else none
  | .openBracket =>
    if r.expect.contains .openBracket then
      match r.pending with
      | .nothing => some { r with pending := .action Action.new, expect := [.word] }
      | .action a =>
        if a.valid then
          some { r with
            actions := r.actions ++ [a], pending := .action Action.new, expect := [.word] }
        else none
      | _ => none
    else none
  | .closeBracket =>
    if r.expect.contains .closeBracket then
      match r.pending with
      | .action a =>
        if a.current.isEmpty then none
        else if a.response.isNone then
          some { r with
            pending := .action { a with response := some a.current, current := [] }
            expect := [.arrow, .semicolon] }
        else none
      | _ => none
    else none
  | .arrow =>
    if r.expect.contains .arrow then
      match r.pending with
      | .nothing => some { r with pending := .broadcast [], expect := [.word, .pathDelimiter] }
      | .action a =>
        if a.conclusion.isNone && a.response.isNone && !a.current.isEmpty then
          some { r with
            pending := .action { a with conclusion := some a.current, current := [] }
            expect := [.word] }
        else if a.response.isSome && a.current.isEmpty then some { r with expect := [.word] }
        else some r
      | _ => none
    else none
  | .cls =>
    if r.expect.contains .cls then
      match r.pending with
      | .action a =>
        if a.valid then ({ r with actions := r.actions ++ [a] } : Request).close protocol else none
      | .broadcast p =>
        if p.isEmpty then none
        else ({ r with broadcasts := r.broadcasts ++ [p], pending := .nothing } : Request).close
          protocol
      | _ => r.close protocol
    else none
  | _ => none

/-! ### Config -/

/-- `Target`, `cli/src/workflow/render/render.rs` (`add_producer`, `config.rs` L77-96). -/
inductive Target where
  | rust
  | typescript
  deriving DecidableEq

/-- The alias of a target, `config.rs` L78-84 and L99-105. -/
def Target.ofAlias (w : Name) : Option Target :=
  if w = "rust".toList then some .rust
  else if w = "typescript".toList then some .typescript
  else none

/-- `Pending` of the config, `config.rs` L34-40. -/
inductive ConfPending where
  | nothing
  | producer
  | consumer
  | selfKey (r : Ref)
  | assignedKey (r : Ref)
  deriving DecidableEq

/-- `Config`, `config.rs` L43-53. `self_key_response` is constant, `prev` is never read; both are
left out. -/
structure Config where
  producer : List Target
  consumer : List Target
  selfKey : Option Ref
  assignedKey : Option Ref
  closed : Bool
  expect : List Expect
  pending : ConfPending
  deriving DecidableEq

/-- `Config::new`, `config.rs` L62-77. -/
def Config.new : Config := ⟨[], [], none, none, false, [.opn], .nothing⟩

/-- A field of a service struct: `Field::create_not_assigned_primitive(.., Estr, ..)`,
`cli/src/protocol/fields.rs` L39-61. -/
def strField (name : Name) (optional : Bool) : Prot.Field :=
  ⟨0, 0, name, "str".toList, none, [], false, optional, ["str".toList]⟩

/-- A reference into the group of service structs, for example `config.rs` L166-170. -/
def serviceRef (name : Name) : Ref := joinDot Prot.serviceGroup name

/-- The part of `Config::close` about the self key, `config.rs` L131-171. -/
def Config.closeSelf (c : Config) (p : Prot.Store) : Option (Config × Prot.Store) :=
  let response (p : Prot.Store) :=
    p.addService "SelfKeyResponse".toList [strField "uuid".toList false]
  match c.selfKey with
  | some k => if defined p k then some (c, response p) else none
  | none =>
    some ({ c with selfKey := some (serviceRef "SelfKeyRequest".toList) },
      response (p.addService "SelfKeyRequest".toList [strField "uuid".toList true]))

/-- The part of `Config::close` about the assigned key, `config.rs` L172-189. -/
def Config.closeAssigned (c : Config) (p : Prot.Store) : Option (Config × Prot.Store) :=
  match c.assignedKey with
  | some k => if defined p k then some (c, p) else none
  | none =>
    some ({ c with assignedKey := some (serviceRef "AssignedKey".toList) },
      p.addService "AssignedKey".toList [])

/-- `Config::close`, `config.rs` L130-234. -/
def Config.close (c : Config) (p : Prot.Store) : Option (Config × Prot.Store) :=
  match c.closeSelf p with
  | none => none
  | some (c, p) =>
    match c.closeAssigned p with
    | none => none
    | some (c, p) =>
      if c.producer.isEmpty then none
      else if c.consumer.isEmpty then none
      else
        let p := p.addService "HashRequest".toList
          [strField "protocol".toList false, strField "workflow".toList false]
        let p := p.addService "HashResponse".toList [strField "error".toList true]
        let p := p.addService "BeaconConfirmation".toList [strField "error".toList true]
        let p := p.addService "ConnectConfirmationBeacon".toList []
        some ({ c with closed := true }, p)

/-- Arm `ENext::Word` of `Config::next`, `config.rs` L279-372. The exceptions made with `prev`
(L298-306, L308-316) never apply: `prev` is the word itself (L265). -/
def Config.onWord (c : Config) (w : Name) : Option Config :=
  match c.pending with
  | .nothing =>
    if w = "Producer".toList then
      if !c.producer.isEmpty then none
      else some { c with pending := .producer, expect := [.valueDelimiter] }
    else if w = "Consumer".toList then
      if !c.consumer.isEmpty then none
      else some { c with pending := .consumer, expect := [.valueDelimiter] }
    else if w = "AssignedKey".toList then
      if c.assignedKey.isSome then none
      else some { c with pending := .assignedKey [], expect := [.valueDelimiter] }
    else if w = "SelfKey".toList then
      if c.selfKey.isSome then none
      else some { c with pending := .selfKey [], expect := [.valueDelimiter] }
    else none
  | .producer =>
    match Target.ofAlias w with
    | none => none
    | some t =>
      if c.producer.contains t then none
      else some { c with producer := c.producer ++ [t], expect := [.word, .semicolon] }
  | .consumer =>
    match Target.ofAlias w with
    | none => none
    | some t =>
      if c.consumer.contains t then none
      else some { c with consumer := c.consumer ++ [t], expect := [.word, .semicolon] }
  | .assignedKey p =>
    some { c with
      pending := .assignedKey (joinDot p w), expect := [.word, .pathDelimiter, .semicolon] }
  | .selfKey p =>
    some { c with
      pending := .selfKey (joinDot p w), expect := [.word, .pathDelimiter, .semicolon] }

/-- Arm `ENext::Semicolon` of `Config::next`, `config.rs` L399-440, with `set_self_key` and
`set_assigned_key` L112-128. -/
def Config.onSemicolon (c : Config) : Option Config :=
  match c.pending with
  | .nothing => none
  | .consumer =>
    if c.consumer.isEmpty then none else some { c with pending := .nothing, expect := [.word] }
  | .producer =>
    if c.producer.isEmpty then none else some { c with pending := .nothing, expect := [.word] }
  | .assignedKey p =>
    if c.assignedKey.isSome then none
    else some { c with assignedKey := some p, pending := .nothing, expect := [.word] }
  | .selfKey p =>
    if c.selfKey.isSome then none
    else some { c with selfKey := some p, pending := .nothing, expect := [.word] }

/-- `Config::next`, `config.rs` L261-453. The closing bracket is accepted anywhere (L441-447). -/
def Config.next (c : Config) (p : Prot.Store) : Tok → Option (Config × Prot.Store)
  | .opn => if c.expect.contains .opn then some ({ c with expect := [.word] }, p) else none
  | .word w => if c.expect.contains .word then (c.onWord w).map (fun c => (c, p)) else none
  | .pathDelimiter =>
    if c.expect.contains .pathDelimiter then some ({ c with expect := [.word] }, p) else none
  | .valueDelimiter =>
    if c.expect.contains .valueDelimiter then some ({ c with expect := [.word] }, p) else none
  | .semicolon => if c.expect.contains .semicolon then c.onSemicolon.map (fun c => (c, p)) else none
  | .cls => c.close p
  | _ => none

/-! ### The store -/

/-- `Store`, `store.rs` L4-10, without the hash. -/
structure Store where
  events : List Event
  requests : List Request
  beacons : List Broadcast
  config : Option Config
  deriving DecidableEq

/-- `Store::new`, `store.rs` L13-21. -/
def Store.new : Store := ⟨[], [], [], none⟩

/-- `set_config`, `store.rs` L27-34. -/
def Store.setConfig (s : Store) (c : Config) : Option Store :=
  if s.config.isSome then none else some { s with config := some c }

/-- `add_event`, `store.rs` L36-56. -/
def Store.addEvent (s : Store) (e : Event) : Option Store :=
  match e.reference with
  | none => none
  | some r =>
    if s.events.any (fun x => x.reference == some r) then none
    else some { s with events := s.events ++ [e] }

/-- `add_request`, `store.rs` L58-78. -/
def Store.addRequest (s : Store) (q : Request) : Option Store :=
  match q.request with
  | none => none
  | some r =>
    if s.requests.any (fun x => x.request == some r) then none
    else some { s with requests := s.requests ++ [q] }

/-- `add_beacon`, `store.rs` L80-93, over the beacons of one declaration. -/
def Store.addBeacons (s : Store) : List Broadcast → Option Store
  | [] => some s
  | b :: bs =>
    if s.beacons.any (fun x => x.reference == b.reference) then none
    else ({ s with beacons := s.beacons ++ [b] } : Store).addBeacons bs

/-- `is_request_exist`, `store.rs` L103-110, with `get_request`, `request.rs` L200-208. -/
def requestExists (req : Ref) : List Request → Option Bool
  | [] => some false
  | r :: rs =>
    match r.request with
    | none => none
    | some q => if q == req then some true else requestExists req rs

/-- `validate`, `store.rs` L112-120. -/
def Store.validate (s : Store) : Bool :=
  s.beacons.all (fun b => requestExists b.reference s.requests == some false)

end Verif.Flow
