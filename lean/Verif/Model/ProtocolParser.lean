import Verif.Model.ProtocolStore
set_option autoImplicit false
/-!
Model of the protocol parser, `cli/src/protocol/parser.rs`.

Texts are lists of characters. All characters before an offset are ASCII (others are refused,
L327-332), so byte offsets and character counts agree and `&content[offset..]` (L288) never cuts a
character.
-/
namespace Verif.Prot

open Verif

/-- `ENext`, `parser.rs` L21-31, without the offset. -/
inductive Tok where
  | word (w : Name) (next : Option Char)
  | openStruct
  | closeStruct
  | semicolon
  | repeated
  | optional
  | pathSpliter
  | eof
  deriving DecidableEq

/-- `break_chars`, `parser.rs` L316-322. -/
def isBreak (c : Char) : Bool := c == ';' || c == '{' || c == '}' || c == '?' || c == '.'

/-- `char::is_ascii_whitespace`: space, tab, line feed, form feed, carriage return. -/
def isSpace (c : Char) : Bool :=
  c == ' ' || c == '\t' || c == '\n' || c == '\x0c' || c == '\r'

/-- `char::is_ascii_digit`. -/
def isDigit (c : Char) : Bool := decide ('0' ≤ c ∧ c ≤ '9')

/-- `char::is_ascii_alphanumeric`. -/
def isAlnum (c : Char) : Bool :=
  isDigit c || decide ('a' ≤ c ∧ c ≤ 'z') || decide ('A' ≤ c ∧ c ≤ 'Z')

/-- The loop of `next`, `parser.rs` L325-393. `str` is the word read so far, `pass` the number of
characters seen. `none` is an error (`ENextErr`, kinds not kept); `some` the token and the offset
at which to go on. -/
def lexLoop (str : Name) (pass : Nat) : List Char → Option (Tok × Nat)
  | [] => if str.isEmpty then some (.eof, pass) else some (.word str none, pass - 1)
  | c :: rest =>
    let pass := pass + 1
    if ¬ c.toNat < 128 then none
    else if isDigit c && str.isEmpty then none
    else if isSpace c && str.isEmpty then lexLoop str pass rest
    else if isBreak c && str.isEmpty then
      if c == ';' then some (.semicolon, pass)
      else if c == '{' then some (.openStruct, pass)
      else if c == '}' then some (.closeStruct, pass)
      else if c == '?' then some (.optional, pass)
      else some (.pathSpliter, pass)
    else if c == '[' && str.isEmpty then lexLoop str pass rest
    else if c == ']' then
      (if str.head?.any (fun d => d != '[') then none else some (.repeated, pass))
    else if isSpace c then some (.word str none, pass - 1)
    else if isBreak c || c == '[' then some (.word str (some c), pass - 1)
    else if !isAlnum c && c != '_' then none
    else lexLoop (str ++ [c]) pass rest

/-- `next`, `parser.rs` L313-394. -/
def lex (content : List Char) : Option (Tok × Nat) := lexLoop [] 0 content

/-- `EExpectation`, `parser.rs` L39-56. -/
inductive Expect where
  | groupDef
  | groupName
  | structDef
  | enumDef
  | enumValue
  | fieldType
  | fieldName
  | fieldRepeatedMark
  | fieldOptionalMark
  | structName
  | enumName
  | entityOpen
  | entityClose
  | semicolon
  | pathSpliter
  deriving DecidableEq

/-- `Entities::get_entity`, `entities.rs` L22-29. -/
inductive Entity where
  | group
  | struct
  | enum
  deriving DecidableEq

/-- `Entities::get_entity`, `entities.rs` L22-29. -/
def entity (w : Name) : Option Entity :=
  if w = ['g', 'r', 'o', 'u', 'p'] then some .group
  else if w = ['s', 't', 'r', 'u', 'c', 't'] then some .struct
  else if w = ['e', 'n', 'u', 'm'] then some .enum
  else none

/-- What the loop of `parse` keeps: expectation, store, and whether errors were collected. -/
structure PState where
  expect : List Expect
  store : Store
  errs : Bool
  deriving DecidableEq

/-- How `parse` ends: `Ok(store)`, `Err(..)`, `stop!`, or a panic. -/
inductive Outcome where
  | accepted (s : Store)
  | rejected
  | stopped
  | panicked
  deriving DecidableEq

/-- One round: go on or end. -/
inductive Next (α : Type) where
  | go (a : α)
  | halt (o : Outcome)

/-- Continue after a store operation. -/
def after (r : Res Store) (e : List Expect) (errs : Bool) : Next PState :=
  match r with
  | .ok s => .go ⟨e, s, errs⟩
  | .err => .halt .stopped
  | .panic => .halt .panicked

/-- Arm `ENext::Word`, `parser.rs` L88-186. Lines 130-136 have no effect: the expectation is a
name by then. -/
def onWord (p : PState) (w : Name) (next : Option Char) : Next PState :=
  if (entity w).isSome && (p.expect.contains .groupDef || p.expect.contains .structDef
      || p.expect.contains .enumDef) then
    match entity w with
    | some .group =>
      if p.expect.contains .groupDef then .go ⟨[.groupName], p.store, p.errs⟩ else .halt .stopped
    | some .struct =>
      if p.expect.contains .structDef then .go ⟨[.structName], p.store, p.errs⟩
      else .halt .stopped
    | some .enum =>
      if p.expect.contains .enumDef then .go ⟨[.enumName], p.store, p.errs⟩ else .halt .stopped
    | none => .halt .stopped
  else if p.expect.contains .structName then after (p.store.openStruct w) [.entityOpen] p.errs
  else if p.expect.contains .enumName then after (p.store.openEnum w) [.entityOpen] p.errs
  else if p.expect.contains .groupName then after (p.store.openGroup w) [.entityOpen] p.errs
  else if p.expect.contains .fieldName then
    if p.store.cEnum.isSome then after (p.store.setEnumName w) [.semicolon] p.errs
    else after (p.store.setFieldName w) [.semicolon, .fieldOptionalMark] p.errs
  else if p.expect.contains .fieldType then
    if p.store.cEnum.isSome then
      if next = some ';' then after (p.store.setSimple w) [.semicolon] p.errs
      else after (p.store.setEnumType w) [.fieldName, .fieldRepeatedMark, .pathSpliter] p.errs
    else after (p.store.setFieldType w) [.fieldName, .fieldRepeatedMark, .pathSpliter] p.errs
  else .halt .rejected

/-- The match over tokens in `parse`, `parser.rs` L87-287. -/
def onTok (p : PState) : Tok → Next PState
  | .word w next => onWord p w next
  | .openStruct =>
    if p.expect.contains .entityOpen then
      after p.store.openBody
        [.fieldType, .groupDef, .structDef, .enumDef, .enumValue, .entityClose] p.errs
    else .halt .rejected
  | .closeStruct =>
    if p.expect.contains .entityClose then
      after p.store.close [.fieldType, .groupDef, .structDef, .enumDef, .entityClose] p.errs
    else .halt .rejected
  | .semicolon =>
    if p.expect.contains .semicolon then
      after (if p.store.cEnum.isSome then .ok p.store else p.store.closeField)
        [.fieldType, .structDef, .enumDef, .enumValue, .entityClose] p.errs
    else .halt .rejected
  | .repeated =>
    if p.expect.contains .fieldRepeatedMark then after p.store.setRepeated [.fieldName] p.errs
    else .halt .rejected
  | .optional =>
    if p.expect.contains .fieldOptionalMark then after p.store.setOptional [.semicolon] p.errs
    else .halt .rejected
  | .pathSpliter =>
    if p.expect.contains .pathSpliter then
      .go ⟨[.fieldType], p.store,
        p.errs || (p.store.cField.isNone && p.store.cEnum.isNone)⟩
    else .halt .rejected
  | .eof => .halt (if p.errs then .rejected else .accepted p.store)

/-- One round of the loop of `parse`, `parser.rs` L83-302: next token, its arm, and the rest of
the text. `order()` (L304) never fails and changes nothing (`store.rs` L407-415). -/
def step (p : PState) (content : List Char) : Next (PState × List Char) :=
  match lex content with
  | none => .halt .rejected
  | some (t, offset) =>
    match onTok p t with
    | .go p2 => .go (p2, content.drop offset)
    | .halt o => .halt o

/-- At most `n` rounds. `none`: not finished. -/
def loop : Nat → PState → List Char → Option Outcome
  | 0, _, _ => none
  | n + 1, p, content =>
    match step p content with
    | .go (p2, c2) => loop n p2 c2
    | .halt o => some o

/-- The state at the start, `parser.rs` L76-82. -/
def PState.init : PState := ⟨[.structDef, .groupDef, .enumDef], Store.new, false⟩

/-- `parse` of a text ends with this outcome. -/
def Parses (text : List Char) (o : Outcome) : Prop := ∃ n, loop n PState.init text = some o

end Verif.Prot
