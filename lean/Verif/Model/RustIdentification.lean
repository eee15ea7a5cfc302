import Verif.Model.RustServer
set_option autoImplicit false
/-!
Identification and filters of a generated Rust server:
`cli/src/workflow/render/producer/rust/render_identification.rs` (cited by line only).
-/
namespace Verif.Server

open Verif

/-! ### Updating keys -/

/-- The content of a field of a generated struct: an `Option` for optional fields. `V` stands for all
types of contents. -/
inductive FieldVal (V : Type) where
  | plain (v : V)
  | opt (v : Option V)

/-- A value of a generated struct. -/
abbrev Record (V : Type) := List (Prot.Name × FieldVal V)

/-- A generated statement: `existing.f = key.f` (L162) or
`if let Some(f) = key.f { existing.f = Some(f); }` (L159-161). -/
inductive Stmt where
  | copy (field : Prot.Name)
  | copySome (field : Prot.Name)

/-- `self_key_overwrite` and `assign_key_overwrite`, L201-247: one statement per field. -/
def overwriteStmts (fields : List Prot.Field) : List Stmt :=
  fields.map (fun f => if f.optional then .copySome f.name else .copy f.name)

/-- `existing.f = v`. -/
def Record.put {V : Type} (r : Record V) (f : Prot.Name) (v : FieldVal V) : Record V :=
  r.map (fun p => if p.1 = f then (f, v) else p)

/-- Run a statement. Statements that would not compile (no such field) do nothing. -/
def Stmt.run {V : Type} (key existing : Record V) : Stmt → Record V
  | .copy f =>
    match key.lookup f with
    | some v => existing.put f v
    | none => existing
  | .copySome f =>
    match key.lookup f with
    | some (.opt (some v)) => existing.put f (.opt (some v))
    | _ => existing

/-- The body of the `else` branch of `key` and `assign`, L116-118 and L124-126. -/
def mergeRecords {V : Type} (fields : List Prot.Field) (existing key : Record V) : Record V :=
  (overwriteStmts fields).foldl (fun e st => st.run key e) existing

/-! ### Filters -/

variable {P : Type}

/-- `Filter::all`, L43-45. The order of `keys()` is unspecified; the model uses the order of the
list. -/
def filterAll (s : State P) : List Uuid := s.consumers.map Prod.fst

/-- `Filter::except`, L35-41. -/
def filterExcept (s : State P) (u : Uuid) : List Uuid := (s.consumers.map Prod.fst).filter (· ≠ u)

/-- `Filter::exclude`, L27-33. -/
def filterExclude (s : State P) (us : List Uuid) : List Uuid :=
  (s.consumers.map Prod.fst).filter (fun v => !us.any (fun t => t = v))

/-- `Filter::filter`, L47-56. The callback sees the identification, which is a part of the record; a
consumer is stored under its own uuid (`render_mod.rs` L273-274). -/
def filterBy (s : State P) (cb : Uuid → Consumer P → Bool) : List Uuid :=
  (s.consumers.filter (fun p => cb p.1 p.2)).map Prod.fst

end Verif.Server
