import Verif.Spec.Protocol
set_option autoImplicit false
/-!
How the Rust compiler resolves a path in the generated module tree: each group is a `pub mod` that
starts with `use super::*;` (`cli/src/protocol/render/rust/mod.rs` L17-19), each type is an item of
the module of its group, and a reference is printed as the path of the source text (L577,
`fields.rs` `get_full_name`). Names of the module itself win over names from a glob import. Names
from the standard prelude and from the static part of the file are left out.
-/
namespace Verif.Prot

/-- The module of group `par` (0 is the file) has an item with this name. -/
def Declares (gs : List Group) (s : Store) (par : Nat) (w : Name) : Prop :=
  (∃ id, TypeIn s par w id) ∨ ∃ g ∈ gs, g.name = w ∧ g.parent = par

/-- In the module of group `par` the path names the type `id`: the first name is looked up from the
module outwards until a module has it, the rest is followed from there. -/
inductive RustNames (gs : List Group) (s : Store) : Nat → List Name → Nat → Prop where
  | here {par id : Nat} {w : Name} {rest : List Name} :
      Declares gs s par w → Leads gs s par (w :: rest) id → RustNames gs s par (w :: rest) id
  | up {g : Group} {id : Nat} {w : Name} {rest : List Name} :
      g ∈ gs → ¬ Declares gs s g.id w → RustNames gs s g.parent (w :: rest) id →
      RustNames gs s g.id (w :: rest) id

/-- Group `i` is `par` or one of the groups around it, and not the root. -/
inductive Around (gs : List Group) : Nat → Nat → Prop where
  | self {g : Group} : g ∈ gs → Around gs g.id g.id
  | out {g : Group} {i : Nat} : g ∈ gs → Around gs i g.parent → Around gs i g.id

end Verif.Prot
