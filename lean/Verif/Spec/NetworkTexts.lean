import Verif.Spec.SystemTexts
import Verif.Spec.NetworkCodec
import Verif.Model.TsNamed
import Verif.Spec.TsCodec
set_option autoImplicit false
/-!
Vocabulary for the way from the texts of a protocol and a workflow to programs in TypeScript.
-/
namespace Verif.Network

open Verif Verif.Spec

/-- `cd` is what generated code of both languages makes of the protocol: that of Rust, and declarations with
the names that TypeScript code uses for fields and options. -/
structure CodecOf (pr : Prot.Store) (signature : UInt16) (cd : Codec) : Prop where
  rust : System.CodecOf pr signature cd.codec
  enums : Prot.mapAll pr.namedEnum pr.enums = some cd.enums
  structs : Prot.mapAll pr.namedStruct pr.structs = some cd.structs

/-- Declarations have different full names, and options of an enum have different names. (Fields always have:
C25.) -/
structure NamesApart (pr : Prot.Store) : Prop where
  decls : (pr.structs.map (fun t => Flow.Syntax.dotted (t.path ++ [t.name])) ++
    pr.enums.map (fun t => Flow.Syntax.dotted (t.path ++ [t.name]))).Nodup
  options : ∀ e ∈ pr.enums, (e.variants.map Prot.EnumItem.name).Nodup

/-- Texts of service messages are shorter than 2^60 bytes and do not start with U+FEFF, which TypeScript
would drop (C56). -/
structure Plain (cd : System.Codec) : Prop extends System.Short cd where
  hashBom : NoBom cd.hashes.1 ∧ NoBom cd.hashes.2
  uuidBom : ∀ u, NoBom (cd.uuid u)

end Verif.Network
