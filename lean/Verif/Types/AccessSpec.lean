import Verif.Types.StructLemmas
/-!
# What the accessors of types are about
-/
set_option autoImplicit false
namespace Verif.Types
open Verif.Value

/-- The size of a value, as its Go length -/
def sizeOf? : Val → Option Int
  | .str s => some s.length
  | .bin b => some b.length
  | .arr vs => some vs.length
  | .map es => some es.length
  | _ => none

/-- A struct type has no key twice, and a variadic tuple type has an element type. -/
def Sane : Ty → Prop
  | .struct _ _ fs => DistinctKeys fs
  | .tuple _ ts var => var = true → ts ≠ []
  | _ => True

/-- The operands of an `allOf` type; any other type by itself -/
def anyOperand : Ty → List Ty
  | .allOf _ ts => ts
  | .allOfVal o vs => typesOf o vs
  | t => [t]

end Verif.Types
