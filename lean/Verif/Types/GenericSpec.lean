import Verif.Types.SoundCases
import Verif.Types.AssignSimple
import Verif.Types.Generic
/-!
# Which types `Generic` widens
-/
set_option autoImplicit false
namespace Verif.Types
open Verif.Value

/-- Ranges of numbers that are not empty at the lower end; no case insensitive strings. -/
def rangeNode : Ty → Prop
  | .intRange _ max incl => incl = true ∨ max ≠ minI64
  | .floatRange min _ _ => Value.F64.isNaN min = false
  | .ciStr _ => False
  | _ => True

mutual
/-- Exact types, tuples, structs that allow no other keys, and `allOf` types, of each other and of types of scalars, arrays, maps and sensitive
values that contain no exact collection, tuple, struct or logical operation.  The elements of a tuple are the same or share nothing. -/
def Plain : Ty → Prop
  | .exact v => Fits v
  | .exactD _ v => Fits v ∧ NoSens v
  | .tuple _ ts var => PlainAll ts ∧ (var = true → ts ≠ []) ∧ ts.Pairwise fun t u => t = u ∨ Apart t u
  | .struct _ add fs => add = false ∧ DistinctKeys fs ∧ (∀ f ∈ fs, NoSens f.1 ∧ Fits f.1) ∧ PlainFields fs
  | .allOf _ ts => ts ≠ [] ∧ PlainAll ts
  | .allOfVal _ vs => vs ≠ [] ∧ ∀ v ∈ vs, NoSens v ∧ Fits v
  | t => Simple t ∧ Every rangeNode t

def PlainAll : List Ty → Prop
  | [] => True
  | t :: ts => Plain t ∧ PlainAll ts

def PlainFields : List (Val × Bool × Ty) → Prop
  | [] => True
  | (_, _, t) :: fs => Plain t ∧ PlainFields fs
end

/-- The types that have a `Generic` method (`dgo.GenericType`). -/
def Ty.isGenericType : Ty → Bool
  | .exact (.bin _) => false
  | .exact _ | .exactD .. | .pattern _ | .tuple .. | .struct .. | .allOf .. | .allOfVal .. => true
  | _ => false

/-- `x` is the type, a part of it, a part of a part and so on. -/
inductive Node (x : Ty) : Ty → Prop where
  | refl : Node x x
  | part {t c : Ty} (hc : c ∈ parts t) (h : Node x c) : Node x t

/-- An object that occurs in both types is the same type in both. -/
def Coherent (a b : Ty) : Prop := ∀ x y o, Node x a → Node y b → x.deep? = some o → y.deep? = some o → x = y

end Verif.Types
