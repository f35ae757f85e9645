import Verif.Reflect.Spec
import Verif.Reflect.OfType
import Verif.Types.StructLemmas
/-!
# Types all of whose instances have a place in a Go variable
-/
set_option autoImplicit false
set_option linter.unusedVariables false
namespace Verif.Reflect
open Verif.Value Verif.Types

mutual
/-- No struct type in the type allows entries that it does not declare, or declares a key twice; element types of a tuple that are equal accept
the same values (see C58); and `allOf`, `anyOf` and `oneOf` have operands. -/
def Closed (E : Types.Env) : Ty → Prop
  | .sizedArr _ e _ _ => Closed E e
  | .tuple _ ts _ => (∀ a ∈ ts, ∀ b ∈ ts, a.equals b = true → ∀ v, WF v → instanceOf E a v = instanceOf E b v) ∧ ClosedAll E ts
  | .sizedMap _ k v _ _ => Closed E k ∧ Closed E v
  | .struct _ additional fs => (additional = true → fs = []) ∧ DistinctKeys fs ∧ ClosedFields E fs
  | .allOf _ ts | .anyOf _ ts | .oneOf _ ts => ts ≠ [] ∧ ClosedAll E ts
  | .allOfVal _ vs => vs ≠ []
  | _ => True

def ClosedAll (E : Types.Env) : List Ty → Prop
  | [] => True
  | t :: ts => Closed E t ∧ ClosedAll E ts

def ClosedFields (E : Types.Env) : List (Val × Bool × Ty) → Prop
  | [] => True
  | (_, _, t) :: fs => Closed E t ∧ ClosedFields E fs
end

/-- Go types without `[]byte` and without the types of `dgo` -/
def Spoken : GT → Prop
  | .value _ => False
  | .slice e => e ≠ .int .uint8 ∧ Spoken e
  | .map k v => Spoken k ∧ Spoken v
  | .ptr e => Spoken e
  | _ => True

mutual
/-- The keys of map types are scalars that Go can compare: no arrays, maps or binaries. -/
def KeysPlain : Ty → Prop
  | .sizedArr _ e _ _ => KeysPlain e
  | .tuple _ ts _ => KeysPlainAll ts
  | .sizedMap _ k v _ _ => PlainKey k ∧ KeysPlain v
  | .struct _ _ fs => KeysPlainFields fs
  | .allOf _ ts | .anyOf _ ts | .oneOf _ ts => ts ≠ [] ∧ KeysPlainAll ts
  | .allOfVal _ vs => vs ≠ [] ∧ ∀ v ∈ vs, SimpleKeys v
  | .exact v | .exactD _ v => SimpleKeys v
  | _ => True

def KeysPlainAll : List Ty → Prop
  | [] => True
  | t :: ts => KeysPlain t ∧ KeysPlainAll ts

def KeysPlainFields : List (Val × Bool × Ty) → Prop
  | [] => True
  | (k, _, t) :: fs => Simple k ∧ KeysPlain t ∧ KeysPlainFields fs

/-- A type whose instances are neither arrays, maps nor binaries, or that does not say which they are. -/
def PlainKey : Ty → Prop
  | .arrT | .mapT | .bin .. | .sizedArr .. | .tuple .. | .sizedMap .. | .struct .. => False
  | .exact v | .exactD _ v => Simple v
  | .allOf _ ts | .anyOf _ ts | .oneOf _ ts => ts ≠ [] ∧ PlainKeys ts
  | .allOfVal _ vs => vs ≠ [] ∧ ∀ v ∈ vs, Simple v
  | _ => True

def PlainKeys : List Ty → Prop
  | [] => True
  | t :: ts => PlainKey t ∧ PlainKeys ts
end

end Verif.Reflect
