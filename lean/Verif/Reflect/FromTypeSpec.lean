import Verif.Reflect.Spec
import Verif.Reflect.FromType
/-!
# What the `dgo` type of a Go type should say about the variables of the type
-/
set_option autoImplicit false
set_option linter.unusedVariables false
namespace Verif.Reflect
open Verif.Value Verif.Types

/-- A Go type in which no pointer points to a pointer or an `interface{}`, and in which the keys of maps can be compared (without which there
is no map type in Go). -/
def Direct : GT → Prop
  | .slice e => Direct e
  | .map k v => k.comparable = true ∧ Direct k ∧ Direct v
  | .ptr e => (∀ u, e ≠ .ptr u) ∧ e ≠ .iface ∧ Direct e
  | _ => True

/-- A Go type with no `float32`, no `[]byte`, no pointer to a time in it -/
def Exact : GT → Prop
  | .float32 => False
  | .slice e => e ≠ .int .uint8 ∧ Exact e
  | .map k v => Exact k ∧ Exact v
  | .ptr e => e ≠ .time ∧ Exact e
  | _ => True

/-- There is no `interface{}` in the type. -/
def NoIface : GT → Prop
  | .iface => False
  | .slice e => NoIface e
  | .map k v => NoIface k ∧ NoIface v
  | .ptr e => NoIface e
  | _ => True

/-- Is the value read as `nil`? -/
def IsNil : GV → Bool
  | .slice _ none | .map _ _ none | .ptr _ none | .iface none | .value _ none | .value _ (some .nil) => true
  | .ptr _ (some g) => IsNil g
  | .iface (some g) => IsNil g
  | _ => false

/-- The types of Go variables whose `dgo` type has `nil` as an instance: the `interface{}`, and the pointers, but not those to a regexp and
not those to a type that already has `nil`. -/
def TakesNil : GT → Bool
  | .iface => true
  | .ptr e => e != .regexp && !TakesNil e
  | _ => false

mutual
/-- What is read from the variable is of the `dgo` type of the variable. -/
def Described (E : Env) : GV → Prop
  | .int k n => k.signed ∨ n ≤ 2 ^ 63 - 1
  | .float32 f => F64.le minF32 (E.widen f) = true ∧ F64.le (E.widen f) maxF32 = true
  | .slice _ none | .map _ _ none => False
  | .slice e (some gs) => e ≠ .int .uint8 ∧ DescribedAll E gs
  | .map _ v (some es) => DescribedEntries E v es
  | .ptr e none => TakesNil (.ptr e) = true
  | .ptr e (some g) => e = .regexp ∨ if IsNil g then TakesNil (.ptr e) = true else Described E g
  | .value .. | .regexp _ => False
  | _ => True

def DescribedAll (E : Env) : List GV → Prop
  | [] => True
  | g :: gs => Described E g ∧ DescribedAll E gs

/-- `t`: the type of the values of the map; the value of a key that is not a number is not found. -/
def DescribedEntries (E : Env) (t : GT) : List (GV × GV) → Prop
  | [] => True
  | (k, v) :: es => Described E k ∧ (if nanKey E k then TakesNil t = true else Described E v) ∧ DescribedEntries E t es
end

/-- The range of the `dgo` type of an integer type -/
def lowOf (k : IK) : Int := k.min
def highOf (k : IK) : Int := if k.signed then k.max else min k.max (2 ^ 63 - 1)

/-- Which values the type has -/
def Accepts : GT → Val → Prop
  | .ptr .regexp, v => ∃ s, v = .regexp s
  | .time, v => ∃ n, v = .time n
  | .slice e, v => ∃ vs, v = .arr vs ∧ ∀ x ∈ vs, Accepts e x
  | .map k w, v => ∃ es, v = .map es ∧ ∀ e ∈ es, Accepts k e.1 ∧ Accepts w e.2
  | .ptr e, v => ¬ (Accepts e v ↔ v = .nil)
  | .iface, _ => True
  | .value _, _ => False
  | .regexp, _ => False
  | .string, v => ∃ s, v = .str s
  | .bool, v => ∃ b, v = .bool b
  | .float64, v => ∃ f, v = .float f
  | .float32, v => ∃ f, v = .float f ∧ F64.le minF32 f = true ∧ F64.le f maxF32 = true
  | .int k, v => ∃ i, v = .int i ∧ lowOf k ≤ i.toInt ∧ i.toInt ≤ highOf k

end Verif.Reflect
