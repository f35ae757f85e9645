import Verif.Types.Assign
import Verif.Types.Rec
/-!
# Types that contain themselves: Assignable

Types as objects with addresses, as in Types/Rec.lean, with what `Assignable` looks at.  Among them are the built-in types `data` and `richdata`
(internal/alias.go:118-147).

Simplifications, for the whole file:
* a type that mentions no type and does not implement `dgo.DeepAssignable` is a `leaf`, and is as in Types/Assign.lean; it is meant to be one
  without parts.
* modelled besides are sized arrays and maps, unions and `sensitive`.  Tuples, struct types, exact types of arrays and maps, `allOf`, `oneOf`,
  `not`, function types and named types are not modelled here (they are in Types/Assign.lean, for types that do not contain themselves).
* recursion depth is bounded by fuel; `none` means that it does not suffice.  (In Go: stack overflow.)
-/
set_option autoImplicit false
namespace Verif.RecAsg
open Verif.Value
open Verif.Types (Ty Env leafCase allO maxInt)
open Verif.Types.Rec (Guard G Check allG anyG andG)

inductive Node where
  | leaf (t : Ty)
  /-- `sizedArrayType`, internal/array.go:24-28 -/
  | arr (elem : Nat) (min max : Int)
  /-- `sizedMapType`, internal/map.go -/
  | map (key value : Nat) (min max : Int)
  /-- `anyOfType`, internal/ternary.go:14 -/
  | anyOf (types : List Nat)
  /-- `sensitiveType`, internal/sensitive.go:14-16 -/
  | sens (wrapped : Nat)

abbrev Types := List Node

/-- Does the type implement `dgo.DeepAssignable`? -/
def Node.isDeep : Node → Bool
  | .leaf _ => false
  | _ => true

/-- The receiver of `Swap` seen from the other side: internal/compare.go:43-45. -/
def swap (s : Guard) : Guard := ⟨s.bSeen, s.aSeen, s.seenInB, s.seenInA⟩

/-- What the `Assignable` methods of types without parts see of another type: its kind. -/
def Node.shape : Node → Ty
  | .leaf t => t
  | .arr .. => .sizedArr (.user 0) .any 0 0
  | .map .. => .sizedMap (.user 0) .any .any 0 0
  | .anyOf _ => .anyOf (.user 0) []
  | .sens _ => .sens (.user 0) .any

/-- What stands on the right: a type with an address, or `none`, the `DefaultAnyType` that `defaultMapType` gives as its key type and value type
(map.go:1167-1169 and 1199-1201). -/
def node? (T : Types) : Option Nat → Option Node
  | none => some (.leaf .any)
  | some b => T[b]?

/-- The `Assignable` methods that take no guard (see `leafCase` in Types/Assign.lean); `rec` is `Assignable(nil, a, _)`, for the operands of a
union (ternary.go:284-293). -/
def leafAsg (E : Env) (rec : Nat → Option Bool) (s : Ty) (y : Node) : Option Bool :=
  match leafCase E Ty.equals s y.shape with
  | some r => some r
  | none =>
    match y with
    | .anyOf us => (allO rec us).map fun r => r && !us.isEmpty
    | _ => some false

/-- `CheckAssignableTo(guard, b, a)`: internal/type.go:15-23, with ternary.go:284-293.  The swapped guard is a new object. -/
def checkTo (rec : G → Option Nat → Check) (g : G) (y : Node) : Check :=
  match y with
  | .anyOf us => (allG (fun g u => rec g (some u)) (g.map swap) us).map fun r => (r.1 && !us.isEmpty, g)
  | _ => some (false, g)

/-- The `DeepAssignable` methods: array.go:190-198 (the guard is not passed on), map.go:1027-1033, ternary.go:269-282, sensitive.go:41-46.
`rec` is `Assignable`; the type at `a` is `x`, the other one is `y`, at `b`. -/
def deepAsg (rec : G → Nat → Option Nat → Check) (g : G) (a : Nat) (b : Option Nat) (x y : Node) : Check :=
  match x with
  | .leaf _ => some (false, g)
  | .arr e lo hi =>
    match y with
    | .arr e' lo' hi' => if lo ≤ lo' ∧ hi' ≤ hi then (rec none e (some e')).map fun r => (r.1, g) else some (false, g)
    | y => checkTo (fun g b => rec g a b) g y
  | .map k v lo hi =>
    match y with
    | .map k' v' lo' hi' => if lo ≤ lo' ∧ hi' ≤ hi then andG (rec g k (some k')) fun g => rec g v (some v') else some (false, g)
    | .leaf .mapT => if lo ≤ 0 ∧ maxInt ≤ hi then andG (rec g k none) fun g => rec g v none else some (false, g)
    | y => checkTo (fun g b => rec g a b) g y
  | .anyOf ts =>
    if ts.isEmpty then
      match y with
      | .anyOf _ => some (true, g)
      | _ => some (false, g)
    else
      match anyG (fun g t => rec g t b) g ts with
      | none => none
      | some (true, g) => some (true, g)
      | some (false, g) => checkTo (fun g b => rec g a b) g y
  | .sens t =>
    match y with
    | .sens u => rec g t (some u)
    | y => checkTo (fun g b => rec g a b) g y

/-- `Assignable`: internal/compare.go:52-74.  (A method `t.Assignable(other)` of a type that implements `dgo.DeepAssignable` is
`Assignable(nil, t, other)`; one of a leaf differs in not comparing the addresses first.) -/
def asg (E : Env) (T : Types) : Nat → G → Nat → Option Nat → Check
  | 0, _, _, _ => none
  | n + 1, g, a, b =>
    if b = some a then some (true, g)
    else
      match T[a]?, node? T b with
      | some (.leaf s), some y => (leafAsg E (fun u => (asg E T n none a (some u)).map (·.1)) s y).map fun r => (r, g)
      | some x, some y =>
        match b with
        | none => deepAsg (asg E T n) g a b x y
        | some b' =>
          if y.isDeep then
            match g with
            | none => (deepAsg (asg E T n) (some ⟨[a], [b'], false, false⟩) a b x y).map fun r => (r.1, none)
            | some s =>
              if (s.mark a b').hit then some (true, some (s.mark a b'))
              else (deepAsg (asg E T n) (some ((s.mark a b').extend a b')) a b x y).map fun r => (r.1, some (s.mark a b'))
          else deepAsg (asg E T n) g a b x y
      | _, _ => none

/-- `a.Assignable(b)`, with depth of recursion at most `n` -/
def assignable? (E : Env) (T : Types) (n : Nat) (a b : Nat) : Option Bool := (asg E T n none a (some b)).map (·.1)

end Verif.RecAsg
