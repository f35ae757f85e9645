import Verif.Types.Assign
/-!
# The types that restrict a kind of values: the words of C127
-/
set_option autoImplicit false
namespace Verif.Types
open Verif.Value

/-- Kinds of values, each with a type of its own in the language -/
inductive Kind where
  | nil | bool | int | str | regexp | time | arr | map
  deriving DecidableEq, Repr

/-- `nil`, `bool`, `int`, `string`, `regexp`, `time`, `[]any`, `map[any]any` -/
def Kind.type : Kind → Ty
  | .nil => .nilT
  | .bool => .boolT
  | .int => .intT
  | .str => .strT
  | .regexp => .regexpT
  | .time => .timeT
  | .arr => .arrT
  | .map => .mapT

/-- The types of this kind that are no combinations of types.  (Types of structs are missing, as they are in the code.) -/
def Kind.of : Kind → Ty → Bool
  | .nil, .nilT => true
  | .bool, .boolT | .bool, .exact (.bool _) => true
  | .int, .intT | .int, .exact (.int _) | .int, .intRange .. => true
  | .str, .strT | .str, .exact (.str _) | .str, .ciStr _ | .str, .sizedStr .. | .str, .pattern _ => true
  | .regexp, .regexpT | .regexp, .exact (.regexp _) => true
  | .time, .timeT | .time, .exact (.time _) => true
  | .arr, .arrT | .arr, .sizedArr .. | .arr, .tuple .. | .arr, .exactD _ (.arr _) => true
  | .map, .mapT | .map, .sizedMap .. | .map, .exactD _ (.map _) => true
  | _, _ => false

/-- Made of types with `P` alone: one of them, or a combination, at any depth, all of whose operands are. -/
inductive MadeOf (P : Ty → Bool) : Ty → Prop where
  | one {t : Ty} : P t = true → MadeOf P t
  | anyOf {o : Oid} {ts : List Ty} : ts ≠ [] → (∀ t ∈ ts, MadeOf P t) → MadeOf P (.anyOf o ts)
  | oneOf {o : Oid} {ts : List Ty} : ts ≠ [] → (∀ t ∈ ts, MadeOf P t) → MadeOf P (.oneOf o ts)
  | allOf {o : Oid} {ts : List Ty} : (∀ t ∈ ts, MadeOf P t) → MadeOf P (.allOf o ts)
  /-- the type that accepts what all of these values are equal to -/
  | allOfVal {o : Oid} {vs : List Val} : (∀ t ∈ typesOf o vs, MadeOf P t) → MadeOf P (.allOfVal o vs)

/-- The types without parts (and the types of types), but for negations, `any` (assignable from everything) and `float` (from no combination) -/
def NoParts (a : Ty) : Prop := a.deep? = none ∧ a ≠ .any ∧ a ≠ .floatT ∧ ∀ t, a ≠ .not t

/-- The types of strings with a length known to be within bounds -/
def within (lo hi : Int) : Ty → Bool
  | .exact (.str s) | .ciStr s => decide (lo ≤ len s) && decide (len s ≤ hi)
  | .sizedStr lo' hi' => decide (lo ≤ lo') && decide (hi' ≤ hi)
  | _ => false

/-- The types of binaries with a size known to be within bounds -/
def binWithin (lo hi : Int) : Ty → Bool
  | .exact (.bin b) => decide (lo ≤ len b) && decide (len b ≤ hi)
  | .bin lo' hi' => decide (lo ≤ lo') && decide (hi' ≤ hi)
  | _ => false

end Verif.Types
