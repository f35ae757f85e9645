import Verif.Goarg.Model
/-!
# Which Go values stand for their `dgo` values
-/
set_option autoImplicit false
namespace Verif.Goarg
open Verif.Value Verif.Reflect Verif.Types

/-- An argument that is no pointer other than a `*regexp.Regexp`, and no nil slice or nil map, except a nil slice of bytes, strings or
`int`s. -/
def Direct : Arg → Prop
  | .val _ => True
  | .go none => True
  | .go (some (.ptr .regexp (some _))) => True
  | .go (some (.ptr _ _)) => False
  | .go (some (.slice e none)) => e = .int .uint8 ∨ e = .string ∨ e = .int .int
  | .go (some (.map _ _ none)) => False
  /- not the content of an `interface{}` -/
  | .go (some (.iface _)) => False
  | .go (some (.value _ _)) => False
  | .go (some _) => True

mutual
/-- No array type, map type, tuple type or struct type is among the operands of the operators of the type. -/
def NoColl : Ty → Prop
  | .arrT | .mapT | .sizedArr .. | .tuple .. | .sizedMap .. | .struct .. => False
  | .allOf _ ts | .anyOf _ ts | .oneOf _ ts => NoColls ts
  | .not t => NoColl t
  | _ => True

def NoColls : List Ty → Prop
  | [] => True
  | t :: ts => NoColl t ∧ NoColls ts
end

/-- Neither an array nor a map -/
def Single : Val → Prop
  | .arr _ | .map _ => False
  | _ => True

end Verif.Goarg
