import Verif.Types.Assign
/-!
# Generic types: `Generic(t)`

Simplification: `Generic` of an `allOf` type without operands is Go's nil (`none`).  Where such a type is a part of the type at hand, the
code may go on with the nil; the model gives `none` for the whole.
-/
set_option autoImplicit false
namespace Verif.Types
open Verif.Value

/-- `commonGeneric`: internal/ternary.go:482-501, given the generic types; of no types, Go's `nil`. -/
def commonGen (E : Env) : List Ty → Option Ty
  | [] => none
  | t :: ts => some (if ts.all (assignable E t) then t else .any)

/-- `Unique` on the element types of a tuple (internal/array.go:493, 1384-1412), keeping what goes with each type; `u` are the types kept. -/
def uniqueOf (E : Env) (u : List Ty) : List (Ty × Ty) → List Ty
  | [] => []
  | (t, b) :: r => if u.any fun x => E.slot t x && t.equals x then uniqueOf E u r else b :: uniqueOf E (t :: u) r

mutual
/-- `Generic`: internal/type.go:74-83 and the `Generic` methods: those of the exact types (see `genericOf`), `tupleType` (array.go:532-534,
with `tupleElementType` 486-500), `structType` (mapstruct.go:231-233, with `KeyType` 285-294 and `ValueType` 443-452), `patternType`
(string.go:380-382), `allOfType` and `allOfValueType` (ternary.go:90-92, 180-182).  The other types have no such method and are returned
as they are. -/
def generic (E : Env) (o : Oid) : Ty → Option Ty
  | .exact v => some (genericOf o v)
  | .exactD _ v => some (genericOf o v)
  | .pattern _ => some .strT
  | .tuple _ ts _ =>
    match generics E o ts with
    | none => none
    | some gs =>
      match ts with
      | [] => newArrayType o .any 0 maxInt
      | _ => (commonGen E (uniqueOf E [] (ts.zip gs))).bind fun e => newArrayType o e 0 maxInt
  | .struct _ _ fs =>
    match genericFields E (.part o 1) fs with
    | none => none
    | some gs =>
      match fs with
      | [] => some (newMapType o .any .any 0 maxInt)
      | _ => (commonGen E (genericsOf (.part o 0) (fs.map (·.1)))).bind fun k => (commonGen E gs).map fun v => newMapType o k v 0 maxInt
  | .allOf _ ts => (generics E o ts).bind (commonGen E)
  | .allOfVal _ vs => commonGen E (genericsOf o vs)
  | t => some t

def generics (E : Env) (o : Oid) : List Ty → Option (List Ty)
  | [] => some []
  | t :: ts =>
    match generic E (.part o ts.length) t, generics E o ts with
    | some g, some gs => some (g :: gs)
    | _, _ => none

def genericFields (E : Env) (o : Oid) : List (Val × Bool × Ty) → Option (List Ty)
  | [] => some []
  | (_, _, t) :: fs =>
    match generic E (.part o fs.length) t, genericFields E o fs with
    | some g, some gs => some (g :: gs)
    | _, _ => none
end

end Verif.Types
