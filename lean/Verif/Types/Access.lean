import Verif.Types.Assign
/-!
# What types say about themselves: `Min`, `Max`, `Unbounded`, `Inclusive`, `ElementType`, `KeyType` and `ValueType`
-/
set_option autoImplicit false
namespace Verif.Types
open Verif.Value

/-- `Unbounded` of array and map types: internal/array.go:182-184, 279-281, 343-345 and 658-660, map.go:1139-1141, 1203-1205 and 1303-1305,
mapstruct.go:353-355. -/
def Ty.unbounded : Ty → Bool
  | .arrT | .mapT => true
  | .sizedArr _ _ lo hi | .sizedMap _ _ _ lo hi => lo == 0 && hi == maxInt
  | .tuple _ _ variadic => variadic
  | .struct _ additional fs => additional && len (fs.filter (·.2.1)) == 0
  | _ => false

/-- `Min`, `Max` and `Unbounded` of types that implement `dgo.SizedType`: for strings internal/string.go:224-230, 252-254 (`defaultStringType`),
260-266, 280-282 (`exactStringType`, which `ciStringType` embeds), 402-408, 434-436 (`patternType`), 506-512, 534-536 (`sizedStringType`); for
binaries binary.go:116-122, 146-148, 154-160 and 174-176; for arrays and maps see `Ty.arrayType?`, `Ty.mapType?` and `Ty.unbounded`. -/
def Ty.size? (E : Env) (t : Ty) : Option (Int × Int × Bool) :=
  match t with
  | .strT | .pattern _ => some (0, maxInt, true)
  | .exact (.str s) | .ciStr s => some (len s, len s, false)
  | .exact (.bin b) => some (len b, len b, false)
  | .sizedStr lo hi | .bin lo hi => some (lo, hi, lo == 0 && hi == maxInt)
  | t =>
    match t.arrayType? E Ty.equals, t.mapType? with
    | some (lo, hi, _), _ => some (lo, hi, t.unbounded)
    | none, some (lo, hi, _) => some (lo, hi, t.unbounded)
    | none, none => none

/-- `ElementType`: see `Ty.arrayType?`; the fuel is enough for the comparison of two parts of the type. -/
def Ty.elementType (E : Env) (t : Ty) : Option Ty := (t.arrayType? E (tyEq (2 * t.depth + 1) [])).map (·.2.2)
/-- `KeyType`: see `Ty.mapType?` -/
def Ty.keyType (t : Ty) : Option Ty := t.mapType?.map (·.2.2.1)
/-- `ValueType`: see `Ty.mapType?` -/
def Ty.valueType (t : Ty) : Option Ty := t.mapType?.map (·.2.2.2)

/-- `Min`, `Max` and `Inclusive` of integer types: internal/integer.go:129-139, 165-179 and 222-236. -/
def Ty.intBounds : Ty → Option (BitVec 64 × BitVec 64 × Bool)
  | .intT => some (minI64, maxI64, true)
  | .intRange min max inclusive => some (min, max, inclusive)
  | .exact (.int i) => some (i, i, true)
  | _ => none

/-- `Min`, `Max` and `Inclusive` of float types: internal/float.go:109-119, 145-159 and 194-213. -/
def Ty.floatBounds : Ty → Option (F64 × F64 × Bool)
  | .floatT => some (F64.min, F64.max, true)
  | .floatRange min max inclusive => some (min, max, inclusive)
  | .exact (.float f) => some (f, f, true)
  | _ => none

end Verif.Types
