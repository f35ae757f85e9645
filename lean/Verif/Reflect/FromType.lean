import Verif.Reflect.Model
import Verif.Types.Model
/-!
# The `dgo` type of a Go type

`typ.FromReflected`, that is `TypeFromReflected` in internal/type.go, for the Go types of `GT`.
-/
set_option autoImplicit false
set_option linter.unusedVariables false
namespace Verif.Reflect
open Verif.Value Verif.Types

/-- `math.MaxFloat32` as a float64 -/
def maxF32 : F64 := 0x47efffffe0000000
/-- `-math.MaxFloat32` as a float64 -/
def minF32 : F64 := 0xc7efffffe0000000

/-- The integer types in `primitivePTypes`: internal/type.go:112-127. -/
def intTypeOf : IK → Option Ty
  | .int => some .intT
  | .int8 => integerType (BitVec.ofInt 64 (-128)) 127 true
  | .int16 => integerType (BitVec.ofInt 64 (-32768)) 32767 true
  | .int32 => integerType (BitVec.ofInt 64 (-2147483648)) 2147483647 true
  | .int64 => some .intT
  | .uint => integerType 0 maxI64 true
  | .uint8 => integerType 0 255 true
  | .uint16 => integerType 0 65535 true
  | .uint32 => integerType 0 4294967295 true
  | .uint64 => integerType 0 maxI64 true

/-- The native type of a Go type, `&nativeType{vt}`.  Its `Instance` (native.go:61-69) answers no to each `dgo.Value` that is not a
`dgo.Native`, and no value of the model is one.  So here it is the type that has no instances. -/
def nativeTy : Ty := .not .any

/-- `TypeFromReflected`: internal/type.go:26-54, with `wellKnownTypes` (value.go:167-170) and `primitivePTypes` (type.go:112-127).  `o` is
where the objects of the new types come from.  A Go array is not modelled, nor are functions and `error`. -/
def typeFromReflected (o : Oid) : GT → Option Ty
  | .ptr .regexp => some .regexpT
  | .time => some .timeT
  | .slice e => (typeFromReflected (.part o 0) e).bind fun t => newArrayType o t 0 maxInt
  | .map k v =>
    (typeFromReflected (.part o 0) k).bind fun a => (typeFromReflected (.part o 1) v).map fun b => newMapType o a b 0 maxInt
  | .ptr e => (typeFromReflected (.part o 0) e).map fun t => oneOfType o [t, .nilT]
  | .iface => some .any
  | .value _ => some nativeTy
  | .regexp => some nativeTy
  | .string => some .strT
  | .bool => some .boolT
  | .float64 => some .floatT
  | .float32 => floatType minF32 maxF32 true
  | .int k => intTypeOf k

end Verif.Reflect
