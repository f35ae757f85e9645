import Verif.Types.Model
/-!
# The constructors of types with any number of arguments

`tf.String`, `tf.Binary`, `tf.Array`, `tf.Map`, `tf.Enum`, `tf.CiEnum`, `tf.IntEnum` and `tf.CiString`.

Simplification, for the whole file: the arguments have been made values (`Value(args[n])`: internal/value.go:19-38); a value that is not in
`Val` (a function, say) is refused as one in it that is neither an integer nor a string.
-/
set_option autoImplicit false
namespace Verif.Types
open Verif.Value

/-- An argument: a type, or another value -/
inductive CArg where
  | ty (t : Ty)
  | val (v : Val)

/-- The errors of internal/type.go:85-92 and 94-110: the number of the argument, or too many arguments -/
inductive CArgErr where
  | arg (n : Nat)
  | count

/-- The argument as an integer, or an error with its number -/
def CArg.int (n : Nat) : CArg → Except CArgErr Int
  | .val (.int i) => .ok i.toInt
  | _ => .error (.arg n)

/-- The argument as a type, or an error with its number -/
def CArg.type (n : Nat) : CArg → Except CArgErr Ty
  | .ty t => .ok t
  | _ => .error (.arg n)

/-- `StringType`: internal/string.go:338-363. -/
def stringType : List CArg → Except CArgErr Ty
  | [] => .ok .strT
  | [.val (.str s)] => .ok (.exact (.str s))
  | [a] => do
    let i ← a.int 0
    return sizedStringType i maxInt
  | [a, b] => do
    let i ← a.int 0
    let j ← b.int 1
    return sizedStringType i j
  | _ => .error .count

/-- `BinaryType`: internal/binary.go:37-57. -/
def binaryType : List CArg → Except CArgErr Ty
  | [] => .ok (.bin 0 maxInt)
  | [a] => do
    let i ← a.int 0
    return sizedBinaryType i maxInt
  | [a, b] => do
    let i ← a.int 0
    let j ← b.int 1
    return sizedBinaryType i j
  | _ => .error .count

/-- What a constructor of array types does with the arguments: an error, or a call of `newArrayType`, which may panic (`none`) -/
abbrev Made? := Except CArgErr (Option Ty)

/-- `arrayTypeOne`: internal/array.go:46-55. -/
def arrayTypeOne (o : Oid) : CArg → Made?
  | .ty t => .ok (newArrayType o t 0 maxInt)
  | .val (.int i) => .ok (newArrayType o .any i.toInt maxInt)
  | _ => .error (.arg 0)

/-- `arrayTypeTwo`: internal/array.go:57-70. -/
def arrayTypeTwo (o : Oid) (a b : CArg) : Made? := do
  let j ← b.int 1
  match a with
  | .ty t => .ok (newArrayType o t j maxInt)
  | .val (.int i) => .ok (newArrayType o .any i.toInt j)
  | _ => .error (.arg 0)

/-- `arrayTypeThree`: internal/array.go:72-86. -/
def arrayTypeThree (o : Oid) (a b c : CArg) : Made? := do
  let t ← a.type 0
  let i ← b.int 1
  let j ← c.int 2
  return newArrayType o t i j

/-- `ArrayType`: internal/array.go:89-102. -/
def arrayType (o : Oid) : List CArg → Made?
  | [] => .ok (some .arrT)
  | [a] => arrayTypeOne o a
  | [a, b] => arrayTypeTwo o a b
  | [a, b, c] => arrayTypeThree o a b c
  | _ => .error .count

/-- `mapTypeOne`: internal/map.go:911-918. -/
def mapTypeOne (o : Oid) (a : CArg) : Except CArgErr Ty := do
  let i ← a.int 0
  return newMapType o .any .any i maxInt

/-- `mapTypeTwo`: internal/map.go:920-938. -/
def mapTypeTwo (o : Oid) : CArg → CArg → Except CArgErr Ty
  | .ty t, b => do
    let u ← b.type 1
    return newMapType o t u 0 maxInt
  | .val (.int i), b => do
    let j ← b.int 1
    return newMapType o .any .any i.toInt j
  | _, _ => .error (.arg 0)

/-- `mapTypeThree`: internal/map.go:940-955. -/
def mapTypeThree (o : Oid) (a b c : CArg) : Except CArgErr Ty := do
  let t ← a.type 0
  let u ← b.type 1
  let i ← c.int 2
  return newMapType o t u i maxInt

/-- `mapTypeFour`: internal/map.go:957-976. -/
def mapTypeFour (o : Oid) (a b c d : CArg) : Except CArgErr Ty := do
  let t ← a.type 0
  let u ← b.type 1
  let i ← c.int 2
  let j ← d.int 3
  return newMapType o t u i j

/-- `MapType`: internal/map.go:979-994. -/
def mapType (o : Oid) : List CArg → Except CArgErr Ty
  | [] => .ok .mapT
  | [a] => mapTypeOne o a
  | [a, b] => mapTypeTwo o a b
  | [a, b, c] => mapTypeThree o a b c
  | [a, b, c, d] => mapTypeFour o a b c d
  | _ => .error .count

/-- `IntEnumType`: internal/integer.go:56-68. -/
def intEnumType (o : Oid) : List (BitVec 64) → Ty
  | [] => .not .any
  | [i] => .exact (.int i)
  | is => .anyOf o (is.map fun i => .exact (.int i))

/-- `EnumType`: internal/string.go:163-175. -/
def enumType (o : Oid) : List Str → Ty
  | [] => .not .any
  | [s] => .exact (.str s)
  | ss => .anyOf o (ss.map fun s => .exact (.str s))

/-- `CiStringType`: internal/string.go:290-300; `lower` is `strings.ToLower`. -/
def ciStringType (lower : Str → Str) (s : Str) : Ty := .ciStr (lower s)

/-- `CiEnumType`: internal/string.go:179-191. -/
def ciEnumType (lower : Str → Str) (o : Oid) : List Str → Ty
  | [] => .not .any
  | [s] => ciStringType lower s
  | ss => .anyOf o (ss.map (ciStringType lower))

end Verif.Types
