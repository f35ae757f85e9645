import Verif.Types.New
import Verif.Text.Quote
import Verif.Binary.Model
/-!
# The conversions that `New` makes

`Verif/Types/New` leaves the conversions open (`Conv`); here are those between integers, booleans, binaries, arrays, maps and their texts.
-/
set_option autoImplicit false
namespace Verif.Types
open Verif.Value Verif.Text

/-- The character of a digit, `upper` for the letters -/
def radixChar (upper : Bool) (d : Nat) : UInt8 := UInt8.ofNat (if d < 10 then 48 + d else if upper then 55 + d else 87 + d)

/-- The digits of a number in a base of at least 2 -/
def radixDigits (base : Nat) (upper : Bool) (n : Nat) : Str :=
  if base < 2 ∨ n < base then [radixChar upper n] else radixDigits base upper (n / base) ++ [radixChar upper (n % base)]
termination_by n
decreasing_by exact Nat.div_lt_self (by omega) (by omega)

/-- `fmt.Sprintf` of an `int64` with one of the formats `%b`, `%o`, `%d`, `%x` and `%X` -/
def formatRadix (base : Nat) (upper : Bool) (v : Int) : Str :=
  if v < 0 then 45 :: radixDigits base upper v.natAbs else radixDigits base upper v.natAbs

/-- `strconv.ParseInt(s, radix, 64)` with a radix that is not 0 (so there are no prefixes and no underscores); `none` is an error. -/
def parseRadix (radix : Nat) (s : Str) : Option Int :=
  let unsigned (t : Str) : Option Nat := if t = [] then none else parseDigits radix 0 t
  match s with
  | 45 :: t => (unsigned t).bind fun n => if n ≤ 2 ^ 63 then some (-(n : Int)) else none
  | 43 :: t => (unsigned t).bind fun n => if n < 2 ^ 63 then some (n : Int) else none
  | t => (unsigned t).bind fun n => if n < 2 ^ 63 then some (n : Int) else none

/-- What is left open: `strconv.ParseFloat`, the `time` package, `String()` of other values and `fmt.Sprintf` with other formats. -/
structure Lib where
  parseFloat : Str → Option F64
  unix : Int → BitVec 64
  seconds : Int → F64
  ofUnix : BitVec 64 → Int
  ofSeconds : F64 → Int
  parseTime : Str → Option Int
  str : Val → Str
  sprintf : Str → Val → Option Str

/-- `boolStringType` and `trueStringType`: internal/boolean.go:186-187.  `CiEnumType` makes an `anyOf` of `ciStringType`s. -/
def trueStrings : List Str := [[116, 114, 117, 101], [121, 101, 115], [121]]
def falseStrings : List Str := [[102, 97, 108, 115, 101], [110, 111], [110]]

/-- `String()`: internal/nil.go:43-45, boolean.go:162-167, integer.go:356-358, binary.go:391-393; of other values left open. -/
def stringOf (L : Lib) : Val → Str
  | .nil => [110, 117, 108, 108]
  | .bool true => [116, 114, 117, 101]
  | .bool false => [102, 97, 108, 115, 101]
  | .int i => formatInt i.toInt
  | .bin b => Binary.text b
  | v => L.str v

/-- `fmt.Sprintf`: internal/string.go:57-60.  `FromValue` of an integer to an `interface{}` gives an `int64`. -/
def sprintf (L : Lib) : Str → Val → Option Str
  | [37, 98], .int i => some (formatRadix 2 false i.toInt)
  | [37, 111], .int i => some (formatRadix 8 false i.toInt)
  | [37, 100], .int i => some (formatRadix 10 false i.toInt)
  | [37, 120], .int i => some (formatRadix 16 false i.toInt)
  | [37, 88], .int i => some (formatRadix 16 true i.toInt)
  | f, v => L.sprintf f v

/-- The encodings of `encType` and `BinaryFromEncoded`: internal/binary.go:182 and 242-268. -/
def decodeWith : Str → Str → Option (List UInt8)
  | s, [37, 98] => Binary.fromEncoded .b s
  | s, [37, 117] => Binary.fromEncoded .u s
  | s, [37, 66] => Binary.fromEncoded .B s
  | s, [37, 115] => Binary.fromEncoded .s s
  | s, [37, 114] => Binary.fromEncoded .r s
  | _, _ => none

/-- What `mapFromArgs` makes of one value that is not a map -/
inductive MapOut where
  | map (es : List (Val × Val))
  /-- A `structVal` of the Go struct that the value is, with its unexported fields -/
  | fields
  | panic

/-- `ToMap` of an even number of values: internal/array.go:1308-1339. -/
def toPairs : List Val → List (Val × Val)
  | k :: v :: r => (k, v) :: toPairs r
  | _ => []

/-- `mapFromArgs` of one value that is not a map: internal/map.go:232-271.  All values but booleans, numbers and nil are pointers to Go structs
(`array`, `hstring`, `timeVal`, `regexpVal`, `binary`, `sensitive`, `mapEntry`), which is the case `reflect.Ptr`. -/
def mapFrom : Val → MapOut
  | .arr vs => if vs.length % 2 = 0 then .map (toPairs vs) else .fields
  | .nil | .bool _ | .int _ | .float _ => .panic
  | .map es => .map es
  | _ => .fields

/-- `Array(arg)` of a value that is not an array: internal/array.go:668-691.  Maps are `Iterable`; other values are not arrays, and the type
assertion panics. -/
def arrayFrom : Val → Option (List Val)
  | .map es => some (es.map fun e => .entry e.1 e.2)
  | _ => none

/-- The conversions.  Simplification: a `structVal` of private fields is no value of the model, and counted as a panic. -/
def conv (E : Env) (L : Lib) : Conv where
  parseInt s r := (parseRadix r.toNat s).map (BitVec.ofInt 64)
  parseFloat := L.parseFloat
  unix := L.unix
  seconds := L.seconds
  ofUnix := L.ofUnix
  ofSeconds := L.ofSeconds
  parseTime := L.parseTime
  isBoolString s := (trueStrings ++ falseStrings).any fun b => E.fold b s
  isTrueString s := trueStrings.any fun b => E.fold b s
  toStr := stringOf L
  sprintf := sprintf L
  decode := decodeWith
  toArray := arrayFrom
  toMap v := match mapFrom v with
    | .map es => some es
    | _ => none

end Verif.Types
