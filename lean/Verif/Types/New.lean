import Verif.Types.Model
/-!
# New, and the conversion of Go integers
-/
set_option autoImplicit false
namespace Verif.Types
open Verif.Value

/-! ## New -/

/-- What the conversions take from the Go library; `none` is an error or a panic. -/
structure Conv where
  /-- `strconv.ParseInt(s, radix, 64)` -/
  parseInt : Str → BitVec 64 → Option (BitVec 64)
  /-- `strconv.ParseFloat(s, 64)` -/
  parseFloat : Str → Option F64
  /-- `GoTime().Unix()` -/
  unix : Int → BitVec 64
  /-- `SecondsWithFraction()` -/
  seconds : Int → F64
  /-- `time.Unix(i, 0)` -/
  ofUnix : BitVec 64 → Int
  /-- `time.Unix(int64(s), int64(f*1e9))` of `math.Modf` -/
  ofSeconds : F64 → Int
  /-- `TimeFromString` -/
  parseTime : Str → Option Int
  /-- `boolStringType.Instance` -/
  isBoolString : Str → Bool
  /-- `trueStringType.Instance` -/
  isTrueString : Str → Bool
  /-- `String()` of a value that is not a string -/
  toStr : Val → Str
  /-- `fmt.Sprintf` with a format that `formatPattern` accepts -/
  sprintf : Str → Val → Option Str
  /-- `BinaryFromEncoded(s, enc)` -/
  decode : Str → Str → Option (List UInt8)
  /-- `Array(arg)` of a value that is not an array: internal/array.go:668-691 -/
  toArray : Val → Option (List Val)
  /-- `mapFromArgs` of one value that is not a map: internal/map.go:232-271 -/
  toMap : Val → Option (List (Val × Val))

/-- The argument of `New`: a value or an argument list. -/
inductive Arg where
  | one (v : Val)
  | args (vs : List Val)

/-- `args.AssertSize(_, 1, 1); arg = args.Get(0)` -/
def Arg.single : Arg → Option Val
  | .one v => some v
  | .args [v] => some v
  | .args _ => none

/-- The end of every conversion: `if !t.Instance(v) { panic(IllegalAssignment(t, v)) }; return v` -/
def check (E : Env) (t : Ty) (v : Val) : Option Val := if instanceOf E t v then some v else none

/-- `intFromConvertible`: internal/integer.go:433-452. -/
def intFrom (C : Conv) (radix : BitVec 64) : Val → Option (BitVec 64)
  | .int i => some i
  | .float f => some (F64.toInt f)
  | .time t => some (C.unix t)
  | .bool b => some (if b then 1 else 0)
  | .str s => C.parseInt s radix
  | _ => none

/-- `radixType`: internal/integer.go:414. -/
def isRadix (r : BitVec 64) : Bool := r == 2 || r == 8 || r == 10 || r == 16

/-- `newInt`: internal/integer.go:416-431. -/
def newInt (E : Env) (C : Conv) (t : Ty) : Arg → Option Val
  | .one v => (intFrom C 10 v).bind fun i => check E t (.int i)
  | .args [v] => (intFrom C 10 v).bind fun i => check E t (.int i)
  | .args [v, .int r] => if isRadix r then (intFrom C r v).bind fun i => check E t (.int i) else none
  | .args _ => none

/-- `floatFromConvertible`: internal/float.go:348-367. -/
def floatFrom (C : Conv) : Val → Option F64
  | .float f => some f
  | .int i => some (F64.ofInt i)
  | .time t => some (C.seconds t)
  | .bool b => some (if b then 0x3ff0000000000000 else 0)
  | .str s => C.parseFloat s
  | _ => none

/-- `newFloat`: internal/float.go:336-346. -/
def newFloat (E : Env) (C : Conv) (t : Ty) (a : Arg) : Option Val :=
  a.single.bind fun v => (floatFrom C v).bind fun f => check E t (.float f)

/-- `newBoolean`: internal/boolean.go:189-213. -/
def newBoolean (E : Env) (C : Conv) (t : Ty) (a : Arg) : Option Val :=
  a.single.bind fun v =>
    (match v with
     | .bool b => some (Val.bool b)
     | .int i => some (Val.bool (i != 0))
     | .float f => some (Val.bool (!F64.eq f 0))
     | .str s => if C.isBoolString s then some (Val.bool (C.isTrueString s)) else none
     | _ => none).bind (check E t)

/-- `newString`: internal/string.go:53-79. -/
def newString (E : Env) (C : Conv) (t : Ty) : Arg → Option Val
  | .args [v, .str fmt] => (C.sprintf fmt v).bind fun s => check E t (.str s)
  | a =>
    a.single.bind fun v =>
      match v with
      | .str s => check E t (.str s)
      | v => check E t (.str (C.toStr v))

/-- The array case of `newBinary`: each element must be an integer from 0 to 255. -/
def bytesOf : List Val → Option (List UInt8)
  | [] => some []
  | .int i :: vs => if (0 : BitVec 64).sle i && i.sle 255 then (bytesOf vs).map (i.toNat.toUInt8 :: ·) else none
  | _ => none

/-- `newBinary`: internal/binary.go:184-218. -/
def newBinary (E : Env) (C : Conv) (t : Ty) : Arg → Option Val
  | .args [.str s, .str enc] => (C.decode s enc).bind fun b => check E t (.bin b)
  | a =>
    a.single.bind fun v =>
      match v with
      | .bin b => check E t (.bin b)
      | .arr vs => (bytesOf vs).bind fun b => check E t (.bin b)
      | .str s => (C.decode s [37, 66]).bind fun b => check E t (.bin b)
      | _ => none

/-- `newTime`: internal/time.go:95-118. -/
def newTime (E : Env) (C : Conv) (t : Ty) (a : Arg) : Option Val :=
  a.single.bind fun v =>
    match v with
    | .time n => check E t (.time n)
    | .int i => check E t (.time (C.ofUnix i))
    | .float f => check E t (.time (C.ofSeconds f))
    | .str s => (C.parseTime s).bind fun n => check E t (.time n)
    | _ => none

/-- `newArray`: internal/array.go:777-787. -/
def newArray (E : Env) (C : Conv) (t : Ty) (a : Arg) : Option Val :=
  a.single.bind fun v =>
    match v with
    | .arr vs => check E t (.arr vs)
    | v => (C.toArray v).bind fun vs => check E t (.arr vs)

/-- `newMap`: internal/map.go:215-230. -/
def newMap (E : Env) (C : Conv) (t : Ty) (a : Arg) : Option Val :=
  a.single.bind fun v =>
    match v with
    | .map es => check E t (.map es)
    | v => (C.toMap v).bind fun es => check E t (.map es)

/-- `sensitiveType.New`: internal/sensitive.go:87-96. -/
def newSensitive (a : Arg) : Option Val :=
  a.single.bind fun v =>
    match v with
    | .sens w => some (.sens w)
    | v => some (.sens v)

/-- `New`: internal/value.go:16-30 and the `New` methods of the types.  `none` is a panic.  The exact regexp and entry types and
the types without a `New` method take the argument as it is. -/
def new (E : Env) (C : Conv) (t : Ty) (a : Arg) : Option Val :=
  match t with
  | .boolT | .exact (.bool _) => newBoolean E C t a
  | .intT | .intRange .. | .exact (.int _) => newInt E C t a
  | .floatT | .floatRange .. | .exact (.float _) => newFloat E C t a
  | .strT | .sizedStr .. | .ciStr _ | .pattern _ | .exact (.str _) => newString E C t a
  | .bin .. | .exact (.bin _) => newBinary E C t a
  | .timeT | .exact (.time _) => newTime E C t a
  | .arrT | .sizedArr .. | .tuple .. | .exactD _ (.arr _) => newArray E C t a
  | .mapT | .sizedMap .. | .struct .. | .exactD _ (.map _) => newMap E C t a
  | .sens .. => newSensitive a
  | .metaT _ | .metaMeta => none  -- makes types, which are not values of this model
  | t => a.single.bind (check E t)

/-! ## Go integers -/

/-- A value of one of Go's integer types (`int` and `uint` have 64 bits). -/
inductive GoInt where
  | int (v : BitVec 64)
  | int64 (v : BitVec 64)
  | int32 (v : BitVec 32)
  | int16 (v : BitVec 16)
  | int8 (v : BitVec 8)
  | uint (v : BitVec 64)
  | uint64 (v : BitVec 64)
  | uint32 (v : BitVec 32)
  | uint16 (v : BitVec 16)
  | uint8 (v : BitVec 8)

/-- `ToInt`: internal/integer.go:376-412; `none` is the panic. -/
def toInt : GoInt → Option (BitVec 64)
  | .int v => some v
  | .int64 v => some v
  | .int32 v => some (v.signExtend 64)
  | .int16 v => some (v.signExtend 64)
  | .int8 v => some (v.signExtend 64)
  | .uint v => if v = 0xffffffffffffffff then none else some v
  | .uint64 v => if v = 0xffffffffffffffff then none else some v
  | .uint32 v => some (v.zeroExtend 64)
  | .uint16 v => some (v.zeroExtend 64)
  | .uint8 v => some (v.zeroExtend 64)

end Verif.Types
