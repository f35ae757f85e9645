import Verif.Reflect.Model
import Verif.Types.Model
/-!
# Go values as arguments

`Equals`, `CompareTo` and `Instance` take an `interface{}`: a `dgo` value, or any Go value.  The other files of this development know the
`dgo` values only; this one follows what the methods do with the Go values.

Simplifications, for the whole file: the Go values are those of `Verif/Reflect/Model` (no named types, structs, errors, channels, functions,
`json.Number` or `reflect.Value`); a `dgo` value is a tree as in `Verif/Value`, and what a method does with a `dgo` value is not repeated.
-/
set_option autoImplicit false
set_option linter.unusedVariables false
namespace Verif.Goarg
open Verif.Value Verif.Reflect Verif.Types

/-- What is passed for an `interface{}` -/
inductive Arg where
  | val (v : Val)
  /-- A Go value that is neither an interface nor a `dgo` value; `none` is the `nil` of Go. -/
  | go (g : Option GV)

/-- `Value`: internal/value.go:35-47, and `value`: value.go:48-84, which makes something of a nil slice of bytes, strings or `int`s where
`ValueFromReflected` does not.  (A nil `*regexp.Regexp` becomes a value all methods of which panic; here it is an error.) -/
def valueOf (E : Reflect.Env) : Arg → Except NoVal Val
  | .val v => .ok v
  | .go none => .ok .nil
  | .go (some (.slice (.int .uint8) none)) => .ok (.bin [])
  | .go (some (.slice .string none)) => .ok (.arr [])
  | .go (some (.slice (.int .int) none)) => .ok (.arr [])
  | .go (some (.ptr .regexp none)) => .error .goNil
  | .go (some g) => fromReflected E g

/-- `ToInt`: internal/integer.go:376-412. -/
def toInt : Arg → Except NoVal (Option (BitVec 64))
  | .val (.int i) => .ok (some i)
  | .go (some (.int k n)) =>
    if (k = .uint ∨ k = .uint64) ∧ n = 2 ^ 64 - 1 then .error .panic else .ok (some (BitVec.ofInt 64 n))
  | _ => .ok none

/-- `ToFloat`: internal/float.go:321-334. -/
def toFloat (E : Reflect.Env) : Arg → Option F64
  | .val (.float f) => some f
  | .go (some (.float64 f)) => some f
  | .go (some (.float32 f)) => some (E.widen f)
  | _ => none

/-- `other == Nil || other == nil` -/
def isNil : Arg → Bool
  | .val .nil => true
  | .go none => true
  | _ => false

/-- The type assertions to `string` and `*hstring`, for example internal/string.go:575-585 -/
def toStr : Arg → Option Str
  | .val (.str s) => some s
  | .go (some (.string s)) => some s
  | _ => none

/-- The type assertions to `*binary` and `[]byte`, for example internal/binary.go:331-336 -/
def toBin : Arg → Option (List UInt8)
  | .val (.bin b) => some b
  | .go (some (.slice (.int .uint8) none)) => some []
  | .go (some (.slice (.int .uint8) (some gs))) => some (gs.map byte)
  | _ => none

/-- The type switches of internal/boolean.go:50-55, integer.go:215-219, regexp.go:47-51 and time.go:44-48, for Go values -/
def isBool : Option GV → Bool
  | some (.bool _) => true
  | _ => false

def isInt : Option GV → Bool
  | some (.int _ _) => true
  | _ => false

def isRegexp : Option GV → Bool
  | some (.ptr .regexp _) => true
  | _ => false

def isTime : Option GV → Bool
  | some (.time _) => true
  | some (.ptr .time _) => true
  | _ => false

/-- `a.Equals(other)`. -/
def equalsArg (E : Reflect.Env) (a : Val) (other : Arg) : Except NoVal Bool :=
  match a with
  /- nil.go:31-33 -/
  | .nil => .ok (isNil other)
  /- boolean.go:129-137 -/
  | .bool b =>
    match other with
    | .val (.bool c) => .ok (b == c)
    | .go (some (.bool c)) => .ok (b == c)
    | _ => .ok false
  /- integer.go:293-296 -/
  | .int i => (toInt other).map fun o => match o with
    | some j => i == j
    | none => false
  /- float.go:277-280 -/
  | .float f => .ok (match toFloat E other with
    | some g => F64.eq f g
    | none => false)
  /- string.go:575-585 -/
  | .str s => .ok (match toStr other with
    | some t => s == t
    | none => false)
  /- binary.go:330-338 -/
  | .bin b => .ok (match toBin other with
    | some c => b == c
    | none => false)
  /- time.go:136-146: a nil `*time.Time` is followed -/
  | .time t =>
    match other with
    | .val (.time u) => .ok (t == u)
    | .go (some (.time u)) => .ok (t == u)
    | .go (some (.ptr .time (some (.time u)))) => .ok (t == u)
    | .go (some (.ptr .time none)) => .error .panic
    | _ => .ok false
  /- regexp.go:103-111: `String` of a nil `*regexp.Regexp` panics -/
  | .regexp s =>
    match other with
    | .val (.regexp t) => .ok (s == t)
    | .go (some (.ptr .regexp (some (.regexp t)))) => .ok (s == t)
    | .go (some (.ptr .regexp none)) => .error .panic
    | _ => .ok false
  /- sensitive.go:115-117, array.go:1013-1015, map.go:463-465 and 93-95: `equals`, compare.go:111-132.  A native value is no
  `deepEqual`, and neither is the value of a nil `*regexp.Regexp`.  (An array with a Go `nil` in it is left open: the error of `valueOf`.) -/
  | a =>
    match other with
    | .go none => .ok false
    | other =>
      match valueOf E other with
      | .ok v => .ok (eq a v)
      | .error .native => .ok false
      | .error e => .error e

/-- `a.CompareTo(other)`; `none` is the answer that the two cannot be compared. -/
def cmpArg (E : Reflect.Env) (a : Val) (other : Arg) : Except NoVal (Option Ordering) :=
  match a with
  /- nil.go:20-25 -/
  | .nil => .ok (some (if isNil other then .eq else .lt))
  /- boolean.go:109-127 -/
  | .bool b =>
    match other with
    | .val (.bool c) => .ok (cmp (.bool b) (.bool c))
    | .val .nil => .ok (some .gt)
    | _ => .ok none
  /- integer.go:263-291 -/
  | .int i =>
    match toInt other with
    | .error e => .error e
    | .ok (some j) => .ok (some (three (j.slt i) (i.slt j)))
    | .ok none =>
      match toFloat E other with
      | some f => .ok (some (three (F64.lt f (F64.ofInt i)) (F64.lt (F64.ofInt i) f)))
      | none => .ok (if isNil other then some .gt else none)
  /- float.go:246-275 -/
  | .float f =>
    match toFloat E other with
    | some g => .ok (some (three (F64.lt g f) (F64.lt f g)))
    | none =>
      match toInt other with
      | .error e => .error e
      | .ok (some j) => .ok (some (three (F64.lt (F64.ofInt j) f) (F64.lt f (F64.ofInt j))))
      | .ok none => .ok (if isNil other then some .gt else none)
  /- string.go:546-573 -/
  | .str s =>
    match toStr other with
    | some t => .ok (some (three (strLt t s) (strLt s t)))
    | none =>
      match other with
      | .val .nil => .ok (some .gt)
      | _ => .ok none
  /- binary.go:288-325 -/
  | .bin b =>
    match toBin other with
    | some c => .ok (some (binLoop (lenOrd b.length c.length) b c))
    | none => .ok (if isNil other then some .gt else none)
  /- array.go:896-898 and `compare`, compare.go:149-177 -/
  | .arr as =>
    match valueOf E other with
    | .ok v => .ok (cmp (.arr as) v)
    | .error .native => .ok none
    | .error e => .error e
  | _ => .ok none

/-- `Instance` of the type of a value, for a Go value: exact.go:30-32 and 73-75, nil.go:70-72, sensitive.go:66-71. -/
def instTypeOf (E : Reflect.Env) (g : Option GV) : Val → Except NoVal Bool
  | .sens _ => .ok false
  | v => equalsArg E v (.go g)

/-- The loop of internal/ternary.go:210-218 -/
def allVals (E : Reflect.Env) (g : Option GV) : List Val → Except NoVal Bool
  | [] => .ok true
  | v :: vs => (instTypeOf E g v).bind fun b => if b then allVals E g vs else .ok false

mutual
/-- `t.Instance(g)` of a Go value.  Go values are no `deepEqual`, so that `Instance` (internal/compare.go:75-94) calls `DeepInstance` without
changing the recursion guard. -/
def instGo (T : Types.Env) (E : Reflect.Env) (g : Option GV) : Ty → Except NoVal Bool
  /- any.go:29-31 -/
  | .any => .ok true
  /- nil.go:70-72 -/
  | .nilT => .ok (isNil (.go g))
  /- boolean.go:49-56 -/
  | .boolT => .ok (isBool g)
  /- integer.go:214-220: no call of `ToInt` -/
  | .intT => .ok (isInt g)
  /- float.go:198-201 -/
  | .floatT => .ok (toFloat E (.go g)).isSome
  /- string.go:214-222 -/
  | .strT => .ok (toStr (.go g)).isSome
  /- regexp.go:45-51 -/
  | .regexpT => .ok (isRegexp g)
  /- time.go:43-49 -/
  | .timeT => .ok (isTime g)
  /- exact.go:30-32 -/
  | .exact v => equalsArg E v (.go g)
  /- integer.go:112-127 -/
  | .intRange lo hi incl => (toInt (.go g)).map (Option.any fun i => lo.sle i && (if incl then i.sle hi else i.slt hi))
  /- float.go:94-107 -/
  | .floatRange lo hi incl => .ok ((toFloat E (.go g)).any fun f => F64.le lo f && (if incl then F64.le f hi else Value.F64.lt f hi))
  /- string.go:491-503 -/
  | .sizedStr lo hi => .ok ((toStr (.go g)).any fun s => decide (lo ≤ len s) && decide (len s ≤ hi))
  /- string.go:309-317 -/
  | .ciStr s => .ok ((toStr (.go g)).any fun s' => T.fold s s')
  /- string.go:388-396 -/
  | .pattern rx => .ok ((toStr (.go g)).any fun s => T.rx rx s)
  /- binary.go:101-114 -/
  | .bin lo hi => .ok ((toBin (.go g)).any fun b => decide (lo ≤ len b) && decide (len b ≤ hi))
  /- exact.go:73-75 -/
  | .exactD _ v => equalsArg E v (.go g)
  /- ternary.go:106-114 -/
  | .allOf _ ts => allGo T E g ts
  /- ternary.go:210-218 -/
  | .allOfVal _ vs => allVals E g vs
  /- ternary.go:318-326 -/
  | .anyOf _ ts => anyGo T E g ts
  /- ternary.go:436-449 -/
  | .oneOf _ ts => oneGo T E g false ts
  /- not.go:73-75 -/
  | .not t => (instGo T E g t).map (!·)
  /- array.go:149-152, 237-243, 564-572; map.go:1071-1089, 1162-1165; mapstruct.go:251-253; sensitive.go:66-71; meta.go:63-73: each starts
  with a type assertion to a type of `dgo` -/
  | .arrT | .mapT | .sizedArr .. | .tuple .. | .sizedMap .. | .struct .. | .sens .. | .metaT _ | .metaMeta => .ok false

def allGo (T : Types.Env) (E : Reflect.Env) (g : Option GV) : List Ty → Except NoVal Bool
  | [] => .ok true
  | t :: ts => (instGo T E g t).bind fun b => if b then allGo T E g ts else .ok false

def anyGo (T : Types.Env) (E : Reflect.Env) (g : Option GV) : List Ty → Except NoVal Bool
  | [] => .ok false
  | t :: ts => (instGo T E g t).bind fun b => if b then .ok true else anyGo T E g ts

/-- `found`: one was found -/
def oneGo (T : Types.Env) (E : Reflect.Env) (g : Option GV) (found : Bool) : List Ty → Except NoVal Bool
  | [] => .ok found
  | t :: ts => (instGo T E g t).bind fun b =>
    if b then (if found then .ok false else oneGo T E g true ts) else oneGo T E g found ts
end

/-- `t.Instance(a)` -/
def instArg (T : Types.Env) (E : Reflect.Env) (t : Ty) : Arg → Except NoVal Bool
  | .val v => .ok (instanceOf T t v)
  | .go g => instGo T E g t

end Verif.Goarg
