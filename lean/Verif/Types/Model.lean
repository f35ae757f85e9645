import Verif.Value.Model
/-!
# Types: construction, Instance, Assignable

The types of `internal/` as trees.  What the code compares by address has an explicit identity (`Oid`): those are the
types that implement `dgo.DeepAssignable` and so take part in the recursion guard of internal/compare.go.

Simplifications, for the whole file:
* types are trees: a type that contains itself (through a resolved alias) is not modelled.  Sharing is: the same identity
  may occur more than once.
* the other types are compared structurally where the code first compares addresses (`a == b` in `Assignable`).  That
  makes no difference, because these types are assignable from themselves (theorem `C27_reflexive_partial`), the exact type of
  NaN excepted.
* sizes are mathematical integers; in the code they are `int` and never leave the range of `int`.
* not modelled: the types of functions, errors, native Go values, named types and the dgo string type (whose instances
  are the strings that the parser accepts).
-/
set_option autoImplicit false
namespace Verif.Types
open Verif.Value

/-- The identity of a type or value object.  Objects that the code makes along the way (the element type of a tuple, the
type of a value) get an identity derived from the object they are made from. -/
inductive Oid where
  | user (n : Nat)
  | part (o : Oid) (k : Nat)
  deriving DecidableEq, Repr

/-- `math.MaxInt64` -/
abbrev maxInt : Int := 9223372036854775807

inductive Ty where
  /-- `anyType`, internal/any.go -/
  | any
  /-- `nilType`, internal/nil.go -/
  | nilT
  /-- `booleanType`, internal/boolean.go -/
  | boolT
  /-- `defaultIntegerType`, internal/integer.go -/
  | intT
  /-- `defaultFloatType`, internal/float.go -/
  | floatT
  /-- `defaultStringType`, internal/string.go -/
  | strT
  /-- `regexpType`, internal/regexp.go -/
  | regexpT
  /-- `timeType`, internal/time.go -/
  | timeT
  /-- `defaultArrayType`, internal/array.go -/
  | arrT
  /-- `defaultMapType`, internal/map.go -/
  | mapT
  /-- `exactBooleanType`, `exactIntegerType`, `exactFloatType`, `exactStringType`, `exactBinaryType`, `exactRegexpType`,
  `exactTimeType`: the types whose only instance is a scalar (internal/exact.go) -/
  | exact (v : Val)
  /-- `integerType`, internal/integer.go:23-27 -/
  | intRange (min max : BitVec 64) (inclusive : Bool)
  /-- `floatType`, internal/float.go:24-28 -/
  | floatRange (min max : F64) (inclusive : Bool)
  /-- `sizedStringType`, internal/string.go:17-20 -/
  | sizedStr (min max : Int)
  /-- `ciStringType`, internal/string.go:34-36, by its lower case string -/
  | ciStr (s : Str)
  /-- `patternType`, internal/string.go:39-41, by the source of the regular expression -/
  | pattern (rx : Str)
  /-- `binaryType`, internal/binary.go:15-18 -/
  | bin (min max : Int)
  /-- `exactArrayType`, `exactMapType`, `exactEntryType`: internal/exact.go `deepExactType` -/
  | exactD (o : Oid) (v : Val)
  /-- `sizedArrayType`, internal/array.go:24-28 -/
  | sizedArr (o : Oid) (elem : Ty) (min max : Int)
  /-- `tupleType`, internal/array.go:31-34 -/
  | tuple (o : Oid) (types : List Ty) (variadic : Bool)
  /-- `sizedMapType`, internal/map.go -/
  | sizedMap (o : Oid) (key value : Ty) (min max : Int)
  /-- `structType`, internal/mapstruct.go:14-19: for each entry the value that its key type is the exact type of, whether it
  is required, and the type of its value.  (`nilType` counts as exact and is accepted as a key, and then `Instance` panics,
  because it has no exact value; such struct types are left out.) -/
  | struct (o : Oid) (additional : Bool) (entries : List (Val × Bool × Ty))
  /-- `allOfType`, internal/ternary.go:10 -/
  | allOf (o : Oid) (types : List Ty)
  /-- `allOfValueType`, internal/ternary.go:12: all of the types of the values -/
  | allOfVal (o : Oid) (vals : List Val)
  /-- `anyOfType`, internal/ternary.go:14 -/
  | anyOf (o : Oid) (types : List Ty)
  /-- `oneOfType`, internal/ternary.go:16 -/
  | oneOf (o : Oid) (types : List Ty)
  /-- `notType`, internal/not.go:9-11 -/
  | not (negated : Ty)
  /-- `sensitiveType`, internal/sensitive.go:14-16 -/
  | sens (o : Oid) (wrapped : Ty)
  /-- `metaType`, internal/meta.go:12-14, with a type -/
  | metaT (tp : Ty)
  /-- `metaType`, internal/meta.go:12-14, with `nil` -/
  | metaMeta

/-- What the model leaves open. -/
structure Env where
  /-- `regexp.MatchString`: the source of the regular expression and the string -/
  rx : Str → Str → Bool
  /-- `strings.EqualFold` -/
  fold : Str → Str → Bool
  /-- Are the two parts of a value the same object? -/
  same : Oid → Oid → Bool
  /-- `false`: an imagined variant of the code in which the recursion guard never reports a hit (used only to say what the
  guard changes) -/
  guarded : Bool := true
  /-- Do the hash codes of two types fall in the same slot of the table of `Unique`?  (A hash code is not modelled for types; it
  does not respect `Equals`.) -/
  slot : Ty → Ty → Bool := fun _ _ => true

namespace F64
/-- Go `a <= b` -/
def le (a b : F64) : Bool := Value.F64.lt a b || Value.F64.eq a b
/-- `math.MaxFloat64` -/
def max : F64 := 0x7fefffffffffffff
/-- `-math.MaxFloat64` -/
def min : F64 := 0xffefffffffffffff
end F64

/-- `math.MinInt64` -/
def minI64 : BitVec 64 := 0x8000000000000000
/-- `math.MaxInt64` -/
def maxI64 : BitVec 64 := 0x7fffffffffffffff

/-! ## Types of values -/

/-- `Assignable` among the generic types that `genericOf` makes; `commonGeneric` calls it.  That it is what the `Assignable`
methods compute for these types is theorem `asg_generic`. -/
def genAsg : Ty → Ty → Bool
  | .any, _ => true
  | .nilT, .nilT => true
  | .boolT, .boolT => true
  | .intT, .intT => true
  | .floatT, .floatT => true
  | .strT, .strT => true
  | .regexpT, .regexpT => true
  | .timeT, .timeT => true
  | .mapT, .mapT => true
  | .mapT, .sizedMap .. => true
  | .exact a, .exact b => eq a b
  | .sizedArr _ e lo hi, .sizedArr _ e' lo' hi' => decide (lo ≤ lo') && decide (hi' ≤ hi) && genAsg e e'
  | .sizedMap _ k v lo hi, .sizedMap _ k' v' lo' hi' =>
    decide (lo ≤ lo') && decide (hi' ≤ hi) && genAsg k k' && genAsg v v'
  | .sizedMap _ k v lo hi, .mapT => decide (lo ≤ 0) && decide (maxInt ≤ hi) && genAsg k .any && genAsg v .any
  | .sens _ t, .sens _ t' => genAsg t t'
  | _, _ => false

/-- `commonGeneric`: internal/ternary.go:482-501, given the generic types; of no types, Go's `nil`, which does not occur. -/
def commonGeneric : List Ty → Ty
  | [] => .any
  | t :: ts => if ts.all (genAsg t) then t else .any

mutual
/-- `Generic(v.Type())`: internal/type.go:78-83 and the `Generic` methods of the exact types: boolean.go:89, integer.go:161,
float.go:141, string.go:256, regexp.go:74, time.go:71, array.go:307-309, map.go:63-65 and 1217-1228; `nilType`,
`exactBinaryType` and `sensitiveType` have none. -/
def genericOf (o : Oid) : Val → Ty
  | .nil => .nilT
  | .bool _ => .boolT
  | .int _ => .intT
  | .float _ => .floatT
  | .str _ => .strT
  | .bin b => .exact (.bin b)
  | .time _ => .timeT
  | .regexp _ => .regexpT
  | .sens v => .sens o (genericOf (.part o 0) v)
  | .arr vs => .sizedArr o (commonGeneric (genericsOf o vs)) 0 maxInt
  | .map es =>
    match commonGeneric (genericKeys o es), commonGeneric (genericVals o es) with
    | .any, .any => .mapT
    | k, v => .sizedMap o k v 0 maxInt
  | .entry _ _ => .any

def genericsOf (o : Oid) : List Val → List Ty
  | [] => []
  | v :: vs => genericOf (.part o vs.length) v :: genericsOf o vs

def genericKeys (o : Oid) : List (Val × Val) → List Ty
  | [] => []
  | (k, _) :: r => genericOf (.part o (2 * r.length)) k :: genericKeys o r

def genericVals (o : Oid) : List (Val × Val) → List Ty
  | [] => []
  | (_, v) :: r => genericOf (.part o (2 * r.length + 1)) v :: genericVals o r
end

/-- `v.Type()`: nil.go:47-49, boolean.go:181-187, integer.go:367-371, float.go:237-241, string.go:646-650, binary.go:465-469,
time.go:193-197, regexp.go:130-134, array.go:1305-1309, map.go:842-846 and 172-176, sensitive.go:165-167. `o` is the
identity that a new type object gets. -/
def typeOf (o : Oid) : Val → Ty
  | .nil => .nilT
  | .sens v => .sens o (genericOf (.part o 0) v)
  | .arr vs => .exactD o (.arr vs)
  | .map es => .exactD o (.map es)
  | .entry k v => .exactD o (.entry k v)
  | v => .exact v

/-- The types of the values of an `allOfValueType` -/
def typesOf (o : Oid) : List Val → List Ty
  | [] => []
  | v :: vs => typeOf (.part o vs.length) v :: typesOf o vs

/-! ## Constructors

`none` is a panic; `o` is the identity of the type object that is made. -/

/-- `dgo.IsExact`: dgo/typeidentifier.go:201-203. -/
def Ty.isExact : Ty → Bool
  | .nilT | .exact _ | .exactD .. => true
  | _ => false

/-- `t.(dgo.ExactType).ExactValue()` of a type for which `IsExact` holds; `nilType` is not a `dgo.ExactType`. -/
def Ty.exactValue : Ty → Option Val
  | .exact v | .exactD _ v => some v
  | _ => none

/-- `IntegerType`: internal/integer.go:36-53. -/
def integerType (min max : BitVec 64) (inclusive : Bool) : Option Ty :=
  if min = max then
    if !inclusive then none else some (.exact (.int min))
  else
    let (min, max) := if max.slt min then (max, min) else (min, max)
    if min = minI64 ∧ max = maxI64 then some .intT
    else some (.intRange min max inclusive)

/-- `FloatType`: internal/float.go:38-55. -/
def floatType (min max : F64) (inclusive : Bool) : Option Ty :=
  if Value.F64.eq min max then
    if !inclusive then none else some (.exact (.float min))
  else
    let (min, max) := if Value.F64.lt max min then (max, min) else (min, max)
    if Value.F64.eq min F64.min ∧ Value.F64.eq max F64.max then some .floatT
    else some (.floatRange min max inclusive)

/-- `SizedStringType`: internal/string.go:432-445. -/
def sizedStringType (min max : Int) : Ty :=
  let min := if min < 0 then 0 else min
  let (min, max) := if max < min then (max, min) else (min, max)
  if min = 0 ∧ max = maxInt then .strT else .sizedStr min max

/-- `SizedBinaryType`: internal/binary.go:60-73; `DefaultBinaryType` is the type with sizes 0 and MaxInt64. -/
def sizedBinaryType (min max : Int) : Ty :=
  let min := if min < 0 then 0 else min
  let (min, max) := if max < min then (max, min) else (min, max)
  if min = 0 ∧ max = maxInt then .bin 0 maxInt else .bin min max

/-- The clamping and swapping of sizes in `newArrayType` (internal/array.go:105-115) and `newMapType` (map.go:982-992). -/
def clampSizes (min max : Int) : Int × Int :=
  let min := if min < 0 then 0 else min
  let max := if max < 0 then 0 else max
  if max < min then (max, min) else (min, max)

def Ty.isAny : Ty → Bool
  | .any => true
  | _ => false

/-- `newArrayType`: internal/array.go:104-127.  The panic: `nilType` counts as exact but has no exact value. -/
def newArrayType (o : Oid) (elem : Ty) (min max : Int) : Option Ty :=
  let (min, max) := clampSizes min max
  if min = 0 ∧ max = maxInt ∧ elem.isAny then some .arrT
  else if min = 1 ∧ min = max ∧ elem.isExact then
    match elem.exactValue with
    | some v => some (.exactD o (.arr [v]))
    | none => none
  else some (.sizedArr o elem min max)

/-- `newMapType`: internal/map.go:981-1007. -/
def newMapType (o : Oid) (kt vt : Ty) (min max : Int) : Ty :=
  let (min, max) := clampSizes min max
  if min = 0 ∧ max = maxInt ∧ kt.isAny ∧ vt.isAny then .mapT
  else .sizedMap o kt vt min max

/-- The exact values of all types; `none` (a panic) if a type has none. -/
def exactValues : List Ty → Option (List Val)
  | [] => some []
  | t :: ts =>
    match t.exactValue, exactValues ts with
    | some v, some vs => some (v :: vs)
    | _, _ => none

/-- `newTupleType`: internal/array.go:361-386.  `EmptyTupleType` and `DefaultTupleType` are two fixed objects. -/
def newTupleType (o : Oid) (types : List Ty) (variadic : Bool) : Option Ty :=
  if types.length = 0 then some (.tuple o [] false)
  else if variadic ∧ types.length = 1 ∧ types.all Ty.isAny then some (.tuple o [.any] true)
  else if !variadic && types.all Ty.isExact then (exactValues types).map fun vs => .exactD o (.arr vs)
  else some (.tuple o types variadic)

/-- `VariadicTupleType`: internal/array.go:353-359. -/
def variadicTupleType (o : Oid) (types : List Ty) : Option Ty :=
  if types.length = 0 then none else newTupleType o types true

/-- `AllOfType`: internal/ternary.go:29-43; the arguments have been made types. -/
def allOfType (o : Oid) : List Ty → Ty
  | [] => .any
  | [t] => t
  | ts => .allOf o ts

/-- `AnyOfType`: internal/ternary.go:247-261. -/
def anyOfType (o : Oid) : List Ty → Ty
  | [] => .not .any
  | [t] => t
  | ts => .anyOf o ts

/-- `OneOfType`: internal/ternary.go:347-361. -/
def oneOfType (o : Oid) : List Ty → Ty
  | [] => .not .any
  | [t] => t
  | ts => .oneOf o ts

/-- `NotType`: internal/not.go:17-23. -/
def notType : Ty → Ty
  | .not t => t
  | t => .not t

/-! ## The recursion guard -/

/-- An object in the lists of the guard: a type or a value. -/
inductive Obj where
  | ty (o : Oid)
  | val (o : Oid)

/-- The comparison of `util.RecursionHit`: util/slice.go:15-22. -/
def Obj.same (E : Env) : Obj → Obj → Bool
  | .ty a, .ty b => a == b
  | .val a, .val b => E.same a b
  | _, _ => false

/-- `doubleSeen`: internal/compare.go:15-20. -/
structure Guard where
  aSeen : List Obj
  bSeen : List Obj
  seenInA : Bool
  seenInB : Bool

/-- A `dgo.RecursionGuard` that may be `nil`. -/
abbrev G := Option Guard

/-- `Append`, internal/compare.go:26-42: the receiver, which is changed, and the new guard. -/
def Guard.append (E : Env) (s : Guard) (a b : Obj) : Guard × Guard :=
  let sa := s.seenInA || s.aSeen.any (Obj.same E a)
  let sb := s.seenInB || s.bSeen.any (Obj.same E b)
  ({ s with seenInA := sa, seenInB := sb },
   { aSeen := if sa then s.aSeen else a :: s.aSeen, bSeen := if sb then s.bSeen else b :: s.bSeen,
     seenInA := sa, seenInB := sb })

/-- `Swap`: internal/compare.go:44-46. -/
def Guard.swap (s : Guard) : Guard :=
  { aSeen := s.bSeen, bSeen := s.aSeen, seenInA := s.seenInB, seenInB := s.seenInA }

/-- `Hit`: internal/compare.go:22-24. -/
def Guard.hit (E : Env) (s : Guard) : Bool := E.guarded && s.seenInA && s.seenInB

/-- A check: it may change the flags of the guard that it is given.  `none`: the fuel is used up (which does not happen, see
`inst_total` and `asg_total`). -/
abbrev Check := Option (Bool × G)

/-- `for i := range ts { if !f(ts[i]) { return false } }; return true` -/
def allG {α : Type} (f : G → α → Check) : G → List α → Check
  | g, [] => some (true, g)
  | g, t :: ts =>
    match f g t with
    | none => none
    | some (false, g') => some (false, g')
    | some (true, g') => allG f g' ts

/-- `for i := range ts { if f(ts[i]) { return true } }; return false` -/
def anyG {α : Type} (f : G → α → Check) : G → List α → Check
  | g, [] => some (false, g)
  | g, t :: ts =>
    match f g t with
    | none => none
    | some (true, g') => some (true, g')
    | some (false, g') => anyG f g' ts

/-- The loop of `oneOfType.DeepAssignable` and `oneOfType.DeepInstance`: exactly one. -/
def oneG {α : Type} (f : G → α → Check) (found : Bool) : G → List α → Check
  | g, [] => some (found, g)
  | g, t :: ts =>
    match f g t with
    | none => none
    | some (true, g') => if found then some (false, g') else oneG f true g' ts
    | some (false, g') => oneG f found g' ts

/-- `a && b`, where `b` is only evaluated when `a` is true -/
def andG (a : Check) (b : G → Check) : Check :=
  match a with
  | none => none
  | some (false, g) => some (false, g)
  | some (true, g) => b g

/-! ## Instance -/

/-- `Get` of a map: the first entry with an equal key (theorem C01 for `hashMap.Get`). -/
def mapGet (es : List (Val × Val)) (k : Val) : Option Val := (es.find? fun e => eq k e.1).map (·.2)

/-- Does the value implement `deepEqual`? -/
def isDeepVal : Val → Bool
  | .arr _ | .map _ | .entry .. | .sens _ => true
  | _ => false

/-- `int(len)` -/
def len {α : Type} (l : List α) : Int := l.length

/-- The values with the identities of the objects, parts of `p` -/
def children (p : Oid) : List Val → List (Oid × Val)
  | [] => []
  | v :: vs => (.part p vs.length, v) :: children p vs

/-- The loops of `tupleInstance` over a variadic tuple; there are at least as many values as types but one. -/
def variadicPairs : List Ty → List (Oid × Val) → List (Ty × Oid × Val)
  | [], _ => []
  | [t], vs => vs.map fun v => (t, v)
  | t :: ts, v :: vs => (t, v) :: variadicPairs ts vs
  | _, [] => []

def isScalar : Val → Bool
  | .nil | .arr _ | .map _ | .entry .. | .sens _ => false
  | _ => true

/-- The `Instance` methods that take no guard. -/
def leafInst (E : Env) (rec : Ty → Oid → Val → Option Bool) (p : Oid) : Ty → Val → Option Bool
  /- any.go:33-35 -/
  | .any, _ => some true
  /- nil.go:70-72 -/
  | .nilT, .nil => some true
  /- boolean.go:50-57 -/
  | .boolT, .bool _ => some true
  /- integer.go:211-217 -/
  | .intT, .int _ => some true
  /- float.go:196-199 -/
  | .floatT, .float _ => some true
  /- string.go:210-218 -/
  | .strT, .str _ => some true
  /- regexp.go:46-52 -/
  | .regexpT, .regexp _ => some true
  /- time.go:45-51 -/
  | .timeT, .time _ => some true
  /- array.go:149-152 -/
  | .arrT, .arr _ => some true
  /- map.go:1146-1149 -/
  | .mapT, .map _ => some true
  /- exact.go:33-35 -/
  | .exact v, v' => some (eq v v')
  /- integer.go:108-124 -/
  | .intRange min max inclusive, .int i => some (min.sle i && (if inclusive then i.sle max else i.slt max))
  /- float.go:92-105 -/
  | .floatRange min max inclusive, .float f =>
    some (F64.le min f && (if inclusive then F64.le f max else Value.F64.lt f max))
  /- string.go:482-495 -/
  | .sizedStr min max, .str s => some (decide (min ≤ len s) && decide (len s ≤ max))
  /- string.go:312-320 -/
  | .ciStr s, .str s' => some (E.fold s s')
  /- string.go:388-396 -/
  | .pattern rx, .str s => some (E.rx rx s)
  /- binary.go:100-113 -/
  | .bin min max, .bin b => some (decide (min ≤ len b) && decide (len b ≤ max))
  /- not.go:77-79 -/
  | .not t, v => (rec t p v).map (!·)
  /- sensitive.go:73-78 -/
  | .sens _ t, .sens v => rec t (.part p 0) v
  /- meta.go:63-73: only types are instances of a meta type -/
  | _, _ => some false

/-- The loop of `structType.DeepInstance` over the declared keys (internal/mapstruct.go:253-264); `oc` counts the keys that are
found, and is `none` for `return false`.  (The identity of the value that is found is a part of `p`; which part makes no
difference.) -/
def structLoop (f : G → Ty → Oid × Val → Check) (p : Oid) (es : List (Val × Val)) :
    G → Nat → List (Val × Bool × Ty) → Option (Option Nat × G)
  | g, oc, [] => some (some oc, g)
  | g, oc, (k, rq, t) :: r =>
    match mapGet es k with
    | some v =>
      match f g t (.part p (2 * r.length + 1), v) with
      | none => none
      | some (false, g') => some (none, g')
      | some (true, g') => structLoop f p es g' (oc + 1) r
    | none => if rq then some (none, g) else structLoop f p es g oc r

/-- The identities of the keys and values of a map -/
def entryChildren (p : Oid) : List (Val × Val) → List ((Oid × Val) × (Oid × Val))
  | [] => []
  | (k, v) :: r => ((.part p (2 * r.length), k), (.part p (2 * r.length + 1), v)) :: entryChildren p r

/-- The `DeepInstance` methods. `rec` is `Instance`, `leaf` an `Instance` method, called without guard. -/
def deepInst (rec : G → Ty → Oid × Val → Check) (g : G) (p : Oid) (v : Val) : Ty → Check
  /- exact.go:70-72 -/
  | .exactD _ v' => some (eq v' v, g)
  /- array.go:236-242 and `allInstance`, array.go:1459-1469 -/
  | .sizedArr _ e min max =>
    match v with
    | .arr vs =>
      if decide (min ≤ len vs) && decide (len vs ≤ max) then
        if e.isAny then some (true, g) else allG (fun g x => rec g e x) g (children p vs)
      else some (false, g)
    | _ => some (false, g)
  /- `tupleInstance`, array.go:574-611 -/
  | .tuple _ ts variadic =>
    match v with
    | .arr vs =>
      if variadic then
        if len ts - 1 > len vs then some (false, g)
        else allG (fun g x => rec g x.1 x.2) g (variadicPairs ts (children p vs))
      else if vs.length ≠ ts.length then some (false, g)
      else allG (fun g x => rec g x.1 x.2) g (ts.zip (children p vs))
    | _ => some (false, g)
  /- map.go:1058-1076 -/
  | .sizedMap _ kt vt min max =>
    match v with
    | .map es =>
      if decide (min ≤ len es) && decide (len es ≤ max) then
        if kt.isAny then
          if vt.isAny then some (true, g)
          else allG (fun g e => rec g vt e.2) g (entryChildren p es)
        else if vt.isAny then
          allG (fun g e => (rec none kt e.1).map fun r => (r.1, g)) g (entryChildren p es)
        else allG (fun g e => andG (rec g kt e.1) fun g => rec g vt e.2) g (entryChildren p es)
      else some (false, g)
    | _ => some (false, g)
  /- mapstruct.go:246-270 -/
  | .struct _ additional fs =>
    match v with
    | .map es =>
      match structLoop rec p es g 0 fs with
      | none => none
      | some (none, g) => some (false, g)
      | some (some oc, g) => some (additional || oc == es.length, g)
    | _ => some (false, g)
  /- ternary.go:106-114 -/
  | .allOf _ ts => allG (fun g t => rec g t (p, v)) g ts
  /- ternary.go:211-219 -/
  | .allOfVal o vs => allG (fun g t => rec g t (p, v)) g (typesOf o vs)
  /- ternary.go:304-312 -/
  | .anyOf _ ts => anyG (fun g t => rec g t (p, v)) g ts
  /- ternary.go:421-434 -/
  | .oneOf _ ts => oneG (fun g t => rec g t (p, v)) false g ts
  | _ => some (false, g)

/-- The identity of a type that implements `dgo.DeepInstance`. -/
def Ty.deepInst? : Ty → Option Oid
  | .exactD o _ | .sizedArr o .. | .tuple o .. | .sizedMap o .. | .struct o .. | .allOf o _ | .allOfVal o _ | .anyOf o _
  | .oneOf o _ => some o
  | _ => none

/-- `Instance`: internal/compare.go:75-96.  `p` is the identity of the value. -/
def inst (E : Env) : Nat → G → Ty → Oid × Val → Check
  | 0, _, _, _ => none
  | n + 1, g, t, (p, v) =>
    match t.deepInst? with
    | none => (leafInst E (fun t p v => (inst E n none t (p, v)).map (·.1)) p t v).map fun r => (r, g)
    | some o =>
      if isDeepVal v then
        match g with
        | none =>
          (deepInst (inst E n) (some { aSeen := [.ty o], bSeen := [.val p], seenInA := false, seenInB := false }) p v t).map
            fun r => (r.1, none)
        | some s =>
          let sc := s.append E (.ty o) (.val p)
          if sc.2.hit E then some (true, some sc.1)
          else (deepInst (inst E n) (some sc.2) p v t).map fun r => (r.1, some sc.1)
      else deepInst (inst E n) g p v t

mutual
/-- The nesting of a value -/
def vdepth : Val → Nat
  | .sens v => vdepth v + 1
  | .arr vs => vdepths vs + 1
  | .map es => edepths es + 1
  | _ => 0

def vdepths : List Val → Nat
  | [] => 0
  | v :: vs => max (vdepth v) (vdepths vs)

def edepths : List (Val × Val) → Nat
  | [] => 0
  | (k, v) :: r => max (max (vdepth k) (vdepth v)) (edepths r)
end

mutual
/-- A bound for the depth of the recursion of `inst` and, of two types together, of `asg`. -/
def Ty.depth : Ty → Nat
  | .exactD _ v => vdepth v + 1
  | .sizedArr _ e _ _ => e.depth + 1
  | .tuple _ ts _ => depths ts + 1
  | .sizedMap _ k v _ _ => max k.depth v.depth + 1
  | .struct _ _ fs => depthFields fs + 1
  | .allOf _ ts => depths ts + 1
  | .allOfVal _ vs => vdepths vs + 2
  | .anyOf _ ts => depths ts + 1
  | .oneOf _ ts => depths ts + 1
  | .not t => t.depth + 1
  | .sens _ t => t.depth + 1
  | .metaT t => t.depth + 1
  | _ => 0

def depths : List Ty → Nat
  | [] => 0
  | t :: ts => max t.depth (depths ts)

def depthFields : List (Val × Bool × Ty) → Nat
  | [] => 0
  | (k, _, t) :: r => max (max t.depth (vdepth k + 1)) (depthFields r)
end

/-- `t.Instance(v)`, with enough fuel (theorem `inst_total`). -/
def instanceOf (E : Env) (t : Ty) (v : Val) : Bool :=
  match inst E (t.depth + 1) none t (.user 0, v) with
  | some (r, _) => r
  | none => false

end Verif.Types
