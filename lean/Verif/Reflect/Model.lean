import Verif.Value.Model
/-!
# Go values: conversion from and to `dgo.Value`

`vf.Value(x)` and `vf.FromValue(v, &x)`, that is `ValueFromReflected` and `ReflectTo` in internal/value.go with the methods that they call.

Simplifications, for the whole file:
* a Go value is a tree: a pointer is what it points to, a slice its elements, a map its entries (in no particular order).  What shares
  storage with what is the subject of `Verif/Reflect/Alias`.
* the types are those of `GT`.  Not modelled: named types other than `time.Time` and `regexp.Regexp`, other structs (see
  `Verif/Reflect/Struct`), Go arrays, channels, functions, complex numbers, `uintptr`, interfaces with methods other than those of `VK`,
  errors, types as values.
* a `dgo` value is a tree as in `Verif/Value`.
* a `none` is a panic, if nothing else is said.
-/
set_option autoImplicit false
set_option linter.unusedVariables false
namespace Verif.Reflect
open Verif.Value

/-- The integer types of Go; `int` and `uint` have 64 bits. -/
inductive IK where
  | int | int8 | int16 | int32 | int64 | uint | uint8 | uint16 | uint32 | uint64
  deriving DecidableEq, Repr

namespace IK
def bits : IK → Nat
  | int8 | uint8 => 8
  | int16 | uint16 => 16
  | int32 | uint32 => 32
  | _ => 64
def signed : IK → Bool
  | int | int8 | int16 | int32 | int64 => true
  | _ => false
end IK

/-- Go interfaces that extend `dgo.Value`: `dgo.Value`, `dgo.Sensitive`, `dgo.MapEntry` and `dgo.Type`. -/
inductive VK where
  | any | sens | entry | type
  deriving DecidableEq, Repr

/-- Go types. -/
inductive GT where
  | bool
  | int (k : IK)
  | float32
  | float64
  | string
  /-- `time.Time` -/
  | time
  /-- the struct `regexp.Regexp` -/
  | regexp
  | slice (e : GT)
  | map (k v : GT)
  | ptr (e : GT)
  /-- `interface{}` -/
  | iface
  | value (k : VK)
  deriving DecidableEq, Repr

abbrev F32 := BitVec 32

/-- Values of Go variables. -/
inductive GV where
  | bool (b : Bool)
  | int (k : IK) (n : Int)
  | float32 (f : F32)
  | float64 (f : F64)
  | string (s : Str)
  | time (ns : Int)
  | regexp (s : Str)
  /-- `none`: the nil slice -/
  | slice (e : GT) (vs : Option (List GV))
  | map (k v : GT) (es : Option (List (GV × GV)))
  | ptr (e : GT) (v : Option GV)
  /-- The content is not an interface; a `value` in it is the object of a `dgo` value (a pointer to a `sensitive` or a `mapEntry`). -/
  | iface (v : Option GV)
  | value (k : VK) (v : Option Val)

def GV.type : GV → GT
  | .bool _ => .bool
  | .int k _ => .int k
  | .float32 _ => .float32
  | .float64 _ => .float64
  | .string _ => .string
  | .time _ => .time
  | .regexp _ => .regexp
  | .slice e _ => .slice e
  | .map k v _ => .map k v
  | .ptr e _ => .ptr e
  | .iface _ => .iface
  | .value k _ => .value k

/-- What the hardware computes -/
structure Env where
  /-- Go `float32(f)` -/
  narrow : F64 → F32
  /-- Go `float64(f)` -/
  widen : F32 → F64

/-! ## From `dgo` to Go -/

/-- Go's conversions of an `int64`: to the integer type `k`. -/
def wrap (k : IK) (i : BitVec 64) : Int :=
  if k.signed then (i.setWidth k.bits).toInt else ((i.setWidth k.bits).toNat : Int)

/-- `reflect.Zero` -/
def zero : GT → GV
  | .bool => .bool false
  | .int k => .int k 0
  | .float32 => .float32 0
  | .float64 => .float64 0
  | .string => .string []
  /- the first of January of the year 1 -/
  | .time => .time (-62135596800000000000)
  | .regexp => .regexp []
  | .slice e => .slice e none
  | .map k v => .map k v none
  | .ptr e => .ptr e none
  | .iface => .iface none
  | .value k => .value k none

/-- `reflect.Type.AssignableTo` -/
def GT.assignableTo (a b : GT) : Bool :=
  a == b ||
    match b, a with
    | .iface, _ => true
    | .value .any, .value _ => true
    | _, _ => false

/-- Can it be the type of keys of a Go map? -/
def GT.comparable : GT → Bool
  | .slice _ | .map .. | .regexp => false
  | _ => true

/-- `reflect.MapOf` -/
def mapOf (k v : GT) : Option GT := if k.comparable then some (.map k v) else none

/-- `commonReflectTo`: internal/ternary.go:503-520; `prev` is the type so far.  The types of no values have none (in Go: nil). -/
def common : Option GT → List GT → Option GT
  | prev, [] => prev
  | none, t :: ts => common (some t) ts
  | some p, t :: ts => if t.assignableTo p then common (some p) ts else if p.assignableTo t then common (some t) ts else some .iface

mutual
/-- `v.Type().ReflectType()`: nil.go:74-76, boolean.go:101-103, integer.go:185-187, float.go:165-167, string.go:272-274,
binary.go:166-168, time.go:83-85, regexp.go:82-84, sensitive.go:75-77, array.go:287-296 and 327-329, map.go:67-69, 1241-1247, 1265-1267 and
1291-1297. -/
def rtype : Val → Option GT
  | .nil => some .iface
  | .bool _ => some .bool
  | .int _ => some (.int .int64)
  | .float _ => some .float64
  | .str _ => some .string
  | .bin _ => some (.slice (.int .uint8))
  | .time _ => some .time
  | .regexp _ => some (.ptr .regexp)
  | .sens _ => some (.value .sens)
  | .arr vs => if vs.isEmpty then some (.slice .iface) else ((rtypes vs).bind fun ts => common none ts).map .slice
  | .map es =>
    if es.isEmpty then some (.map .iface .iface)
    else (rtypeEntries es).bind fun ts => (common none (ts.map (·.1))).bind fun k => (common none (ts.map (·.2))).bind fun v => mapOf k v
  | .entry .. => some (.value .entry)

def rtypes : List Val → Option (List GT)
  | [] => some []
  | v :: vs => (rtype v).bind fun t => (rtypes vs).map (t :: ·)

def rtypeEntries : List (Val × Val) → Option (List (GT × GT))
  | [] => some []
  | (k, v) :: es => (rtype k).bind fun t => (rtype v).bind fun u => (rtypeEntries es).map ((t, u) :: ·)
end

/-- Has a key of a Go map a hash code?  If not, `SetMapIndex` panics. -/
def hashable : GV → Bool
  | .slice .. | .map .. | .regexp _ => false
  | .iface (some g) => hashable g
  | _ => true

/-- Go's `==` of keys of maps of the same type.  Pointers are equal if they point to the same object: those that `ReflectTo` makes never do. -/
def keyEq (E : Env) : GV → GV → Bool
  | .bool a, .bool b => a == b
  | .int k a, .int k' b => k == k' && a == b
  | .float32 a, .float32 b => F64.eq (E.widen a) (E.widen b)
  | .float64 a, .float64 b => F64.eq a b
  | .string a, .string b => a == b
  | .time a, .time b => a == b
  | .ptr e none, .ptr e' none => e == e'
  | .iface none, .iface none => true
  | .iface (some a), .iface (some b) => keyEq E a b
  | .value _ none, .value _ none => true
  /- integers, floats, booleans and nil are compared by content, the others are pointers -/
  | .value _ (some (.int a)), .value _ (some (.int b)) => a == b
  | .value _ (some (.float a)), .value _ (some (.float b)) => F64.eq a b
  | .value _ (some (.bool a)), .value _ (some (.bool b)) => a == b
  | .value _ (some .nil), .value _ (some .nil) => true
  | _, _ => false

/-- `reflect.Value.SetMapIndex` -/
def setIndex (E : Env) (k v : GV) : List (GV × GV) → List (GV × GV)
  | [] => [(k, v)]
  | e :: es => if keyEq E k e.1 then (e.1, v) :: es else e :: setIndex E k v es

/-- Does the object of a `dgo` value implement the interface?  (No `Val` is a type.) -/
def VK.has : VK → Val → Bool
  | .any, _ => true
  | .sens, .sens _ => true
  | .entry, .entry .. => true
  | _, _ => false

/-- `intVal.ReflectTo` and `intPointer`: internal/integer.go:306-355. -/
def intTo (i : BitVec 64) : GT → Option GV
  | .int k => some (.int k (wrap k i))
  | .ptr (.int k) => some (.ptr (.int k) (some (.int k (wrap k i))))
  | .iface => some (.iface (some (.int .int64 (wrap .int64 i))))
  | _ => none

/-- `floatVal.ReflectTo`: internal/float.go:290-305. -/
def floatTo (E : Env) (f : F64) : GT → Option GV
  | .iface => some (.iface (some (.float64 f)))
  | .ptr .float32 => some (.ptr .float32 (some (.float32 (E.narrow f))))
  | .ptr .float64 => some (.ptr .float64 (some (.float64 f)))
  | .float32 => some (.float32 (E.narrow f))
  | .float64 => some (.float64 f)
  | _ => none

/-- `hstring.ReflectTo`: internal/string.go:598-607. -/
def strTo (s : Str) : GT → Option GV
  | .iface => some (.iface (some (.string s)))
  | .ptr .string => some (.ptr .string (some (.string s)))
  | .string => some (.string s)
  | _ => none

/-- `boolean.ReflectTo`: internal/boolean.go:150-160. -/
def boolTo (b : Bool) : GT → Option GV
  | .iface => some (.iface (some (.bool b)))
  | .ptr .bool => some (.ptr .bool (some (.bool b)))
  | .bool => some (.bool b)
  | _ => none

/-- A `[]byte` -/
def bytes (b : List UInt8) : GV := .slice (.int .uint8) (some (b.map fun x => .int .uint8 x.toNat))

/-- `binary.ReflectTo`: internal/binary.go:378-389. -/
def binTo (b : List UInt8) : GT → Option GV
  | .ptr (.slice (.int .uint8)) => some (.ptr (.slice (.int .uint8)) (some (bytes b)))
  | .slice (.int .uint8) => some (bytes b)
  | .iface => some (.iface (some (bytes b)))
  | _ => none

/-- `timeVal.ReflectTo`: internal/time.go:169-176. -/
def timeTo (t : Int) : GT → Option GV
  | .ptr .time => some (.ptr .time (some (.time t)))
  | .iface => some (.iface (some (.ptr .time (some (.time t)))))
  | .time => some (.time t)
  | _ => none

/-- `regexpVal.ReflectTo`: internal/regexp.go:117-124. -/
def regexpTo (s : Str) : GT → Option GV
  | .ptr .regexp => some (.ptr .regexp (some (.regexp s)))
  | .iface => some (.iface (some (.ptr .regexp (some (.regexp s)))))
  | .regexp => some (.regexp s)
  | _ => none

/-- The types that `array.ReflectTo` (internal/array.go:1173-1180) and `hashMap.ReflectTo` (internal/map.go:679-686) look at: that of what is
made, and the variable that it is put in. -/
inductive Into where
  | here | ptr | iface

def target (rt : Option GT) : GT → Option (GT × Into)
  | .ptr .iface => none      -- a pointer to the slice or map is not a pointer to an interface: `Set` panics
  | .ptr t => some (t, .ptr)
  | .iface => rt.map fun t => (t, .iface)
  | t => some (t, .here)

def Into.put (g : GV) : Into → GV
  | .here => g
  | .ptr => .ptr g.type (some g)
  | .iface => .iface (some g)

mutual
/-- `ReflectTo`: internal/value.go:156-164, and the methods `ReflectTo`. -/
def reflectTo (E : Env) : Val → GT → Option GV
  | v, .value k => if k.has v then some (.value k (some v)) else none
  | .nil, t => some (zero t)
  | .bool b, t => boolTo b t
  | .int i, t => intTo i t
  | .float f, t => floatTo E f t
  | .str s, t => strTo s t
  | .bin b, t => binTo b t
  | .time ns, t => timeTo ns t
  | .regexp s, t => regexpTo s t
  /- these two are no `dgo.ReflectedValue` -/
  | .sens v, .iface => some (.iface (some (.value .sens (some (.sens v)))))
  | .sens _, _ => none
  | .entry k v, .iface => some (.iface (some (.value .entry (some (.entry k v)))))
  | .entry .., _ => none
  /- array.go:1172-1199.  That an array that is not frozen hands out its slice is not seen here. -/
  | .arr vs, t =>
    match target (rtype (.arr vs)) t with
    | some (.slice e, i) => (reflectAll E vs e).map fun gs => i.put (.slice e (some gs))
    | _ => none
  /- map.go:678-704 -/
  | .map es, t =>
    match target (rtype (.map es)) t with
    | some (.map k v, i) => (reflectEntries E es k v []).map fun gs => i.put (.map k v (some gs))
    | _ => none

def reflectAll (E : Env) : List Val → GT → Option (List GV)
  | [], _ => some []
  | v :: vs, t => (reflectTo E v t).bind fun g => (reflectAll E vs t).map (g :: ·)

/-- The loop in map.go:690-696; `m` is the Go map. -/
def reflectEntries (E : Env) : List (Val × Val) → GT → GT → List (GV × GV) → Option (List (GV × GV))
  | [], _, _, m => some m
  | (k, v) :: es, kt, vt, m =>
    (reflectTo E k kt).bind fun gk => (reflectTo E v vt).bind fun gv =>
      if hashable gk then reflectEntries E es kt vt (setIndex E gk gv m) else none
end

/-! ## From Go to `dgo` -/

/-- The reasons for which there is no `Val` -/
inductive NoVal where
  /-- a panic -/
  | panic
  /-- The value is a `dgo.Native`, or one is in it. -/
  | native
  /-- A Go `nil` is in it, which is no `dgo` value. -/
  | goNil
  deriving DecidableEq

/-- `ToInt`: internal/integer.go:376-412. -/
def ofInt (k : IK) (n : Int) : Except NoVal Val :=
  if (k = .uint ∨ k = .uint64) ∧ n = 2 ^ 64 - 1 then .error .panic else .ok (.int (BitVec.ofInt 64 n))

/-- Is the key one that is not equal to itself? -/
def nanKey (E : Env) : GV → Bool
  | .float32 f => (E.widen f).isNaN
  | .float64 f => f.isNaN
  | .iface (some g) => nanKey E g
  | .value _ (some (.float f)) => f.isNaN
  | _ => false

/-- The bytes of a `[]byte` -/
def byte : GV → UInt8
  | .int _ n => UInt8.ofNat n.toNat
  | _ => 0

/-- The value of a `*regexp.Regexp` -/
def regexpOf : GV → Except NoVal Val
  | .regexp s => .ok (.regexp s)
  | _ => .error .native

def goNil : GV → Bool
  | .value _ none => true
  | _ => false

/-- Is the value a `dgo.Native`?  That has no frozen copy: native.go:104-106. -/
def isNative : GV → Bool
  | .regexp _ => true
  | .ptr e (some g) => if e = .regexp then false else if e = .time then true else isNative g
  | .iface (some g) => isNative g
  | _ => false

mutual
/-- `ValueFromReflected`: internal/value.go:98-143 and `value`: value.go:48-84. -/
def fromReflected (E : Env) : GV → Except NoVal Val
  | .bool b => .ok (.bool b)
  | .int k n => ofInt k n
  | .float32 f => .ok (.float (E.widen f))
  | .float64 f => .ok (.float f)
  | .string s => .ok (.str s)
  | .time ns => .ok (.time ns)
  | .regexp _ => .error .native
  /- `ArrayFromReflected`: array.go:719-755 -/
  | .slice _ none => .ok .nil
  | .slice e (some gs) =>
    if e = .int .uint8 then .ok (.bin (gs.map byte))
    else (fromAll E (e == .value .any) gs).map .arr
  /- `FromReflectedMap`: map.go:265-314.  The entries come in the order of Go's `MapKeys`, for which see `keyLess`. -/
  | .map _ _ none => .ok .nil
  | .map _ _ (some es) => (fromEntries E es).map .map
  | .ptr _ none => .ok .nil
  /- a pointer to a struct is a native value, unless `value` knows its type -/
  | .ptr e (some g) => if e = .regexp then regexpOf g else if e = .time then .error .native else fromReflected E g
  | .iface none => .ok .nil
  | .iface (some g) => fromReflected E g
  | .value _ none => .ok .nil
  | .value _ (some v) => .ok v

/-- The elements of a slice.  `vs`: it is a `[]dgo.Value`, whose elements are taken as they are. -/
def fromAll (E : Env) (vs : Bool) : List GV → Except NoVal (List Val)
  | [] => .ok []
  | g :: gs =>
    if vs && goNil g then .error .goNil
    else (if isNative g then .error .panic else fromReflected E g).bind fun v => (fromAll E vs gs).map (v :: ·)

def fromEntries (E : Env) : List (GV × GV) → Except NoVal (List (Val × Val))
  | [] => .ok []
  | (k, v) :: es =>
    (fromReflected E k).bind fun a =>
      /- `MapIndex` of a key that is not equal to itself finds nothing. -/
      (if nanKey E k then .ok .nil else fromReflected E v).bind fun b => (fromEntries E es).map ((a, b) :: ·)
end

/-- The order that `FromReflectedMap` hands to `sort.Slice`: internal/map.go:292-301. -/
def keyLess (a b : Val × Val) : Bool := a.1.comparable && cmp a.1 b.1 == some .lt

end Verif.Reflect
