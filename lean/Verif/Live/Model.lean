import Verif.HMap.Model
/-!
# Types of arrays as elements and keys

`Type()` of an array is a type that holds the array itself, not a copy of it, and a type can be an element of an array or a key of a map.  Types are not
`Freezable`, so `Freeze`, `FrozenCopy` and `Put` pass them by.

Simplifications, for the whole file:
* the collections are arrays (`hashMap.Type` and `binary.Type`, map.go:841-845 and binary.go:395-399, hold the map and the binary in the same way).  Other
  values, and other types, are numbers (`atom`).
* an array owns its elements: sharing of backing storage is the subject of `Verif/Arr`.
* the guard against endless recursion in `equals` and `deepHashCode` is left out, as it is never hit in values that do not contain themselves; `none` means
  that the fuel does not suffice.  `Verif/Graph` has equality of values that do.
* two calls of `Type` give two objects, that differ in nothing but their addresses; here they are the same.
-/
set_option autoImplicit false
namespace Verif.Live

/-- A `dgo.Value` -/
inductive Ref where
  | atom (i : BitVec 64)
  /-- the array with this address -/
  | obj (p : Nat)
  /-- what `Type()` of the array with this address gives, an `exactArrayType`: internal/array.go:1378-1382 -/
  | type (p : Nat)
  deriving Repr, DecidableEq

/-- `array`: internal/array.go:15-18. -/
structure Obj where
  frozen : Bool
  es : List Ref
  deriving Repr, DecidableEq

abbrev Heap := List Obj

/-- `f` on all elements, from left to right, each time with the heap that is left by the one before -/
def mapHeap (f : Ref → Heap → Option (Ref × Heap)) : List Ref → Heap → Option (List Ref × Heap)
  | [], h => some ([], h)
  | r :: rs, h => (f r h).bind fun x => (mapHeap f rs x.2).map fun y => (x.1 :: y.1, y.2)

def eachHeap (f : Ref → Heap → Option Heap) : List Ref → Heap → Option Heap
  | [], h => some h
  | r :: rs, h => (f r h).bind (eachHeap f rs)

/-- `Freeze`: internal/array.go:1058-1069.  Only called for what is `Freezable`, as types are not. -/
def freeze : Nat → Ref → Heap → Option Heap
  | _, .atom _, h => some h
  | _, .type _, h => some h
  | 0, .obj _, _ => none
  | n + 1, .obj p, h =>
    match h[p]? with
    | none => none
    | some o => if o.frozen then some h else eachHeap (freeze n) o.es (h.set p { o with frozen := true })

/-- `FrozenCopy` and `ThawedCopy` (`frozen` tells which): internal/array.go:935-954 and 1075-1081. -/
def copy (frozen : Bool) : Nat → Ref → Heap → Option (Ref × Heap)
  | _, .atom i, h => some (.atom i, h)
  | _, .type p, h => some (.type p, h)
  | 0, .obj _, _ => none
  | n + 1, .obj p, h =>
    match h[p]? with
    | none => none
    | some o =>
      if frozen && o.frozen then some (.obj p, h)
      else (mapHeap (copy frozen n) o.es h).map fun x => (.obj x.2.length, x.2 ++ [⟨frozen, x.1⟩])

/-- The calls of a program -/
inductive Op where
  /-- `Values(xs)` (frozen) and `MutableValues(xs)` -/
  | values (frozen : Bool) (xs : List Ref)
  /-- `tf.Tuple` of the types of these values -/
  | tuple (xs : List Ref)
  | add (p : Nat) (x : Ref)
  | set (p : Nat) (i : Nat) (x : Ref)
  | remove (p : Nat) (i : Nat)
  | freeze (p : Nat)
  | copy (frozen : Bool) (p : Nat)
  deriving Repr

/-- What a call gives back -/
inductive Out where
  | unit
  | ref (r : Ref)
  | panic
  deriving Repr, DecidableEq

/-- A call that changes the elements of an array; it panics if the array is frozen. -/
def change (h : Heap) (p : Nat) (f : List Ref → Option (List Ref)) : Option (Out × Heap) :=
  match h[p]? with
  | none => none
  | some o =>
    if o.frozen then some (.panic, h)
    else
      match f o.es with
      | none => some (.panic, h)
      | some es => some (.unit, h.set p { o with es := es })

/-- The calls: `Values` and `MutableValues`, internal/array.go:769-775, 792-806 and 826-828; `newTupleType` with exact types only, 381-395, the array in which
is frozen while its elements are as they are; `Add`, 830-835; `Set`, 1263-1270; `Remove`, 1201-1219; `Freeze`; `Copy`.  `none`: the call does not return.
A position is not negative. -/
def exec (fuel : Nat) (h : Heap) : Op → Option (Out × Heap)
  | .values frozen xs =>
    if frozen then (mapHeap (copy true fuel) xs h).map fun x => (.ref (.obj x.2.length), x.2 ++ [⟨true, x.1⟩])
    else some (.ref (.obj h.length), h ++ [⟨false, xs⟩])
  | .tuple xs => some (.ref (.type h.length), h ++ [⟨true, xs⟩])
  | .add p x => change h p fun es => some (es ++ [x])
  | .set p i x => change h p fun es => if i < es.length then some (es.set i x) else none
  | .remove p i => change h p fun es => some (es.eraseIdx i)
  | .freeze p => (freeze fuel (.obj p) h).map fun h => (.unit, h)
  | .copy frozen p => (copy frozen fuel (.obj p) h).map fun x => (.ref x.1, x.2)

/-- A program; a panic of one call is recovered. -/
def run (fuel : Nat) : Heap → List Op → Option Heap
  | h, [] => some h
  | h, op :: ops => (exec fuel h op).bind fun x => run fuel x.2 ops

/-! ## What the types answer -/

/-- The loop of `sliceEquals`, internal/compare.go:134-145. -/
def allEq (f : Ref → Ref → Option Bool) : List Ref → List Ref → Option Bool
  | a :: as, b :: bs => (f a b).bind fun x => if x then allEq f as bs else some false
  | _, _ => some true

/-- `equals`: internal/compare.go:111-132; arrays, array.go:1017-1022; types, exact.go:62-67. -/
def equals (h : Heap) : Nat → Ref → Ref → Option Bool
  | _, .atom i, .atom j => some (i == j)
  | 0, _, _ => none
  | n + 1, .obj p, .obj q =>
    if p = q then some true
    else
      match h[p]?, h[q]? with
      | some a, some b => if a.es.length = b.es.length then allEq (equals h n) a.es b.es else some false
      | _, _ => none
  | n + 1, .type p, .type q => equals h n (.obj p) (.obj q)
  | _ + 1, _, _ => some false

/-- `Instance` of the type of an array: internal/exact.go:73-75. -/
def instanceOf (h : Heap) (n : Nat) (p : Nat) (x : Ref) : Option Bool := equals h n (.obj p) x

/-- The loop of `array.deepHashCode`: internal/array.go:1094-1101. -/
def hashAll (f : Ref → Option (BitVec 64)) : BitVec 64 → List Ref → Option (BitVec 64)
  | acc, [] => some acc
  | acc, r :: rs => (f r).bind fun x => hashAll f (acc * 31 + x) rs

/-- `HashCode`: integer.go:302-304 for atoms; arrays, array.go:1090-1101; types, exact.go:69-71, where `dgo.TiArrayExact` is 31. -/
def hashCode (h : Heap) : Nat → Ref → Option (BitVec 64)
  | _, .atom i => some (i ^^^ i.sshiftRight 32)
  | 0, _ => none
  | n + 1, .obj p =>
    match h[p]? with
    | none => none
    | some a => hashAll (hashCode h n) 1 a.es
  | n + 1, .type p => (hashCode h n (.obj p)).map fun x => x * 7 + 31

/-- What a `hashMap` asks its keys, at the time when the heap is `h`: `frozenCopy` is the identity on values that are not arrays. -/
@[reducible] def keyOps (h : Heap) (n : Nat) : HMap.KeyOps Ref where
  hash k := (hashCode h n k).getD 0
  eq k l := (equals h n k l).getD false
  freeze k := k

end Verif.Live
