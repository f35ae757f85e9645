import Verif.Reflect.Model
import Verif.Value.Eq
/-!
# What a Go variable can hold without loss
-/
set_option autoImplicit false
set_option linter.unusedVariables false
namespace Verif.Reflect
open Verif.Value

/-- The smallest and the greatest number of an integer type -/
def IK.min (k : IK) : Int := if k.signed then -(2 ^ (k.bits - 1)) else 0
def IK.max (k : IK) : Int := if k.signed then 2 ^ (k.bits - 1) - 1 else 2 ^ k.bits - 1

mutual
/-- There is no time in the value. -/
def NoTime : Val → Prop
  | .time _ => False
  | .arr vs => NoTimes vs
  | .map es => NoTimeEntries es
  | _ => True

def NoTimes : List Val → Prop
  | [] => True
  | v :: vs => NoTime v ∧ NoTimes vs

def NoTimeEntries : List (Val × Val) → Prop
  | [] => True
  | (k, v) :: es => NoTime k ∧ NoTime v ∧ NoTimeEntries es
end

/-- A variable of the type can hold the value: numbers are in range, `nil` is not put in a type that has none, an array is not put in a
`[]byte`, a time not behind a pointer or in an `interface{}`, and a regexp is behind a pointer. -/
def Survives (E : Env) : GT → Val → Prop
  | .bool, v => v ≠ .nil
  | .int k, v => v ≠ .nil ∧ ∀ i, v = .int i → k.min ≤ i.toInt ∧ i.toInt ≤ k.max
  | .float32, v => v ≠ .nil ∧ ∀ f, v = .float f → E.widen (E.narrow f) = f
  | .float64, v => v ≠ .nil
  | .string, v => v ≠ .nil
  | .time, v => v ≠ .nil
  | .regexp, _ => False
  | .slice e, v => ∀ vs, v = .arr vs → e ≠ .int .uint8 ∧ ∀ x ∈ vs, Survives E e x
  | .map k w, v => ∀ es, v = .map es → ∀ e ∈ es, Survives E k e.1 ∧ Survives E w e.2
  | .ptr e, v => v = .nil ∨ e = .regexp ∨ (e ≠ .time ∧ Survives E e v)
  | .iface, v => NoTime v
  | .value _, _ => True

/-- A value that Go can look up: no slice and no map -/
def Simple : Val → Prop
  | .arr _ | .map _ | .bin _ => False
  | _ => True

mutual
/-- No map in the value has a key that is an array, a map or a binary. -/
def SimpleKeys : Val → Prop
  | .arr vs => SimpleKeysAll vs
  | .map es => SimpleKeysEntries es
  | _ => True

def SimpleKeysAll : List Val → Prop
  | [] => True
  | v :: vs => SimpleKeys v ∧ SimpleKeysAll vs

def SimpleKeysEntries : List (Val × Val) → Prop
  | [] => True
  | (k, v) :: es => Simple k ∧ SimpleKeys v ∧ SimpleKeysEntries es
end

mutual
/-- A value that a Go program can have: what is in it is of the types that it says. -/
def Typed : GV → Prop
  | .int k n => k.min ≤ n ∧ n ≤ k.max
  | .slice e (some gs) => TypedAll e gs
  | .map k v (some es) => TypedEntries k v es
  | .ptr e (some g) => g.type = e ∧ Typed g
  | .iface (some g) => g.type ≠ .iface ∧ Typed g
  | .value k (some v) => k.has v = true
  | _ => True

def TypedAll (e : GT) : List GV → Prop
  | [] => True
  | g :: gs => g.type = e ∧ Typed g ∧ TypedAll e gs

def TypedEntries (k v : GT) : List (GV × GV) → Prop
  | [] => True
  | (a, b) :: es => (a.type = k ∧ Typed a) ∧ (b.type = v ∧ Typed b) ∧ TypedEntries k v es
end

/-! ## Go values that come back -/

/-- The dynamic type of a variable -/
def dyn : GV → GT
  | .iface (some g) => g.type
  | g => g.type

/-- A slice of elements of these types is made with elements of the type `e`. -/
def Joined (e : GT) (ts : List GT) : Prop :=
  if ts = [] then e = .iface else (∀ t ∈ ts, t = e) ∨ e = .iface ∧ ∃ a ∈ ts, ∃ b ∈ ts, a ≠ b

mutual
/-- The type of the variable is the one that is made for what is in it if nothing is known about the variable. -/
def Std : GV → Prop
  | .bool _ | .float64 _ | .string _ | .time _ | .iface none => True
  | .int k _ => k = .int64
  | .slice e (some gs) => e = .int .uint8 ∨ Joined e (gs.map dyn) ∧ StdAll gs
  | .map k v (some es) => Joined k (es.map fun e => dyn e.1) ∧ Joined v (es.map fun e => dyn e.2) ∧ StdEntries es
  | .ptr e (some _) => e = .regexp
  | .iface (some g) => Std g
  | .value k (some _) => k ≠ .any
  | _ => False

def StdAll : List GV → Prop
  | [] => True
  | g :: gs => Std g ∧ StdAll gs

def StdEntries : List (GV × GV) → Prop
  | [] => True
  | (k, v) :: es => Std k ∧ Std v ∧ StdEntries es
end

/-- Types that a pointer to a value of comes back for -/
def Pointed : GT → Prop
  | .ptr _ | .iface | .value _ | .time => False
  | _ => True

mutual
/-- Go values that come back: what is in an `interface{}` has a type that `dgo` would choose, pointers point to something that is not nil
and not a pointer, a `dgo.Value` is not nil; for the rest these are the rules of Go. -/
def Returns (E : Env) : GV → Prop
  | .int k n => k.min ≤ n ∧ n ≤ k.max
  | .float32 f => E.narrow (E.widen f) = f
  | .slice e (some gs) => (∀ g ∈ gs, g.type = e) ∧ ReturnsAll E gs
  | .map k v (some es) => k.comparable = true ∧ (∀ e ∈ es, e.1.type = k ∧ e.2.type = v) ∧ (∀ e ∈ es, hashable e.1 = true ∧ nanKey E e.1 = false) ∧
      es.Pairwise (fun a b => keyEq E b.1 a.1 = false) ∧ ReturnsEntries E es
  | .ptr e (some g) => g.type = e ∧ Pointed e ∧ (∀ t, g ≠ .slice t none) ∧ (∀ t u, g ≠ .map t u none) ∧ Returns E g
  | .iface (some g) => g.type ≠ .iface ∧ g.type ≠ .time ∧ Std g ∧ Returns E g
  | .value k v => ∃ x, v = some x ∧ k.has x = true
  | _ => True

def ReturnsAll (E : Env) : List GV → Prop
  | [] => True
  | g :: gs => Returns E g ∧ ReturnsAll E gs

def ReturnsEntries (E : Env) : List (GV × GV) → Prop
  | [] => True
  | (k, v) :: es => Returns E k ∧ Returns E v ∧ ReturnsEntries E es
end

mutual
/-- There is nothing in the value that has no `dgo.Value`: the greatest `uint64`, a `regexp.Regexp` or `time.Time` that is not where it is
expected (behind a pointer, not behind one), a nil `dgo.Value` in a slice of them. -/
def Known : GV → Prop
  | .int k n => k.signed ∨ n ≠ 2 ^ 64 - 1
  | .regexp _ => False
  | .slice e (some gs) => e = .int .uint8 ∨ KnownAll e gs
  | .map _ _ (some es) => KnownEntries es
  | .ptr e (some g) => if e = .regexp then ∃ s, g = .regexp s else e ≠ .time ∧ Known g
  | .iface (some g) => Known g
  | _ => True

def KnownAll (e : GT) : List GV → Prop
  | [] => True
  | g :: gs => (e ≠ .value .any ∨ ∀ k, g ≠ .value k none) ∧ Known g ∧ KnownAll e gs

def KnownEntries : List (GV × GV) → Prop
  | [] => True
  | (k, v) :: es => Known k ∧ Known v ∧ KnownEntries es
end

/-- Types of keys for which Go and `dgo` agree on which are equal -/
def KeyType : GT → Prop
  | .bool | .int _ | .float32 | .float64 | .string | .time => True
  | _ => False

/-- What `sort.Slice` promises for a strict weak order -/
def Sorted {α : Type} (less : α → α → Bool) (l r : List α) : Prop := r.Perm l ∧ r.Pairwise fun a b => less b a = false

/-- The value that a Go variable has before anything is assigned to it: the Go specification, "The zero value".  That of a time is the first of
January of the year 1, UTC. -/
def IsZero : GV → Prop
  | .bool b => b = false
  | .int _ n => n = 0
  | .float32 f => f.toNat = 0
  | .float64 f => f.toNat = 0
  | .string s => s = []
  | .time ns => ns = -(719162 * 86400 * 10 ^ 9)
  | .regexp s => s = []
  | .slice _ x => x = none
  | .map _ _ x => x = none
  | .ptr _ x => x = none
  | .iface x => x = none
  | .value _ x => x = none

end Verif.Reflect
