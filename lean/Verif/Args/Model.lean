import Verif.Arr.Model
/-!
# `dgo.Arguments`

internal/arguments.go has a second implementation of `dgo.Array`: a struct in which an `array` is embedded, so that all methods of `array` are those of
its inner array.  What differs is every place that asks whether a value is a `*array`: internal/array.go:238, 565, 842, 901, 971, 1018, 1037, 1049, 1352.

Values are trees: what contains itself is not modelled (so the lists `seen` and the guards of recursion, which never hit, are left out).  Values that are
no arrays are of any type `A`, and are equal if they are equal in `A`.  Arrays have an address, because internal/compare.go:112 compares these.
-/
set_option autoImplicit false
namespace Verif.Args

/-- `&array{…}` at the address `p`, or `&arguments{…}` with `args` -/
inductive Val (A : Type) where
  | atom (a : A)
  | arr (p : Nat) (args : Bool) (es : List (Val A))

variable {A : Type} [DecidableEq A]

/-- `a == b` of interfaces: internal/compare.go:112, 148.  The inner array of arguments has their address, but another type. -/
def Val.same : Val A → Val A → Bool
  | .atom a, .atom b => a == b
  | .arr p k _, .arr q l _ => p == q && k == l
  | _, _ => false

/-- The receiver that a method of `array` sees: internal/arguments.go:7-9. -/
def Val.inner : Val A → Val A
  | .atom a => .atom a
  | .arr p _ es => .arr p false es

mutual
/-- `equals`: internal/compare.go:111-132, and `deepEqual` of arrays: internal/array.go:1017-1022. -/
def equals : Val A → Val A → Bool
  | .atom a, b => Val.same (.atom a) b
  | .arr p k es, b =>
    Val.same (.arr p k es) b ||
      match b with
      | .arr _ false fs => sliceEquals es fs
      | _ => false
/-- `sliceEquals`: internal/compare.go:134-145. -/
def sliceEquals : List (Val A) → List (Val A) → Bool
  | [], [] => true
  | e :: es, f :: fs => equals e f && sliceEquals es fs
  | _, _ => false
end

/-- The method `Equals`: internal/array.go:1013-1015. -/
def Val.Equals (x y : Val A) : Bool := equals x.inner y

mutual
/-- `deepHashCode`: internal/compare.go:98-106, internal/array.go:1094-1101; `h` gives those of the other values. -/
def hashCode (h : A → BitVec 64) : Val A → BitVec 64
  | .atom a => h a
  | .arr _ _ es => hashSlice h 1 es
def hashSlice (h : A → BitVec 64) (acc : BitVec 64) : List (Val A) → BitVec 64
  | [] => acc
  | e :: es => hashSlice h (acc * 31 + hashCode h e) es
end

mutual
/-- `compare`: internal/compare.go:147-175, and `deepCompare` of arrays: internal/array.go:900-932; `none`: they cannot be compared.  `c` compares the other
values.  (`Nil` is one of those; it is not less than arrays here.) -/
def compare (c : A → A → Option Int) : Val A → Val A → Option Int
  | .atom a, b =>
    match b with
    | .atom b => if a = b then some 0 else c a b
    | _ => none
  | .arr p k es, b =>
    if Val.same (.arr p k es) b then some 0
    else
      match b with
      | .arr _ false fs => compareSlice c es fs
      | _ => none
def compareSlice (c : A → A → Option Int) : List (Val A) → List (Val A) → Option Int
  | [], [] => some 0
  | [], _ :: _ => some (-1)
  | _ :: _, [] => some 1
  | e :: es, f :: fs =>
    match compare c e f with
    | none => none
    | some r => if r = 0 then compareSlice c es fs else some r
end

/-- The method `CompareTo`: internal/array.go:896-898. -/
def Val.CompareTo (c : A → A → Option Int) (x y : Val A) : Option Int := compare c x.inner y

/-! ## Types -/

/-- The types of arrays: `any`, a type of other values, `[]any` (`defaultArrayType`), `sizedArrayType`, and `tupleType` with the number of elements or a last
one that repeats.  Exact types are `Exact`. -/
inductive Ty (A : Type) where
  | any
  | atom (p : A → Bool)
  | arrays
  | sized (t : Ty A) (min max : Nat)
  | tuple (ts : List (Ty A)) (variadic : Bool)

mutual
/-- `Instance`: internal/array.go:149-152, 237-243, 564-600. -/
def inst : Ty A → Val A → Bool
  | .any, _ => true
  | .atom p, .atom a => p a
  | .atom _, .arr _ _ _ => false
  | .arrays, .arr _ _ _ => true
  | .arrays, .atom _ => false
  | .sized t min max, .arr _ false es => min ≤ es.length && es.length ≤ max && instAll t es
  | .sized _ _ _, _ => false
  | .tuple ts variadic, .arr _ false es => instTuple ts variadic es
  | .tuple _ _, _ => false
/-- `allInstance`: internal/array.go:1459-1469. -/
def instAll (t : Ty A) : List (Val A) → Bool
  | [] => true
  | e :: es => inst t e && instAll t es
/-- The loops of `tupleInstance`: internal/array.go:570-600 (a variadic tuple has a last type). -/
def instTuple : List (Ty A) → Bool → List (Val A) → Bool
  | [], _, [] => true
  | [], _, _ :: _ => false
  | [t], true, es => instAll t es
  | _ :: _, _, [] => false
  | t :: ts, v, e :: es => inst t e && instTuple ts v es
end

mutual
/-- `v.Type().Instance(w)`: the exact type of an array is a tuple of the types of its elements, internal/array.go:279-349, 327-333, 564-600, and that of
another value accepts that value. -/
def exactInst : Val A → Val A → Bool
  | .atom a, .atom b => a == b
  | .atom _, .arr _ _ _ => false
  | .arr _ _ es, .arr _ false fs => exactInstAll es fs
  | .arr _ _ _, _ => false
def exactInstAll : List (Val A) → List (Val A) → Bool
  | [], [] => true
  | e :: es, f :: fs => exactInst e f && exactInstAll es fs
  | _, _ => false
end

/-! ## Arguments of methods -/

/-- What `Len` and `Each` of an iterable give -/
structure Iter (V : Type) where
  len : Nat
  each : List V

/-- The loops of `sliceFromIterable` and `arrayFromIterator`: internal/array.go:695-716.  Elements are assigned by index to a slice of `Len` Go nils; `none`:
an index is out of range. -/
def fill {V : Type} (s : List (Option V)) (i : Nat) : List V → Option (List (Option V))
  | [] => some s
  | e :: es => if i < s.length then fill (s.set i (some e)) (i + 1) es else none
def sliceFromIterable {V : Type} (it : Iter V) : Option (List (Option V)) := fill (List.replicate it.len none) 0 it.each

/-- The iterable that an array is -/
def iterOf (es : List (Val A)) : Iter (Val A) := ⟨es.length, es⟩

/-- The inner loop of `deepContainsAll`: the first element equal to `e` becomes nil: internal/array.go:982-993. -/
def takeOut (e : Val A) : List (Option (Val A)) → Option (List (Option (Val A)))
  | [] => none
  | none :: vs => (takeOut e vs).map (none :: ·)
  | some b :: vs => if equals b e then some (none :: vs) else (takeOut e vs).map (some b :: ·)

def containsLoop : List (Val A) → List (Option (Val A)) → Bool
  | [], _ => true
  | e :: es, vs =>
    match takeOut e vs with
    | none => false
    | some vs => containsLoop es vs

/-- `ContainsAll`: internal/array.go:956-1000; `none`: it panics. -/
def containsAll (a : List (Val A)) : Val A → Option Bool
  | .atom _ => none
  | .arr _ k fs =>
    if a.length < fs.length then some false
    else if a.length = 0 then some true
    else
      let vs := if k then sliceFromIterable (iterOf fs) else some (fs.map some)
      vs.map fun vs => containsLoop (a.take vs.length) vs

/-- The elements after `AddAll`: internal/array.go:837-848. -/
def addAll (a : List (Val A)) : Val A → List (Val A)
  | .atom _ => a
  | .arr _ k fs => if k then fs.foldl (fun a e => a ++ [e]) a else a ++ fs

mutual
/-- `flattenElements`: internal/array.go:1046-1056.  (`Flatten` returns the receiver where no element is an array, with the same elements.) -/
def flattenElements : List (Val A) → List (Val A) → List (Val A)
  | receiver, [] => receiver
  | receiver, e :: es => flattenElements (flattenElement receiver e) es
def flattenElement : List (Val A) → Val A → List (Val A)
  | receiver, .arr _ false es => flattenElements receiver es
  | receiver, e => receiver ++ [e]
end
/-- `Flatten`: internal/array.go:1034-1044. -/
def flatten (es : List (Val A)) : List (Val A) := flattenElements [] es

/-- `ToMapFromEntries` of elements that are no entries of maps: internal/array.go:1341-1380; the keys and values in order. -/
def entries : List (Val A) → Option (List (Val A × Val A))
  | [] => some []
  | .arr _ false [k, v] :: es => (entries es).map ((k, v) :: ·)
  | _ :: _ => none

/-- `IndexOf`: internal/array.go:1107-1116. -/
def indexOf (x : Val A) : List (Val A) → Option Nat
  | [] => none
  | e :: es => if x.Equals e then some 0 else (indexOf x es).map (· + 1)

/-- `AssertSize`: internal/arguments.go:22-27; `false`: it panics. -/
def assertSize (es : List (Val A)) (min max : Nat) : Bool := !(min > es.length || es.length > max)

/-- `Arg`: internal/arguments.go:29-35; `none`: it panics, also for a position that is none (`Get`). -/
def arg (es : List (Val A)) (n : Int) (t : Ty A) : Option (Val A) :=
  if n < 0 then none else
  match es[n.toNat]? with
  | none => none
  | some v => if inst t v then some v else none

/-! ## Storage -/

open Verif.Arr in
/-- `ArgumentsFromArray`: internal/arguments.go:17-20.  The array is copied: its slice, that is where the elements are, and whether it is frozen. -/
def fromArray {V : Type} (w : World V) (a : Nat) : Out V × World V := onArr w a fun g => newArr w (g.sl, w.stores) g.frozen

open Verif.Arr in
/-- The calls on arrays, and `ArgumentsFromArray` -/
inductive Call (V : Type) where
  | op (o : Op V)
  | args (a : Nat)

open Verif.Arr in
def call {V : Type} [ElemOps V] (grow : Nat → Nat → Nat) (w : World V) : Call V → Out V × World V
  | .op o => exec grow w o
  | .args a => fromArray w a

open Verif.Arr in
def calls {V : Type} [ElemOps V] (grow : Nat → Nat → Nat) (w : World V) : List (Call V) → World V
  | [] => w
  | c :: cs => calls grow (call grow w c).2 cs

/-! ## Specification -/

/-- What is in a value, without addresses, and whether it is an array or arguments -/
inductive Content (A : Type) where
  | atom (a : A)
  | arr (es : List (Content A))

mutual
def Val.content : Val A → Content A
  | .atom a => .atom a
  | .arr _ _ es => .arr (contents es)
def contents : List (Val A) → List (Content A)
  | [] => []
  | e :: es => e.content :: contents es
end

mutual
/-- There are no arguments in it. -/
def Val.Plain : Val A → Prop
  | .atom _ => True
  | .arr _ k es => k = false ∧ AllPlain es
def AllPlain : List (Val A) → Prop
  | [] => True
  | e :: es => e.Plain ∧ AllPlain es
end

mutual
/-- What is at an address is what the heap has there. -/
def Val.On (heap : Nat → List (Val A)) : Val A → Prop
  | .atom _ => True
  | .arr p _ es => heap p = es ∧ AllOn heap es
def AllOn (heap : Nat → List (Val A)) : List (Val A) → Prop
  | [] => True
  | e :: es => e.On heap ∧ AllOn heap es
end

mutual
/-- The addresses in it -/
def Val.addrs : Val A → List Nat
  | .atom _ => []
  | .arr p _ es => p :: allAddrs es
def allAddrs : List (Val A) → List Nat
  | [] => []
  | e :: es => e.addrs ++ allAddrs es
end

/-- It is arguments. -/
def Val.IsArgs : Val A → Prop
  | .arr _ true _ => True
  | _ => False

mutual
/-- What a type means, for contents -/
def Ty.Means : Ty A → Content A → Prop
  | .any, _ => True
  | .atom p, .atom a => p a = true
  | .atom _, .arr _ => False
  | .arrays, .arr _ => True
  | .arrays, .atom _ => False
  | .sized t min max, .arr es => min ≤ es.length ∧ es.length ≤ max ∧ ∀ e ∈ es, Ty.Means t e
  | .sized _ _ _, .atom _ => False
  | .tuple ts v, .arr es => MeansTuple ts v es
  | .tuple _ _, .atom _ => False
def MeansTuple : List (Ty A) → Bool → List (Content A) → Prop
  | [], _, es => es = []
  | [t], true, es => ∀ e ∈ es, Ty.Means t e
  | t :: ts, v, es => ∃ e r, es = e :: r ∧ Ty.Means t e ∧ MeansTuple ts v r
end

mutual
/-- The values that are no arrays, in order -/
def Content.leaves : Content A → List A
  | .atom a => [a]
  | .arr es => leavesAll es
def leavesAll : List (Content A) → List A
  | [] => []
  | e :: es => e.leaves ++ leavesAll es
end

end Verif.Args
