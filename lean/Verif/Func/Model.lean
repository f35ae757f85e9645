/-!
# Equality of functions and of function types

internal/function.go.  The types in the parameters and results are function types again, or other types, of which only `Equals` and `HashCode` are
used (`Leaf`).  No type here contains itself, so that what `equals` and `deepHashCode` (compare.go:101-132) do about types that they have met
already does not show.
-/
set_option autoImplicit false
namespace Verif.Func

/-- The other types -/
class Leaf (L : Type) where
  eq : L → L → Bool
  hash : L → BitVec 64

/-- A type of Go, as far as functions are concerned: `reflect.Type`.  The last parameter of a variadic function is given by the type of its
elements. -/
inductive GoT (L : Type) where
  | leaf (l : L)
  | func (ins : List (GoT L)) (variadic : Bool) (outs : List (GoT L))

/-- A function type with its two tuples, or another type.  `exact`: an `exactFunctionType` (function.go:19-21), otherwise a `functionType`
(function.go:13-16). -/
inductive FT (L : Type) where
  | leaf (l : L)
  | fn (exact : Bool) (ins : List (FT L)) (inVar : Bool) (outs : List (FT L)) (outVar : Bool)

variable {L : Type}

mutual
/-- `TypeFromReflected`, type.go:39-40, with `exactFunctionType.In` and `Out` and the elements of the tuples: function.go:42-51, 152-155, 168-171. -/
def ofGo : GoT L → FT L
  | .leaf l => .leaf l
  | .func ins v outs => .fn true (ofGos ins) v (ofGos outs) false
def ofGos : List (GoT L) → List (FT L)
  | [] => []
  | t :: ts => ofGo t :: ofGos ts
end

variable [Leaf L]

mutual
/-- `Equals` of two types: `exactFunctionType.Equals`, function.go:139-144; `functionType.Equals` and `deepEqual`, 222-231, by way of `equals`,
compare.go:111-132, which is false if only one of the two has a `deepEqual`, as `functionType` has and `exactFunctionType` has not. -/
def feq : FT L → FT L → Bool
  | .leaf a, .leaf b => Leaf.eq a b
  | .fn e i v o w, .fn e' i' v' o' w' => (e || !e') && (v == v' && feqs i i') && (w == w' && feqs o o')
  | .leaf _, .fn .. => false
  | .fn .., .leaf _ => false
/-- The lengths and the elements in `tupleEquals`, array.go:517-530, and in `tupleType.deepEqual`, array.go:510-515. -/
def feqs : List (FT L) → List (FT L) → Bool
  | [], [] => true
  | a :: as, b :: bs => feq a b && feqs as bs
  | _, _ => false
end

mutual
/-- `HashCode`: `exactFunctionType`, function.go:146-151, and `functionType`, 233-242, with `dgo.TiFunction` = `ti`. -/
def fhash (ti : BitVec 64) : FT L → BitVec 64
  | .leaf l => Leaf.hash l
  | .fn _ i v o w => (ti * 31 + fhashes ti (if v then 7 else 1) i) * 31 + fhashes ti (if w then 7 else 1) o
/-- `tupleHashCode`: array.go:544-554. -/
def fhashes (ti : BitVec 64) : BitVec 64 → List (FT L) → BitVec 64
  | h, [] => h
  | h, a :: as => fhashes ti (h * 31 + fhash ti a) as
end

/-! ## Values -/

/-- A function value: its code, by its number, and the variables that it was made with (a closure).  `Pointer` of a `reflect.Value` is the address
of the code. -/
structure Fun (C : Type) where
  code : Nat
  captured : C

/-- `goFunc.Equals`, function.go:283-291, with a function of `dgo` or of Go -/
def Fun.eq {C : Type} (f g : Fun C) : Bool := f.code == g.code

/-- `goFunc.HashCode`: function.go:297-299. -/
def Fun.hash {C : Type} (f : Fun C) : BitVec 64 := BitVec.ofNat 64 f.code

end Verif.Func
