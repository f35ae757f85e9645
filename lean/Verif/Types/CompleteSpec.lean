import Verif.Types.SoundCases
/-!
# Types between which `Assignable` is complete: the words that the theorems of C107 use
-/
set_option autoImplicit false
namespace Verif.Types
open Verif.Value

/-- Scalars other than nil that are equal to themselves (there is no NaN) and whose length Go can hold -/
def Scalar : Val → Prop
  | .bool _ | .int _ | .time _ | .regexp _ => True
  | .float f => f.isNaN = false
  | .str s => len s ≤ maxInt
  | .bin b => len b ≤ maxInt
  | _ => False

/-- The types that accept all types whose values they accept.  There are no unions among them or below them, not `float` (it does not look into
unions, float.go:177-183), no patterns and no struct types.  Ranges and sizes are not the ones of the default type, for which the constructors
return the default type. -/
inductive Solid : Ty → Prop where
  | any : Solid .any
  | nilT : Solid .nilT
  | boolT : Solid .boolT
  | intT : Solid .intT
  | strT : Solid .strT
  | regexpT : Solid .regexpT
  | timeT : Solid .timeT
  | arrT : Solid .arrT
  | mapT : Solid .mapT
  | exact {v : Val} : Scalar v → Solid (.exact v)
  | intRange {lo hi : BitVec 64} {incl : Bool} : lo.toInt < hi.toInt → (∃ i : BitVec 64, i.toInt < lo.toInt ∨ hi.toInt < i.toInt ∨ (incl = false ∧ i = hi)) →
      Solid (.intRange lo hi incl)
  | floatRange {lo hi : F64} : lo.isNaN = false → (∃ f : F64, f.isNaN = false ∧ (Value.F64.lt f lo = true ∨ Value.F64.lt hi f = true)) → Solid (.floatRange lo hi true)
  | sizedStr {lo hi : Int} : 0 < lo ∨ hi < maxInt → Solid (.sizedStr lo hi)
  | bin {lo hi : Int} : Solid (.bin lo hi)
  | sizedArr {o : Oid} {e : Ty} {lo hi : Int} : Solid e → e ≠ .any ∨ 0 < lo ∨ hi < maxInt → Solid (.sizedArr o e lo hi)
  | tuple {o : Oid} {ts : List Ty} : (∀ t ∈ ts, Solid t) → len ts < maxInt → Solid (.tuple o ts false)
  | sizedMap {o : Oid} {k v : Ty} {lo : Int} : Solid k → Solid v → 0 ≤ lo → lo ≤ 1 → Solid (.sizedMap o k v lo maxInt)
  | sens {o : Oid} {t : Ty} : Solid t → Solid (.sens o t)

/-- The types that they accept then: with unions (`anyOf`) at any depth.  Every type has a value, ranges have two numbers, sizes allow for an element. -/
inductive Ample : Ty → Prop where
  | any : Ample .any
  | nilT : Ample .nilT
  | boolT : Ample .boolT
  | intT : Ample .intT
  | floatT : Ample .floatT
  | strT : Ample .strT
  | regexpT : Ample .regexpT
  | timeT : Ample .timeT
  | arrT : Ample .arrT
  | mapT : Ample .mapT
  | exact {v : Val} : Scalar v → Ample (.exact v)
  | intRange {lo hi : BitVec 64} {incl : Bool} : lo.toInt + (if incl then 0 else 1) < hi.toInt → Ample (.intRange lo hi incl)
  | floatRange {lo hi : F64} : Value.F64.lt lo hi = true → Ample (.floatRange lo hi true)
  | sizedStr {lo hi : Int} : 0 ≤ lo → lo ≤ hi → 1 ≤ hi → hi ≤ maxInt → Ample (.sizedStr lo hi)
  | bin {lo hi : Int} : 0 ≤ lo → lo ≤ hi → 1 ≤ hi → hi ≤ maxInt → Ample (.bin lo hi)
  | sizedArr {o : Oid} {e : Ty} {lo hi : Int} : Ample e → 0 ≤ lo → lo ≤ hi → 1 ≤ hi → hi ≤ maxInt → Ample (.sizedArr o e lo hi)
  | tuple {o : Oid} {ts : List Ty} : ts ≠ [] → (∀ t ∈ ts, Ample t) → len ts ≤ maxInt → Ample (.tuple o ts false)
  | sizedMap {o : Oid} {k v : Ty} {lo hi : Int} : Ample k → Ample v → 0 ≤ lo → lo ≤ 1 → 1 ≤ hi → hi ≤ maxInt → Ample (.sizedMap o k v lo hi)
  | sens {o : Oid} {t : Ty} : Ample t → Ample (.sens o t)
  | anyOf {o : Oid} {ts : List Ty} : ts ≠ [] → (∀ t ∈ ts, Ample t) → Ample (.anyOf o ts)

end Verif.Types
