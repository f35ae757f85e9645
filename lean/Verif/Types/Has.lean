import Verif.Types.Model
/-!
# Instance without the recursion guard

`has` is what the `Instance` methods compute when the recursion guard does not interfere; `inst_has` shows that it never does
when the type is not its own part.
-/
set_option autoImplicit false
set_option linter.unusedVariables false
namespace Verif.Types
open Verif.Value

mutual
/-- Instance of a type, given the answer for `allOfValueType`. -/
def hasP (E : Env) (A : Oid → List Val → Val → Bool) : Ty → Val → Bool
  | .exactD _ w, v => eq w v
  | .sizedArr _ e lo hi, .arr vs => decide (lo ≤ len vs) && decide (len vs ≤ hi) && vs.all fun v => hasP E A e v
  | .tuple _ ts false, .arr vs => hasZip E A ts vs
  | .tuple _ ts true, .arr vs => hasVar E A ts vs
  | .sizedMap _ k t lo hi, .map es =>
    decide (lo ≤ len es) && decide (len es ≤ hi) && es.all fun e => hasP E A k e.1 && hasP E A t e.2
  | .struct _ add fs, .map es => hasFields E A fs es && (add || countFields fs es == es.length)
  | .allOf _ ts, v => hasAll E A ts v
  | .allOfVal o vs, v => A o vs v
  | .anyOf _ ts, v => hasAny E A ts v
  | .oneOf _ ts, v => hasCount E A ts v == 1
  | .not t, v => !hasP E A t v
  | .sens _ t, .sens v => hasP E A t v
  | .exact w, v => eq w v
  | .any, _ => true
  | .nilT, .nil => true
  | .boolT, .bool _ => true
  | .intT, .int _ => true
  | .floatT, .float _ => true
  | .strT, .str _ => true
  | .regexpT, .regexp _ => true
  | .timeT, .time _ => true
  | .arrT, .arr _ => true
  | .mapT, .map _ => true
  | .intRange lo hi incl, .int i => lo.sle i && (if incl then i.sle hi else i.slt hi)
  | .floatRange lo hi incl, .float f => F64.le lo f && (if incl then F64.le f hi else Value.F64.lt f hi)
  | .sizedStr lo hi, .str s => decide (lo ≤ len s) && decide (len s ≤ hi)
  | .ciStr s, .str s' => E.fold s s'
  | .pattern rx, .str s => E.rx rx s
  | .bin lo hi, .bin b => decide (lo ≤ len b) && decide (len b ≤ hi)
  | _, _ => false

/-- the types and the values, position by position -/
def hasZip (E : Env) (A : Oid → List Val → Val → Bool) : List Ty → List Val → Bool
  | [], [] => true
  | t :: ts, v :: vs => hasP E A t v && hasZip E A ts vs
  | _, _ => false

/-- as `hasZip`, with the last type for all remaining values -/
def hasVar (E : Env) (A : Oid → List Val → Val → Bool) : List Ty → List Val → Bool
  | [], _ => true
  | [t], vs => vs.all fun v => hasP E A t v
  | t :: _ :: _, [] => false
  | t :: t' :: ts, v :: vs => hasP E A t v && hasVar E A (t' :: ts) vs

def hasAll (E : Env) (A : Oid → List Val → Val → Bool) : List Ty → Val → Bool
  | [], _ => true
  | t :: ts, v => hasP E A t v && hasAll E A ts v

def hasAny (E : Env) (A : Oid → List Val → Val → Bool) : List Ty → Val → Bool
  | [], _ => false
  | t :: ts, v => hasP E A t v || hasAny E A ts v

def hasCount (E : Env) (A : Oid → List Val → Val → Bool) : List Ty → Val → Nat
  | [], _ => 0
  | t :: ts, v => (if hasP E A t v then 1 else 0) + hasCount E A ts v

/-- each declared key that is present holds an instance of its type, each required one is present -/
def hasFields (E : Env) (A : Oid → List Val → Val → Bool) : List (Val × Bool × Ty) → List (Val × Val) → Bool
  | [], _ => true
  | (k, rq, t) :: r, es =>
    (match mapGet es k with
     | some v => hasP E A t v
     | none => !rq) && hasFields E A r es

/-- the number of declared keys that are present -/
def countFields : List (Val × Bool × Ty) → List (Val × Val) → Nat
  | [], _ => 0
  | (k, _, _) :: r, es => (if (mapGet es k).isSome then 1 else 0) + countFields r es
end

/-- Instance of a type that has no `allOfValueType` in it. -/
def has0 (E : Env) (t : Ty) (v : Val) : Bool := hasP E (fun _ _ _ => false) t v

/-- Instance of a type. -/
def has (E : Env) (t : Ty) (v : Val) : Bool := hasP E (fun o vs v => (typesOf o vs).all fun t => has0 E t v) t v

end Verif.Types
