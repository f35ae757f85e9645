import Verif.Types.RecEq
import Verif.Value.Props
import Mathlib.Data.List.Forall2
/-!
# What it means for types that contain themselves to be the same type
-/
set_option autoImplicit false
namespace Verif.Types.RecEq
open Verif.Value

/-- Types without parts; NaN is excluded, as it is not equal to itself (theorem `C08_nan_is_not_reflexive`). -/
def Plain : Ty → Prop
  | .exact v => WF v
  | .floatRange min max _ => min.isNaN = false ∧ max.isNaN = false
  | .exactD .. | .sizedArr .. | .tuple .. | .sizedMap .. | .struct .. | .allOf .. | .allOfVal .. | .anyOf .. | .oneOf .. | .not _ | .sens ..
  | .metaT _ => False
  | _ => True

/-- The types that a type mentions -/
def Node.refs : Node → List Nat
  | .leaf _ => []
  | .arr e _ _ => [e]
  | .tuple ts _ => ts
  | .map k v _ _ => [k, v]
  | .struct _ fs => fs.map (·.2.2)
  | .allOf ts | .anyOf ts | .oneOf ts => ts
  | .not t | .sens t => [t]

/-- The types that a type mentions, without the value type of a map -/
def Node.keyRefs : Node → List Nat
  | .map k _ _ _ => [k]
  | x => x.refs

/-- The keys of a struct type -/
def Node.keys : Node → List Val
  | .struct _ fs => fs.map (·.1)
  | _ => []

/-- Addresses in types are those of types; leaves are types without parts, keys are values that equal themselves. -/
structure Closed (T : Types) : Prop where
  refs : ∀ x ∈ T, ∀ t ∈ x.refs, t < T.length
  leaves : ∀ t, .leaf t ∈ T → Plain t
  keys : ∀ x ∈ T, ∀ k ∈ x.keys, WF k

/-- There is a way from one type to another along the types mentioned. -/
inductive Reach (T : Types) (refs : Node → List Nat) : Nat → Nat → Prop where
  | here (t : Nat) : Reach T refs t t
  | step {t u v : Nat} {x : Node} : T[t]? = some x → u ∈ refs x → Reach T refs u v → Reach T refs t v

/-- Somewhere in `t` there is a negation that contains itself. -/
def NegatesItself (T : Types) (refs : Node → List Nat) (t : Nat) : Prop :=
  ∃ u w, Reach T refs t u ∧ T[u]? = some (.not w) ∧ Reach T refs w u

/-- Somewhere in `t` there is a type that contains itself. -/
def ContainsItself (T : Types) (t : Nat) : Prop :=
  ∃ u w x, Reach T Node.refs t u ∧ T[u]? = some x ∧ w ∈ x.refs ∧ Reach T Node.refs w u

/-- Somewhere in `t` there is a union or an intersection. -/
def HasOperands (T : Types) (t : Nat) : Prop :=
  ∃ u ts, Reach T Node.refs t u ∧ (T[u]? = some (.allOf ts) ∨ T[u]? = some (.anyOf ts) ∨ T[u]? = some (.oneOf ts))

/-- Two types are the same on the surface, and `S` relates the types that they mention, one by one. -/
inductive SameNode (S : Nat → Nat → Prop) : Node → Node → Prop where
  | leaf {s t : Ty} : s.equals t = true → SameNode S (.leaf s) (.leaf t)
  | arr {e e' : Nat} {lo hi : Int} : S e e' → SameNode S (.arr e lo hi) (.arr e' lo hi)
  | tuple {ts us : List Nat} {var : Bool} : List.Forall₂ S ts us → SameNode S (.tuple ts var) (.tuple us var)
  | map {k v k' v' : Nat} {lo hi : Int} : S k k' → S v v' → SameNode S (.map k v lo hi) (.map k' v' lo hi)
  | struct {add : Bool} {fs gs : List (Val × Bool × Nat)} :
      List.Forall₂ (fun f g => eq f.1 g.1 = true ∧ f.2.1 = g.2.1 ∧ S f.2.2 g.2.2) fs gs → SameNode S (.struct add fs) (.struct add gs)
  | allOf {ts us : List Nat} : List.Forall₂ S ts us → SameNode S (.allOf ts) (.allOf us)
  | anyOf {ts us : List Nat} : List.Forall₂ S ts us → SameNode S (.anyOf ts) (.anyOf us)
  | oneOf {ts us : List Nat} : List.Forall₂ S ts us → SameNode S (.oneOf ts) (.oneOf us)
  | not {t u : Nat} : S t u → SameNode S (.not t) (.not u)
  | sens {t u : Nat} : S t u → SameNode S (.sens t) (.sens u)

/-- Two types are the same, at any depth: nothing tells them apart when they are written out. -/
def Same (T : Types) (a b : Nat) : Prop :=
  ∃ S : Nat → Nat → Prop, S a b ∧ ∀ c d, S c d → ∃ x y, T[c]? = some x ∧ T[d]? = some y ∧ SameNode S x y

/-- A type with other types in the place of those it mentions -/
def Node.rename (f : Nat → Nat) : Node → Node
  | .leaf t => .leaf t
  | .arr e lo hi => .arr (f e) lo hi
  | .tuple ts var => .tuple (ts.map f) var
  | .map k v lo hi => .map (f k) (f v) lo hi
  | .struct add fs => .struct add (fs.map fun e => (e.1, e.2.1, f e.2.2))
  | .allOf ts => .allOf (ts.map f)
  | .anyOf ts => .anyOf (ts.map f)
  | .oneOf ts => .oneOf (ts.map f)
  | .not t => .not (f t)
  | .sens t => .sens (f t)

/-- The types at `f 0`, `f 1`, ... of `U` are a copy of those of `T`, as made by parsing the same text again. -/
structure Copy (T U : Types) (f : Nat → Nat) : Prop where
  node : ∀ t x, T[t]? = some x → U[f t]? = some (x.rename f)
  apart : ∀ t u, t < T.length → u < T.length → f t = f u → t = u

/-- `a.Equals(b)` returns `r`: it does so whenever the stack is large enough. -/
def EqReturns (T : Types) (a b : Nat) (r : Bool) : Prop := ∃ n, ∀ m, n ≤ m → equals T m none a b = some r

/-- `t.HashCode()` returns `h`. -/
def HashReturns (T : Types) (t : Nat) (h : BitVec 64) : Prop := ∃ n, ∀ m, n ≤ m → hashCode T m none t = some h

/-- `a.Equals(b)` never returns, however large the stack is. -/
def EqDiverges (T : Types) (a b : Nat) : Prop := ∀ n, equals T n none a b = none

/-- `t.HashCode()` never returns. -/
def HashDiverges (T : Types) (t : Nat) : Prop := ∀ n, hashCode T n none t = none

end Verif.Types.RecEq
