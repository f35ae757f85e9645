import Verif.Types.RecAsg
import Verif.Types.RecSpec
import Verif.Types.RecEqSpec
import Verif.Types.Own
import Mathlib.Logic.Relation
/-!
# What it means for a type that contains itself to be assignable from another
-/
set_option autoImplicit false
namespace Verif.RecAsg
open Verif.Value
open Verif.Types (Ty Env maxInt instanceOf)
open Verif.Types.RecEq (Plain)
open Verif.Types.Rec (V Obj Heap View Reading)

/-- The types that a type mentions -/
def Node.refs : Node → List Nat
  | .leaf _ => []
  | .arr e _ _ => [e]
  | .map k v _ _ => [k, v]
  | .anyOf ts => ts
  | .sens t => [t]

/-- Addresses in types are those of types; leaves are types without parts. -/
structure Closed (T : Types) : Prop where
  refs : ∀ x ∈ T, ∀ t ∈ x.refs, t < T.length
  leaves : ∀ t, .leaf t ∈ T → Plain t

def Mentions (T : Types) (t u : Nat) : Prop := ∃ x, T[t]? = some x ∧ u ∈ x.refs

def OperandOf (T : Types) (t u : Nat) : Prop := ∃ ts, T[t]? = some (.anyOf ts) ∧ u ∈ ts

/-- There is a way from one type to another along the types mentioned. -/
def Reach (T : Types) : Nat → Nat → Prop := Relation.ReflTransGen (Mentions T)

/-- Somewhere in `t` there is an array type that contains itself. -/
def ArrayCycle (T : Types) (t : Nat) : Prop := ∃ u e lo hi, Reach T t u ∧ T[u]? = some (.arr e lo hi) ∧ Reach T e u

/-- A union is among its own operands, or among those of its operands, and so on. -/
def OwnOperand (T : Types) : Prop := ∃ t, Relation.TransGen (OperandOf T) t t

/-- Somewhere in `t` there is a type that contains itself. -/
def ContainsItself (T : Types) (t : Nat) : Prop := ∃ u, Reach T t u ∧ Relation.TransGen (Mentions T) u u

/-- The operands of unions are types without parts. -/
def Flat (T : Types) : Prop := ∀ t u, OperandOf T t u → ∃ s, T[u]? = some (.leaf s)

/-- Two types are the same on the surface, and `S` relates the types that they mention, one by one. -/
inductive SameNode (S : Nat → Nat → Prop) : Node → Node → Prop where
  | leaf {s t : Ty} : s.equals t = true → SameNode S (.leaf s) (.leaf t)
  | arr {e e' : Nat} {lo hi : Int} : S e e' → SameNode S (.arr e lo hi) (.arr e' lo hi)
  | map {k v k' v' : Nat} {lo hi : Int} : S k k' → S v v' → SameNode S (.map k v lo hi) (.map k' v' lo hi)
  | anyOf {ts us : List Nat} : List.Forall₂ S ts us → SameNode S (.anyOf ts) (.anyOf us)
  | sens {t u : Nat} : S t u → SameNode S (.sens t) (.sens u)

/-- Two types are the same, at any depth: nothing tells them apart when they are written out. -/
def Same (T : Types) (a b : Nat) : Prop :=
  ∃ S : Nat → Nat → Prop, S a b ∧ ∀ c d, S c d → ∃ x y, T[c]? = some x ∧ T[d]? = some y ∧ SameNode S x y

/-- What a type without parts says about a value -/
def leafSays (E : Env) (t : Ty) : View → Bool
  | .atom v => instanceOf E t v
  | .arr _ =>
    match t with
    | .any | .arrT => true
    | _ => false
  | .map _ =>
    match t with
    | .any | .mapT => true
    | _ => false
  | .sens =>
    match t with
    | .any => true
    | _ => false

/-- The type as one of those of Types/Rec.lean, where `Instance` is modelled -/
def Node.toRec (E : Env) : Node → Verif.Types.Rec.Node
  | .leaf .any => .any
  | .leaf t => .prim (leafSays E t)
  | .arr e lo hi => .arr e lo.toNat hi.toNat
  | .map k v lo hi => .map k v lo.toNat hi.toNat
  | .anyOf ts => .anyOf ts
  | .sens t => .sens t


/-- Atoms are scalars, equal themselves and are not too long. -/
def Good : V → Prop
  | .atom v => (∀ vs, v ≠ .arr vs) ∧ (∀ es, v ≠ .map es) ∧ (∀ w, v ≠ .sens w) ∧ WF v ∧ Verif.Types.Fits v
  | .obj _ => True

/-- The same for all that there is, and maps are not too long. -/
structure GoodHeap (H : Heap) : Prop where
  parts : ∀ o ∈ H, ∀ x ∈ o.parts, Good x
  maps : ∀ es, .map es ∈ H → (es.length : Int) ≤ maxInt

/-- All instances of `b` are instances of `a`. -/
def Includes (E : Env) (T : Types) (a b : Nat) : Prop :=
  ∀ H, GoodHeap H → ∀ S, Reading (T.map (Node.toRec E)) H S → ∀ v, Good v → S b v → S a v

/-- Types without parts of which the answers of `Assignable` are right (theorem C26): ranges are not empty for want of smaller numbers, and there
are no case insensitive strings. -/
def Regular : Ty → Prop
  | .intRange _ max incl => incl = true ∨ max ≠ Verif.Types.minI64
  | .ciStr _ => False
  | .exact v => Verif.Types.isScalar v = true
  | _ => True

/-- `a.Assignable(b)` returns `r`: it does so whenever the stack is large enough. -/
def Returns (E : Env) (T : Types) (a b : Nat) (r : Bool) : Prop := ∃ n, ∀ m, n ≤ m → assignable? E T m a b = some r

/-- `a.Assignable(b)` never returns, however large the stack is. -/
def Diverges (E : Env) (T : Types) (a b : Nat) : Prop := ∀ n, assignable? E T n a b = none

end Verif.RecAsg
