import Verif.Types.Rec
/-!
# What it means to be an instance of a type that contains itself

A reading of types is a relation between types and values.  `Says` is what a type says about a value, given the reading of its parts.
-/
set_option autoImplicit false
namespace Verif.Types.Rec
open Verif.Value

/-- What a type says about a value, when `S` is the reading of its parts. -/
def Says (H : Heap) (S : Nat → V → Prop) : Node → V → Prop
  | .any, _ => True
  | .prim p, v => p (view H v) = true
  | .exact p, v => p v = true
  | .arr e min max, v => ∃ vs, arrOf H v = some vs ∧ min ≤ vs.length ∧ vs.length ≤ max ∧ ∀ x ∈ vs, S e x
  | .tuple ts false, v => ∃ vs, arrOf H v = some vs ∧ vs.length = ts.length ∧ ∀ (i : Nat) t x, ts[i]? = some t → vs[i]? = some x → S t x
  | .tuple ts true, v => ∃ vs, arrOf H v = some vs ∧ ts.length - 1 ≤ vs.length ∧
      ∀ (i : Nat) t x, ts[min i (ts.length - 1)]? = some t → vs[i]? = some x → S t x
  | .map kt vt min max, v => ∃ es, mapOf H v = some es ∧ min ≤ es.length ∧ es.length ≤ max ∧ ∀ e ∈ es, S kt (.atom e.1) ∧ S vt e.2
  | .struct additional fs, v => ∃ es, mapOf H v = some es ∧
      (∀ f ∈ fs, (∀ x, mapGet es f.1 = some x → S f.2.2 x) ∧ (f.2.1 = true → (mapGet es f.1).isSome = true)) ∧
      (additional = true ∨ (fs.filter fun f => (mapGet es f.1).isSome).length = es.length)
  | .allOf ts, v => ∀ t ∈ ts, S t v
  | .anyOf ts, v => ∃ t ∈ ts, S t v
  | .oneOf ts, v => ∃ l t r, ts = l ++ t :: r ∧ S t v ∧ ∀ u ∈ l ++ r, ¬ S u v
  | .not t, v => ¬ S t v
  | .sens t, v => ∃ x, sensOf H v = some x ∧ S t x

/-- `S` is a reading: a value is an instance of a type exactly if it is as the type says. -/
def Reading (T : Types) (H : Heap) (S : Nat → V → Prop) : Prop :=
  ∀ t node, T[t]? = some node → ∀ v, (S t v ↔ Says H S node v)

/-- Nothing in `S` is refuted by the types: a value in it is as the type says. -/
def Consistent (T : Types) (H : Heap) (S : Nat → V → Prop) : Prop :=
  ∀ t node, T[t]? = some node → ∀ v, S t v → Says H S node v

/-- A value conforms to a type if there is no part of it, at any depth, that is not as the type says. -/
def Conforms (T : Types) (H : Heap) (t : Nat) (v : V) : Prop := ∃ S, Consistent T H S ∧ S t v

/-- `t.Instance(v)` returns `b`: it does so whenever the stack is large enough. -/
def Returns (T : Types) (H : Heap) (t : Nat) (v : V) (b : Bool) : Prop := ∃ n, ∀ m, n ≤ m → instance? T H m t v = some b

/-- `t.Instance(v)` never returns, however large the stack is. -/
def Diverges (T : Types) (H : Heap) (t : Nat) (v : V) : Prop := ∀ n, instance? T H n t v = none

/-- The types that a type mentions -/
def Node.refs : Node → List Nat
  | .arr e _ _ => [e]
  | .tuple ts _ => ts
  | .map k v _ _ => [k, v]
  | .struct _ fs => fs.map (·.2.2)
  | .allOf ts | .anyOf ts | .oneOf ts => ts
  | .not t | .sens t => [t]
  | _ => []

/-- Types whose operands are asked about the value itself -/
def Node.isOp : Node → Bool
  | .allOf _ | .anyOf _ | .oneOf _ | .not _ => true
  | _ => false

/-- Types that ask their operand without a guard -/
def Node.isBare : Node → Bool
  | .not _ | .sens _ => true
  | _ => false

/-- Types that may admit less when their parts admit more -/
def Node.isAnti : Node → Bool
  | .oneOf _ | .not _ => true
  | _ => false

/-- There is no `not` and no `oneOf`. -/
def Positive (T : Types) : Prop := ∀ node ∈ T, node.isAnti = false

/-- What an object contains -/
def Obj.parts : Obj → List V
  | .arr es => es
  | .map es => es.flatMap fun e => [.atom e.1, e.2]
  | .sens x => [x]

/-- Addresses in types are those of types, addresses in values those of values. -/
def Valid (H : Heap) : V → Prop
  | .atom _ => True
  | .obj p => p < H.length

structure Closed (T : Types) (H : Heap) : Prop where
  types : ∀ node ∈ T, ∀ t ∈ node.refs, t < T.length
  values : ∀ o ∈ H, ∀ v ∈ o.parts, Valid H v

/-- No type is its own operand: `op` counts the operators that follow one another. -/
def Contractive (T : Types) (op : Nat → Nat) : Prop :=
  ∀ (t : Nat) node, T[t]? = some node → node.isOp = true → ∀ u ∈ node.refs, op u < op t

/-- No type contains itself through `not` or `sensitive`: `level` counts these. -/
def Stratified (T : Types) (level : Nat → Nat) : Prop :=
  ∀ (t : Nat) node, T[t]? = some node → ∀ u ∈ node.refs, level u ≤ level t ∧ (node.isBare = true → level u < level t)

/-- No type contains itself: `depth` is that of a type. -/
def TypeTree (T : Types) (depth : Nat → Nat) : Prop :=
  ∀ (t : Nat) node, T[t]? = some node → ∀ u ∈ node.refs, depth u < depth t

def size (height : Nat → Nat) : V → Nat
  | .atom _ => 0
  | .obj p => height p + 1

/-- No value contains itself. -/
def ValueTree (H : Heap) (height : Nat → Nat) : Prop :=
  ∀ (p : Nat) o, H[p]? = some o → ∀ v ∈ o.parts, size height v < height p + 1

/-- The operands of unions and intersections are types that take no guard. -/
def Flat (T : Types) : Prop :=
  ∀ node ∈ T, node.isOp = true → node.isDeep = true → ∀ (u : Nat) n, u ∈ node.refs → T[u]? = some n → n.isDeep = false

end Verif.Types.Rec
