import Verif.Alias.ResolveModel
import Mathlib.Data.List.Forall2
/-!
# What resolving aliases is to do

Types as objects that contain others, some of which are names of types.  Nothing here refers to the code, but for the kinds of types.
-/
set_option autoImplicit false
namespace Verif.Alias.Res

/-- The types and values directly inside, in order -/
def Node.parts : Node → List Nat
  | .alias _ | .leaf _ => []
  | .opaque ps => ps
  | .arr t | .not t | .typeOf t => [t]
  | .map k v => [k, v]
  | .tuple ts | .allOf ts | .anyOf ts | .oneOf ts => ts
  | .struct es => es.flatMap fun e => [e.1, e.2]
  | .exactArr v | .exactMap v => [v]
  | .array es => es
  | .hash vs => vs

/-- The ones that `Resolve` gets to: all but those in function types and types of sensitive values -/
def Node.kids : Node → List Nat
  | .opaque _ => []
  | nd => nd.parts

/-- `[k₁, v₁, k₂, v₂, ...]` as entries -/
def pairUp : List Nat → List (Nat × Nat)
  | k :: v :: r => (k, v) :: pairUp r
  | _ => []

/-- The same kind of type with `ys` in the place of its `kids` -/
def Node.withKids : Node → List Nat → Node
  | .arr _, y :: _ => .arr y
  | .not _, y :: _ => .not y
  | .typeOf _, y :: _ => .typeOf y
  | .map _ _, k :: v :: _ => .map k v
  | .tuple _, ys => .tuple ys
  | .allOf _, ys => .allOf ys
  | .anyOf _, ys => .anyOf ys
  | .oneOf _, ys => .oneOf ys
  | .struct _, ys => .struct (pairUp ys)
  | .exactArr _, y :: _ => .exactArr y
  | .exactMap _, y :: _ => .exactMap y
  | .array _, ys => .array ys
  | .hash _, ys => .hash ys
  | nd, _ => nd

def IsAlias (nd : Node) : Prop := ∃ n, nd = .alias n

/-- What the object at `x` stands for: itself, or, if it is an alias with a known name, the type of that name. -/
def standsFor (get : Name → Option Nat) (H : Heap) (x : Nat) : Nat :=
  match H x with
  | .alias n => (get n).getD x
  | _ => x

/-- `b` is in `a`, directly or further inside, or is `a` itself. -/
inductive Within (H : Heap) : Nat → Nat → Prop where
  | self (a : Nat) : Within H a a
  | part {a b c : Nat} : Within H a b → c ∈ (H b).parts → Within H a c

/-- The same by way of the parts that `Resolve` gets to -/
inductive Reached (H : Heap) : Nat → Nat → Prop where
  | self (a : Nat) : Reached H a a
  | part {a b c : Nat} : Reached H a b → c ∈ (H b).kids → Reached H a c

/-- No alias is in `a`. -/
def Clean (H : Heap) (a : Nat) : Prop := ∀ b, Within H a b → ¬ IsAlias (H b)

/-- What holds of all types before aliases are resolved: an exact type has a value, `any` has nothing in it. -/
structure WF (H : Heap) : Prop where
  any : H anyT = .leaf false
  exactArr : ∀ a v, H a = .exactArr v → ∃ es, H v = .array es
  exactMap : ∀ a v, H a = .exactMap v → (∃ vs, H v = .hash vs) ∨ ∃ e, H v = .leaf e

/-- No name stands for another name (theorem `C53_violated` says what becomes of those). -/
def NoChain (get : Name → Option Nat) (H : Heap) : Prop := ∀ n q, get n = some q → ¬ IsAlias (H q)

/-- There are no aliases in function types and types of sensitive values. -/
def OpaqueClean (H : Heap) : Prop := ∀ a ps, H a = .opaque ps → ∀ x, x ∈ ps → Clean H x

/-- Arrays, maps, and the exact types of them -/
def IsValue : Node → Prop
  | .array _ | .hash _ | .exactArr _ | .exactMap _ => True
  | _ => False

/-- Arrays and maps in exact types do not contain themselves, other than by way of types: there is an order in which they come after the arrays
and maps in them. -/
def ValuesOrdered (get : Name → Option Nat) (H : Heap) : Prop :=
  ∃ (r : Nat → Nat) (K : Nat), (∀ a, r a ≤ K) ∧
    ∀ a b c, IsValue (H a) → b ∈ (H a).kids → (c = b ∨ c = standsFor get H b) → IsValue (H c) → r c < r a

/-- A set of types that has with a type what is in it, and with a name the type of it -/
structure Closed (get : Name → Option Nat) (H : Heap) (R : Nat → Prop) : Prop where
  parts : ∀ a, R a → ∀ x, x ∈ (H a).parts → R x
  names : ∀ a n q, R a → H a = .alias n → get n = some q → R q

/-- All names in it are known, and the keys of all structs are types of one value. -/
structure Safe (get : Name → Option Nat) (H : Heap) (S : Nat → Prop) : Prop extends Closed get H S where
  known : ∀ a n, S a → H a = .alias n → ∃ q, get n = some q
  keys : ∀ a es, S a → H a = .struct es → ∀ e, e ∈ es → isExact (H (standsFor get H e.1)) = true

/-- The type at `a` is as it was but for the aliases in it, all of which have been replaced by the types that they stand for. -/
def Resolved (get : Name → Option Nat) (H G : Heap) (a : Nat) : Prop :=
  G a = (H a).withKids ((H a).kids.map (standsFor get H))

/-- The type at `a` is as it was but for aliases in it that have been replaced by the types that they stand for, maybe not all of them. -/
def Between (get : Name → Option Nat) (H G : Heap) (a : Nat) : Prop :=
  ∃ ys, List.Forall₂ (fun x y => y = x ∨ y = standsFor get H x) (H a).kids ys ∧ G a = (H a).withKids ys

/-- The type at `a` has lost what is in it. -/
def Empty (H G : Heap) (a : Nat) : Prop :=
  match H a with
  | .arr _ => G a = .arr anyT
  | .not _ => G a = .not anyT
  | .typeOf _ => G a = .typeOf anyT
  | .map _ _ => G a = .map anyT anyT
  | .tuple _ => G a = .tuple []
  | .allOf _ => G a = .allOf []
  | .anyOf _ => G a = .anyOf []
  | .oneOf _ => G a = .oneOf []
  | .struct _ => G a = .struct []
  | _ => False

end Verif.Alias.Res
