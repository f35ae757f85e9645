import Verif.Value.Model
/-!
# Types that contain themselves: Instance

Types and values as objects with addresses, which may contain each other and themselves.  A type gets to contain itself when an
alias is resolved (internal/alias.go:214-227: `Replace` puts the type in the place of the alias), e.g. `files=map[string](int|files)`.

Simplifications, for the whole file:
* the types that look at no part of a value (`any`, ranges, string types, `defaultArrayType`, ...) are predicates on the value (`prim`);
  Types/Model.lean has them one by one.  Exact types of arrays and maps are predicates also, but take part in the guard (`exact`).
* keys of maps are scalars; map entries are not elements.
* function types, named types, meta types and `allOfValueType` are not modelled.
* recursion depth is bounded by fuel; `none` means that it does not suffice.  (In Go: stack overflow.)
-/
set_option autoImplicit false
namespace Verif.Types.Rec
open Verif.Value

/-- A value: a scalar, or the address of an object. -/
inductive V where
  | atom (v : Val)
  | obj (p : Nat)

inductive Obj where
  /-- internal/array.go:15-18 -/
  | arr (es : List V)
  /-- internal/map.go:54-60 -/
  | map (es : List (Val × V))
  /-- internal/sensitive.go:10-12 -/
  | sens (v : V)

abbrev Heap := List Obj

/-- What a type that looks at no part of a value can see of it. -/
inductive View where
  | atom (v : Val)
  | arr (length : Nat)
  | map (length : Nat)
  | sens

inductive Node where
  /-- `anyType`, internal/any.go -/
  | any
  /-- a type whose `Instance` looks at no part of the value and takes no guard -/
  | prim (p : View → Bool)
  /-- `deepExactType`, internal/exact.go -/
  | exact (p : V → Bool)
  /-- `sizedArrayType`, internal/array.go:24-28 -/
  | arr (elem : Nat) (min max : Nat)
  /-- `tupleType`, internal/array.go:31-34 -/
  | tuple (types : List Nat) (variadic : Bool)
  /-- `sizedMapType`, internal/map.go -/
  | map (key value : Nat) (min max : Nat)
  /-- `structType`, internal/mapstruct.go:14-19: for each entry the value of its key, whether it is required, the type of its value -/
  | struct (additional : Bool) (entries : List (Val × Bool × Nat))
  /-- `allOfType`, internal/ternary.go:10 -/
  | allOf (types : List Nat)
  /-- `anyOfType`, internal/ternary.go:14 -/
  | anyOf (types : List Nat)
  /-- `oneOfType`, internal/ternary.go:16 -/
  | oneOf (types : List Nat)
  /-- `notType`, internal/not.go:9-11 -/
  | not (negated : Nat)
  /-- `sensitiveType`, internal/sensitive.go:14-16 -/
  | sens (wrapped : Nat)

abbrev Types := List Node

/-! ## Looking at values -/

def load (H : Heap) : V → Option Obj
  | .atom _ => none
  | .obj p => H[p]?

def view (H : Heap) (v : V) : View :=
  match v with
  | .atom a => .atom a
  | .obj p =>
    match H[p]? with
    | some (.arr es) => .arr es.length
    | some (.map es) => .map es.length
    | _ => .sens

/-- `value.(*array)` -/
def arrOf (H : Heap) (v : V) : Option (List V) :=
  match load H v with
  | some (.arr es) => some es
  | _ => none

/-- `value.(dgo.Map)` -/
def mapOf (H : Heap) (v : V) : Option (List (Val × V)) :=
  match load H v with
  | some (.map es) => some es
  | _ => none

/-- `value.(*sensitive)` -/
def sensOf (H : Heap) (v : V) : Option V :=
  match load H v with
  | some (.sens x) => some x
  | _ => none

/-- `Get` of a map: the first entry with an equal key (theorem C01 for `hashMap.Get`). -/
def mapGet (es : List (Val × V)) (k : Val) : Option V := (es.find? fun e => eq k e.1).map (·.2)

/-! ## The recursion guard, as in Types/Model.lean -/

/-- `doubleSeen`: internal/compare.go:15-20. -/
structure Guard where
  aSeen : List Nat
  bSeen : List Nat
  seenInA : Bool
  seenInB : Bool

/-- A `dgo.RecursionGuard` that may be `nil`. -/
abbrev G := Option Guard

/-- The receiver of `Append` after the call: internal/compare.go:27-32. -/
def Guard.mark (s : Guard) (a b : Nat) : Guard :=
  { s with seenInA := s.seenInA || s.aSeen.contains a, seenInB := s.seenInB || s.bSeen.contains b }

/-- What `Append` returns: internal/compare.go:33-40, from the changed receiver. -/
def Guard.extend (s : Guard) (a b : Nat) : Guard :=
  { s with aSeen := if s.seenInA then s.aSeen else a :: s.aSeen, bSeen := if s.seenInB then s.bSeen else b :: s.bSeen }

/-- `Hit`: internal/compare.go:22-24. -/
def Guard.hit (s : Guard) : Bool := s.seenInA && s.seenInB

/-- A check: it may change the flags of the guard that it is given.  `none`: the fuel is used up. -/
abbrev Check := Option (Bool × G)

/-- `for i := range ts { if !f(ts[i]) { return false } }; return true` -/
def allG {α : Type} (f : G → α → Check) : G → List α → Check
  | g, [] => some (true, g)
  | g, t :: ts =>
    match f g t with
    | none => none
    | some (false, g') => some (false, g')
    | some (true, g') => allG f g' ts

/-- `for i := range ts { if f(ts[i]) { return true } }; return false` -/
def anyG {α : Type} (f : G → α → Check) : G → List α → Check
  | g, [] => some (false, g)
  | g, t :: ts =>
    match f g t with
    | none => none
    | some (true, g') => some (true, g')
    | some (false, g') => anyG f g' ts

/-- The loop of `oneOfType.DeepInstance`: internal/ternary.go:436-449. -/
def oneG {α : Type} (f : G → α → Check) (found : Bool) : G → List α → Check
  | g, [] => some (found, g)
  | g, t :: ts =>
    match f g t with
    | none => none
    | some (true, g') => if found then some (false, g') else oneG f true g' ts
    | some (false, g') => oneG f found g' ts

/-- `a && b`, where `b` is only evaluated when `a` is true -/
def andG (a : Check) (b : G → Check) : Check :=
  match a with
  | none => none
  | some (false, g) => some (false, g)
  | some (true, g) => b g

/-! ## Instance -/

/-- Does the type implement `dgo.DeepInstance`? -/
def Node.isDeep : Node → Bool
  | .exact _ | .arr .. | .tuple .. | .map .. | .struct .. | .allOf _ | .anyOf _ | .oneOf _ => true
  | _ => false

/-- `t == DefaultAnyType` -/
def isAny (T : Types) (t : Nat) : Bool :=
  match T[t]? with
  | some .any => true
  | _ => false

/-- The `Instance` methods that take no guard: any.go:29-31, not.go:74-76, sensitive.go:66-71. -/
def leafInst (H : Heap) (rec : Nat → V → Option Bool) : Node → V → Option Bool
  | .any, _ => some true
  | .prim p, v => some (p (view H v))
  | .not t, v => (rec t v).map (!·)
  | .sens t, v =>
    match sensOf H v with
    | some x => rec t x
    | none => some false
  | _, _ => some false

/-- The values of a variadic tuple with the types that they are checked with: internal/array.go:573-588. -/
def variadicPairs : List Nat → List V → List (Nat × V)
  | [], _ => []
  | [t], vs => vs.map fun v => (t, v)
  | t :: ts, v :: vs => (t, v) :: variadicPairs ts vs
  | _, [] => []

/-- The loop of `structType.DeepInstance` over the declared keys (internal/mapstruct.go:257-269); `oc` counts the keys that are
found, and is `none` for `return false`. -/
def structLoop (rec : G → Nat → V → Check) (es : List (Val × V)) : G → Nat → List (Val × Bool × Nat) → Option (Option Nat × G)
  | g, oc, [] => some (some oc, g)
  | g, oc, (k, rq, t) :: r =>
    match mapGet es k with
    | some v =>
      match rec g t v with
      | none => none
      | some (false, g') => some (none, g')
      | some (true, g') => structLoop rec es g' (oc + 1) r
    | none => if rq then some (none, g) else structLoop rec es g oc r

/-- The `DeepInstance` methods: exact.go:73-75, array.go:237-243 with 1459-1469, array.go:564-601, map.go:1071-1090,
mapstruct.go:251-273, ternary.go:106-114, 318-326 and 436-449.  `rec` is `Instance`. -/
def deepInst (T : Types) (H : Heap) (rec : G → Nat → V → Check) (g : G) (v : V) : Node → Check
  | .exact p => some (p v, g)
  | .arr e min max =>
    match arrOf H v with
    | some vs =>
      if min ≤ vs.length ∧ vs.length ≤ max then
        if isAny T e then some (true, g) else allG (fun g x => rec g e x) g vs
      else some (false, g)
    | none => some (false, g)
  | .tuple ts variadic =>
    match arrOf H v with
    | some vs =>
      if variadic then
        if ts.length - 1 > vs.length then some (false, g)
        else allG (fun g x => rec g x.1 x.2) g (variadicPairs ts vs)
      else if vs.length ≠ ts.length then some (false, g)
      else allG (fun g x => rec g x.1 x.2) g (ts.zip vs)
    | none => some (false, g)
  | .map kt vt min max =>
    match mapOf H v with
    | some es =>
      if min ≤ es.length ∧ es.length ≤ max then
        if isAny T kt then
          if isAny T vt then some (true, g) else allG (fun g e => rec g vt e.2) g es
        else if isAny T vt then allG (fun g e => (rec none kt (.atom e.1)).map fun r => (r.1, g)) g es
        else allG (fun g e => andG (rec g kt (.atom e.1)) fun g => rec g vt e.2) g es
      else some (false, g)
    | none => some (false, g)
  | .struct additional fs =>
    match mapOf H v with
    | some es =>
      match structLoop rec es g 0 fs with
      | none => none
      | some (none, g) => some (false, g)
      | some (some oc, g) => some (additional || oc == es.length, g)
    | none => some (false, g)
  | .allOf ts => allG (fun g t => rec g t v) g ts
  | .anyOf ts => anyG (fun g t => rec g t v) g ts
  | .oneOf ts => oneG (fun g t => rec g t v) false g ts
  | _ => some (false, g)

/-- `Instance`: internal/compare.go:76-96. -/
def inst (T : Types) (H : Heap) : Nat → G → Nat → V → Check
  | 0, _, _, _ => none
  | n + 1, g, t, v =>
    match T[t]? with
    | none => none
    | some node =>
      if node.isDeep then
        match v with
        | .atom _ => deepInst T H (inst T H n) g v node
        | .obj p =>
          match g with
          | none => (deepInst T H (inst T H n) (some ⟨[t], [p], false, false⟩) v node).map fun r => (r.1, none)
          | some s =>
            if (s.mark t p).hit then some (true, some (s.mark t p))
            else (deepInst T H (inst T H n) (some ((s.mark t p).extend t p)) v node).map fun r => (r.1, some (s.mark t p))
      else (leafInst H (fun t v => (inst T H n none t v).map (·.1)) node v).map fun r => (r, g)

/-- `t.Instance(v)`, with depth of recursion at most `n` -/
def instance? (T : Types) (H : Heap) (n : Nat) (t : Nat) (v : V) : Option Bool := (inst T H n none t v).map (·.1)

end Verif.Types.Rec
