import Verif.Types.Hash
/-!
# Types that contain themselves: Equals and HashCode

Types as objects with addresses, as in Types/Rec.lean, but with what `Equals` and `HashCode` look at.

Simplifications, for the whole file:
* a type that mentions no type and does not implement `deepEqual` is a `leaf`, and is as in Types/Assign.lean and Types/Hash.lean; it can be
  any `Ty` there, but is meant to be one without parts.
* the exact types of arrays and maps, `allOfValueType`, function types, named types and meta types are not modelled.
* the arrays of keys and values of a struct type also get into `seen`; they are only reached through the struct type, which is there already.
* recursion depth is bounded by fuel; `none` means that it does not suffice.  (In Go: stack overflow.)
-/
set_option autoImplicit false
namespace Verif.Types.RecEq
open Verif.Value

inductive Node where
  | leaf (t : Ty)
  /-- `sizedArrayType`, internal/array.go:24-28 -/
  | arr (elem : Nat) (min max : Int)
  /-- `tupleType`, internal/array.go:31-34 -/
  | tuple (types : List Nat) (variadic : Bool)
  /-- `sizedMapType`, internal/map.go -/
  | map (key value : Nat) (min max : Int)
  /-- `structType`, internal/mapstruct.go:14-19: for each entry the value of its key, whether it is required, the type of its value -/
  | struct (additional : Bool) (entries : List (Val × Bool × Nat))
  /-- `allOfType`, internal/ternary.go:10 -/
  | allOf (types : List Nat)
  /-- `anyOfType`, internal/ternary.go:14 -/
  | anyOf (types : List Nat)
  /-- `oneOfType`, internal/ternary.go:16 -/
  | oneOf (types : List Nat)
  /-- `notType`, internal/not.go:9-11 -/
  | not (negated : Nat)
  /-- `sensitiveType`, internal/sensitive.go:14-16 -/
  | sens (wrapped : Nat)

abbrev Types := List Node

/-- Does the type implement `deepEqual`?  (compare.go:9-13) -/
def Node.isDeep : Node → Bool
  | .leaf _ | .not _ => false
  | _ => true

/-- `t == DefaultAnyType` -/
def isAny (T : Types) (t : Nat) : Bool :=
  match T[t]? with
  | some (.leaf .any) => true
  | _ => false

/-! ## Equals -/

/-- A comparison; `none`: the fuel is used up -/
abbrev Check := Option Bool

/-- `a && b`, where `b` is only evaluated when `a` is true -/
def andC (a : Check) (b : Check) : Check :=
  match a with
  | none => none
  | some false => some false
  | some true => b

/-- The inner loop of `deepContainsAll`: internal/array.go:983-991.  The first element that passes is taken out. -/
def takeFirstC (p : Nat → Check) : List Nat → Option (Option (List Nat))
  | [] => some none
  | b :: bs =>
    match p b with
    | none => none
    | some true => some (some bs)
    | some false => (takeFirstC p bs).map (Option.map (b :: ·))

/-- The loops of `deepContainsAll` for lists of one length: internal/array.go:980-996.  The element of the other type comes first. -/
def matchAllC (p : Nat → Nat → Check) : List Nat → List Nat → Check
  | [], _ => some true
  | a :: as, bs =>
    match takeFirstC (fun b => p b a) bs with
    | none => none
    | some none => some false
    | some (some bs) => matchAllC p as bs

/-- `sameValues`: internal/ternary.go:530-538. -/
def sameValuesC (p : Nat → Nat → Check) (as bs : List Nat) : Check :=
  if as.length = bs.length then matchAllC p as bs else some false

/-- `sliceEquals`: internal/compare.go:136-147. -/
def zipAllC (p : Nat → Nat → Check) : List Nat → List Nat → Check
  | [], [] => some true
  | a :: as, b :: bs => andC (p a b) (zipAllC p as bs)
  | _, _ => some false

/-- The `deepEqual` methods: array.go:208-213, array.go:510-515, map.go:1039-1044, mapstruct.go:221-229, ternary.go:80-88, 299-304 and
417-422, sensitive.go:51-56.  `rec` is `equals`. -/
def deepEq (rec : Nat → Nat → Check) : Node → Node → Check
  | .arr e lo hi, .arr e' lo' hi' => if lo = lo' ∧ hi = hi' then rec e e' else some false
  | .tuple ts var, .tuple us var' => if var = var' ∧ ts.length = us.length then zipAllC rec ts us else some false
  | .map k v lo hi, .map k' v' lo' hi' => if lo = lo' ∧ hi = hi' then andC (rec k k') (rec v v') else some false
  | .struct add fs, .struct add' fs' =>
    if add = add' ∧ fs.map (·.2.1) = fs'.map (·.2.1) ∧ zipAll (fun f f' => eq f.1 f'.1) fs fs' = true then
      zipAllC rec (fs.map (·.2.2)) (fs'.map (·.2.2))
    else some false
  | .allOf ts, .allOf us => sameValuesC rec ts us
  | .anyOf ts, .anyOf us => sameValuesC rec ts us
  | .oneOf ts, .oneOf us => sameValuesC rec ts us
  | .sens t, .sens u => rec t u
  | _, _ => some false

/-- The `Equals` methods of types that do not implement `deepEqual`: those of leaves as in Types/Assign.lean, and not.go:25-30.  `rec` is the
method. -/
def flatEq (rec : Nat → Nat → Check) : Node → Node → Check
  | .leaf s, .leaf t => some (s.equals t)
  | .not t, .not u => rec t u
  | _, _ => some false

/-- `equals`: internal/compare.go:113-134, with `some seen`, and the method `a.Equals(b)`, with `none`: the methods of types that implement
`deepEqual` call `equals(nil, a, b)` (array.go:204-206, 506-508, map.go:1035-1037, mapstruct.go:217-219, ternary.go:76-78, 295-297, 413-415,
sensitive.go:47-49); not.go:25-30 calls the method of its operand. -/
def equals (T : Types) : Nat → Option (List Nat) → Nat → Nat → Check
  | 0, _, _, _ => none
  | n + 1, g, a, b =>
    match T[a]?, T[b]? with
    | some x, some y =>
      if x.isDeep then
        if a = b then some true
        else if a ∈ g.getD [] then some true
        else if y.isDeep then deepEq (equals T n (some (a :: g.getD []))) x y
        else some false
      else if g.isSome ∧ a = b then some true
      else flatEq (equals T n none) x y
    | _, _ => none

/-! ## HashCode -/

/-- A hash code; `none`: the fuel is used up -/
abbrev Code := Option (BitVec 64)

/-- The hash codes of a list of types, in order -/
def codes (rec : Nat → Code) : List Nat → Option (List (BitVec 64))
  | [] => some []
  | t :: ts =>
    match rec t with
    | none => none
    | some h => (codes rec ts).map (h :: ·)

/-- The `deepHashCode` methods: array.go:219-231, 544-554, map.go:1050-1065 (where for the value type too the hash code of the key type is
taken), mapstruct.go:239-245, ternary.go:98-100, 310-312 and 428-430, sensitive.go:62-64.  `rec` is `deepHashCode`. -/
def deepHash (T : Types) (rec : Nat → Code) : Node → Code
  | .arr e lo hi => if isAny T e then some (sizeHash 5 lo hi) else (rec e).map fun x => sizeHash 5 lo hi * 31 + x
  | .tuple ts var => (codes rec ts).map fun hs => hs.foldl (fun h x => h * 31 + x) (if var then 7 else 1)
  | .map k v lo hi =>
    match (if isAny T k then some (sizeHash 16 lo hi) else (rec k).map fun x => sizeHash 16 lo hi * 31 + x) with
    | none => none
    | some h => if isAny T v then some h else (rec k).map fun x => h * 31 + x
  | .struct add fs =>
    (codes rec (fs.map (·.2.2))).map fun hs =>
      (boolsHash (fs.map (·.2.1)) * 31 + fold31 (fs.map fun f => exactHash f.1) * 31 + fold31 hs) * (if add then 3 else 1)
  | .allOf ts => (codes rec ts).map fun hs => fold31 hs * 7 + 1
  | .anyOf ts => (codes rec ts).map fun hs => fold31 hs * 7 + 4
  | .oneOf ts => (codes rec ts).map fun hs => fold31 hs * 7 + 21
  | .sens t => (rec t).map fun x => 23 * 31 + x
  | .leaf _ | .not _ => none

/-- Is `HashCode` of the type the method `deepHashCode`, without the type itself in `seen`?  array.go:536-538. -/
def Node.isTuple : Node → Bool
  | .tuple .. => true
  | _ => false

/-- `deepHashCode(seen, t)`: internal/compare.go:98-106, with `some seen`, and the method `t.HashCode()`, with `none`: those of types that
implement `deepEqual` call `deepHashCode(nil, t)` (array.go:215-217, map.go:1046-1048, mapstruct.go:235-237, ternary.go:94-96, 306-308, 424-426,
sensitive.go:58-60), except for tuples (array.go:536-538); not.go:32-34 calls the method of its operand. -/
def hashCode (T : Types) : Nat → Option (List Nat) → Nat → Code
  | 0, _, _ => none
  | n + 1, g, t =>
    match T[t]? with
    | none => none
    | some (.leaf s) => some (tyHash s)
    | some (.not u) => (hashCode T n none u).map fun x => 1579 + x
    | some x =>
      if t ∈ g.getD [] then some 0
      else deepHash T (hashCode T n (some (if g.isNone && x.isTuple then [] else t :: g.getD []))) x

end Verif.Types.RecEq
