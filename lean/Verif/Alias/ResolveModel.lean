/-!
# Resolving aliases in place

A type that is read from a text has aliases in it until `Replace` has put the types that they stand for in their places: internal/alias.go:209-222,
and the `Resolve` methods of the types.  The types are objects that may contain each other and themselves, and that others may look at, so
the model is a memory of types and all the states that it goes through.

Simplifications, for the whole file:
* only the types inside a type are modelled; sizes, literals and the like are never written by `Resolve`;
* the fields of one type are written in one step (the key type and the value type of a map, the keys and values of a struct);
* the types of deferred calls (pcore only) are not modelled; Verif/Conc/Alias.lean has them;
* recursion depth is bounded by fuel; `more` means that it does not suffice (in Go: a stack overflow).
-/
set_option autoImplicit false
namespace Verif.Alias.Res

abbrev Name := String

/-- A type, or a value that may have types in it; the numbers are addresses. -/
inductive Node where
  /-- `alias`: internal/alias.go:11-13 -/
  | alias (name : Name)
  /-- any type or value without types in it that could be aliases; `exact` is `dgo.IsExact`, dgo/typeidentifier.go:201-203 -/
  | leaf (exact : Bool)
  /-- `functionType` (internal/function.go:13-17) and `sensitiveType` (internal/sensitive.go:14-16): they have types in them, but no `Resolve` -/
  | opaque (parts : List Nat)
  /-- `sizedArrayType`: internal/array.go:24-28 -/
  | arr (elem : Nat)
  /-- `notType`: internal/not.go:9-11 -/
  | not (negated : Nat)
  /-- `metaType`: internal/meta.go:12-14 -/
  | typeOf (tp : Nat)
  /-- `sizedMapType`: internal/map.go -/
  | map (key value : Nat)
  /-- `tupleType`: internal/array.go:31-34 -/
  | tuple (types : List Nat)
  /-- `allOfType`: internal/ternary.go:10 -/
  | allOf (types : List Nat)
  /-- `anyOfType`: internal/ternary.go:14 -/
  | anyOf (types : List Nat)
  /-- `oneOfType`: internal/ternary.go:16 -/
  | oneOf (types : List Nat)
  /-- `structType`: internal/mapstruct.go:14-19; its two slices have the same length -/
  | struct (entries : List (Nat × Nat))
  /-- `exactArrayType`: internal/array.go:36-39; `value` is an array -/
  | exactArr (value : Nat)
  /-- `exactMapType`: internal/map.go; `value` is a map -/
  | exactMap (value : Nat)
  /-- a value: `array`, internal/array.go:15-18 -/
  | array (es : List Nat)
  /-- a value: `hashMap`, internal/map.go:54-60; the values of its entries -/
  | hash (vs : List Nat)
  deriving DecidableEq

abbrev Heap := Nat → Node

def upd (H : Heap) (p : Nat) (nd : Node) : Heap := fun a => if a = p then nd else H a

/-- The memory, and all the memories that there have been; another goroutine may look at any of them. -/
structure St where
  heap : Heap
  past : List Heap

/-- An assignment to the fields of the object at `p` -/
def St.write (s : St) (p : Nat) (nd : Node) : St := ⟨upd s.heap p nd, s.past ++ [s.heap]⟩

/-- What a call comes to -/
inductive Out (α : Type) where
  | ret (s : St) (x : α)
  | panic (s : St)
  /-- the recursion is not at an end -/
  | more

def Out.bind {α β : Type} : Out α → (St → α → Out β) → Out β
  | .ret s x, f => f s x
  | .panic s, _ => .panic s
  | .more, _ => .more

/-- The address of `DefaultAnyType`, internal/any.go -/
def anyT : Nat := 0

/-- `dgo.IsExact`: dgo/typeidentifier.go:201-203 -/
def isExact : Node → Bool
  | .leaf e => e
  | .exactArr _ | .exactMap _ => true
  | _ => false

/-- `resolveSlice`: internal/array.go:1475-1479.  `rep`: `ap.Replace`. -/
def resolveSlice (rep : St → Nat → Out Nat) (s : St) : List Nat → Out (List Nat)
  | [] => .ret s []
  | t :: ts => (rep s t).bind fun s q => (resolveSlice rep s ts).bind fun s qs => .ret s (q :: qs)

/-- The loop of `structType.Resolve`: internal/mapstruct.go:332-335. -/
def resolveEntries (rep : St → Nat → Out Nat) (s : St) : List (Nat × Nat) → Out (List (Nat × Nat))
  | [] => .ret s []
  | (k, v) :: es => (rep s k).bind fun s k' => (rep s v).bind fun s v' =>
      (resolveEntries rep s es).bind fun s es' => .ret s ((k', v') :: es')

/-- `structType.checkExactKeys`: internal/mapstruct.go:151-158 -/
def checkExactKeys (s : St) (es : List (Nat × Nat)) : Out Unit :=
  if es.all fun e => isExact (s.heap e.1) then .ret s () else .panic s

/-- The elements of an array or the values of the entries of a map -/
def cells : Node → List Nat
  | .array es => es
  | .hash vs => vs
  | _ => []

/-- `a[i] = q`, `e.value = q` -/
def setCell : Node → Nat → Nat → Node
  | .array es, i, q => .array (es.set i q)
  | .hash vs, i, q => .hash (vs.set i q)
  | nd, _, _ => nd

/-- `array.Resolve`, internal/array.go:1228-1233, and `hashMap.Resolve`, internal/map.go:778-782, from the cell `i` on; `k` more cells. -/
def resolveCells (rep : St → Nat → Out Nat) (p : Nat) : Nat → Nat → St → Out Unit
  | _, 0, s => .ret s ()
  | i, k + 1, s =>
    match (cells (s.heap p))[i]? with
    | some e => (rep s e).bind fun s q => resolveCells rep p (i + 1) k (s.write p (setCell (s.heap p) i q))
    | none => .ret s ()

/-- `t.Resolve(ap)` for the object `nd` at `p`, if it is an `AliasContainer`. -/
def resolve (rep : St → Nat → Out Nat) (s : St) (p : Nat) : Node → Out Unit
  -- no `AliasContainer`
  | .alias _ | .leaf _ | .opaque _ => .ret s ()
  -- internal/array.go:257-261
  | .arr te => (rep (s.write p (.arr anyT)) te).bind fun s q => .ret (s.write p (.arr q)) ()
  -- internal/not.go:90-94
  | .not tn => (rep (s.write p (.not anyT)) tn).bind fun s q => .ret (s.write p (.not q)) ()
  -- internal/meta.go:113-117
  | .typeOf tp => (rep (s.write p (.typeOf anyT)) tp).bind fun s q => .ret (s.write p (.typeOf q)) ()
  -- internal/map.go:1112-1121
  | .map kt vt =>
    (rep (s.write p (.map anyT anyT)) kt).bind fun s k => (rep s vt).bind fun s v => .ret (s.write p (.map k v)) ()
  -- internal/array.go:639-644
  | .tuple ts => (resolveSlice rep (s.write p (.tuple [])) ts).bind fun s qs => .ret (s.write p (.tuple qs)) ()
  -- internal/ternary.go:128-133
  | .allOf ts => (resolveSlice rep (s.write p (.allOf [])) ts).bind fun s qs => .ret (s.write p (.allOf qs)) ()
  -- internal/ternary.go:340-345
  | .anyOf ts => (resolveSlice rep (s.write p (.anyOf [])) ts).bind fun s qs => .ret (s.write p (.anyOf qs)) ()
  -- internal/ternary.go:463-468
  | .oneOf ts => (resolveSlice rep (s.write p (.oneOf [])) ts).bind fun s qs => .ret (s.write p (.oneOf qs)) ()
  -- internal/mapstruct.go:327-339
  | .struct es =>
    (resolveEntries rep (s.write p (.struct [])) es).bind fun s es' => checkExactKeys (s.write p (.struct es')) es'
  -- internal/array.go:331-333 (`value` is no alias, so that `Replace` does what `Resolve` does)
  | .exactArr v => (rep s v).bind fun s _ => .ret s ()
  -- internal/map.go:1269-1273
  | .exactMap v => (rep s v).bind fun s _ => .ret s ()
  -- internal/array.go:1228-1233, internal/map.go:778-782
  | .array es => resolveCells rep p 0 es.length s
  | .hash vs => resolveCells rep p 0 vs.length s

/-- `aliasAdder.Replace`: internal/alias.go:209-222.  `get`: `aliasAdder.GetType`, 202-207. -/
def replace (get : Name → Option Nat) : Nat → St → Nat → Out Nat
  | 0, _, _ => .more
  | n + 1, s, p =>
    match s.heap p with
    | .alias nm =>
      match get nm with
      | some q => .ret s q
      | none => .panic s
    | nd => (resolve (replace get n) s p nd).bind fun s _ => .ret s p

/-- `ns.Map(func(e) { return am.Replace(e.Value()) })` in `update`: internal/alias.go:168 (and `DoParse`, parser/parser.go:173-175, for what the text says,
before it). -/
def replaceAll (get : Name → Option Nat) (n : Nat) (s : St) (ts : List Nat) : Out (List Nat) := resolveSlice (replace get n) s ts

end Verif.Alias.Res
