import Verif.Value.Model
/-!
# Named types

`internal/named.go`: types of the user's own Go types.

Simplifications, for the whole file:
* a Go type is its identity and its methods; it is assignable to another if they are the same, or if that is an interface all of whose
  methods it has.  (So it is for types with methods, as the implementations of `dgo.Value` are.)
* the functions of the user (constructor, extractor, checker; `Type`, `Equals` and `HashCode` of their values) are arbitrary functions,
  which may panic but do not change anything.
* other types are those that are asked in turn whether they can be assigned (`allOf`, `anyOf`, `oneOf`) and `plain`: all those that
  are not, and are not named.
* an exact type is a new object each time.
-/
set_option autoImplicit false
namespace Verif.Named
open Verif.Value (Str Val)

/-- `reflect.Type` -/
structure GoType where
  id : Nat
  iface : Bool
  methods : List Nat
  deriving DecidableEq

/-- `AssignableTo` of package reflect -/
def GoType.assignableTo (a b : GoType) : Bool := a == b || b.iface && b.methods.all fun m => a.methods.contains m

/-- The result of a function that may panic -/
inductive Out (α : Type) where
  | ok (a : α)
  | panic
  deriving DecidableEq

def Out.bind {α β : Type} (x : Out α) (f : α → Out β) : Out β :=
  match x with
  | .ok a => f a
  | .panic => .panic

/-- A value: one of dgo's own, or an object of a Go type of the user -/
inductive V where
  | data (v : Val)
  | host (p : Nat)

/-- `named`, `parameterized` and `exactNamed`: internal/named.go:13-33.  A `*named` is its address, a `*parameterized` has the address `id`. -/
inductive NT where
  | named (p : Nat)
  | param (id : Nat) (t : NT) (ps : List Val)
  | exact (t : NT) (v : V)

/-- A type -/
inductive T where
  | nt (t : NT)
  | plain
  | allOf (ts : List T)
  | anyOf (ts : List T)
  | oneOf (ts : List T)

/-- `named`: named.go:14-21. -/
structure Def where
  name : Str
  ctor : Option (V → Out V)
  extractor : Option (V → Out V)
  impl : Option GoType
  ifd : Option GoType
  checker : Option (NT → T → Out Bool)

/-- The named types, and what the values of the user say about themselves -/
structure World where
  defs : Nat → Def
  typeOf : Nat → T
  equals : Nat → V → Bool
  hash : Nat → BitVec 64

/-- `value.Type()`; the type of a value of dgo is not a named type. -/
def World.type (W : World) : V → T
  | .data _ => .plain
  | .host p => W.typeOf p

/-- `value.Equals` -/
def World.veq (W : World) : V → V → Bool
  | .data a, .data b => Value.eq a b
  | .data _, .host _ => false
  | .host p, v => W.equals p v

/-- `value.HashCode` -/
def World.vhash (W : World) : V → BitVec 64
  | .data a => Value.hash a
  | .host p => W.hash p

/-- `Name`: named.go:155-157, promoted by the others (named.go:23-32). -/
def name (W : World) : NT → Str
  | .named p => (W.defs p).name
  | .param _ t _ => name W t
  | .exact t _ => name W t

/-- `AssignableType`: named.go:114-119, promoted. -/
def assignableType (W : World) : NT → Option GoType
  | .named p =>
    match (W.defs p).ifd with
    | some i => some i
    | none => (W.defs p).impl
  | .param _ t _ => assignableType W t
  | .exact t _ => assignableType W t

/-- `ReflectType`: named.go:163-165, promoted; 244-246. -/
def reflectType (W : World) : NT → Option GoType
  | .named p => (W.defs p).impl
  | .param _ t _ => reflectType W t
  | .exact t _ => reflectType W t

/-- `Parameters`: named.go:159-161, 224-226, promoted; `none` is nil. -/
def parameters : NT → Option (List Val)
  | .named _ => none
  | .param _ _ ps => some ps
  | .exact t _ => parameters t

/-- `ExtractInitArg`: named.go:144-149, promoted. -/
def extract (W : World) (v : V) : NT → Out V
  | .named p =>
    match (W.defs p).extractor with
    | some f => f v
    | none => .panic
  | .param _ t _ => extract W v t
  | .exact t _ => extract W v t

/-- `Generic`: named.go:208-210, 236-238 and type.go:78-83. -/
def generic : NT → NT
  | .named p => .named p
  | .param _ t _ => t
  | .exact t _ => t

/-- `Equals` of two types: named.go:133-138, 201-206, exact.go:19-24 (types with other identifiers are `plain`). -/
def equal (W : World) : NT → NT → Bool
  | .named p, .named q => (W.defs p).name == (W.defs q).name
  | .param _ t ps, .param _ u qs => equal W t u && Value.eqSlice ps qs
  | .exact _ v, .exact _ w => W.veq v w
  | _, _ => false

/-- `HashCode`: named.go:140-142, 212-214, exact.go:26-28; the type identifiers TiNamed (18) and TiNamedExact (40):
dgo/typeidentifier.go:64-65, 131-132. -/
def hashCode (W : World) : NT → BitVec 64
  | .named p => Value.strHash (W.defs p).name * 7 + 18
  | .param _ t ps => hashCode W t * 31 + Value.hash (.arr ps)
  | .exact _ v => W.vhash v * 7 + 40

/-- `defaultAsgChecker`: named.go:36-41.  A method of a nil `reflect.Type` and `AssignableTo(nil)` panic. -/
def defaultChecker (W : World) (t : NT) : T → Out Bool
  | .nt u =>
    match reflectType W u, assignableType W t with
    | some a, some b => .ok (a.assignableTo b)
    | _, _ => .panic
  | _ => .ok false

/-- `asgChecker`, or the default -/
def checker (W : World) (p : Nat) : NT → T → Out Bool := (W.defs p).checker.getD (defaultChecker W)

/-- What `Assignable` looks at before it asks the other type: named.go:121-127, 193-199 (where only a `*named` can be parameterized,
line 194), exact.go:15-17. -/
def accepts (W : World) (t : NT) (o : T) : Out Bool :=
  match t with
  | .named p => checker W p t o
  | .param _ (.named p) _ => checker W p t o
  | .param _ _ _ => .panic
  | .exact _ _ => .ok (match o with | .nt u => equal W t u | _ => false)

/-- The same object (`a == b` in `Assignable`: compare.go:53-55) -/
def same : NT → T → Bool
  | .named p, .nt (.named q) => p == q
  | .param i _ _, .nt (.param j _ _) => i == j
  | _, _ => false

mutual
/-- `Assignable` of a named type: named.go:121-127, 193-199, exact.go:15-17, with `CheckAssignableTo` (type.go:15-23) and
`AssignableTo` of the other type (ternary.go:66-74, 285-293, 403-411). -/
def assignable (W : World) (t : NT) (o : T) : Out Bool :=
  (accepts W t o).bind fun
    | true => .ok true
    | false =>
      match o with
      | .allOf ts => assignableAll W t ts
      | .anyOf ts => (assignableAll W t ts).bind fun b => .ok (b && !ts.isEmpty)
      | .oneOf ts => (assignableAll W t ts).bind fun b => .ok (b && !ts.isEmpty)
      | _ => .ok false
/-- Every type can be assigned: ternary.go:67-73, with compare.go:52-60. -/
def assignableAll (W : World) (t : NT) : List T → Out Bool
  | [] => .ok true
  | o :: os =>
    (if same t o then Out.ok true else assignable W t o).bind fun
      | true => assignableAll W t os
      | false => .ok false
end

/-- `Instance`: named.go:151-153, 216-218, exact.go:30-32. -/
def instance? (W : World) (t : NT) (v : V) : Out Bool :=
  match t with
  | .exact _ w => .ok (W.veq w v)
  | t => assignable W t (W.type v)

/-- `New`: named.go:129-131, 220-222, 240-242 and `newNamed` (256-266), whose type assertion (257) only a `*named` passes. -/
def new (W : World) (t : NT) (arg : V) : Out V :=
  match generic t with
  | .named p =>
    match (W.defs p).ctor with
    | none => .panic
    | some f =>
      (f arg).bind fun v =>
        match (W.defs p).checker with
        | none => .ok v
        | some c => (c t (W.type v)).bind fun b => if b then .ok v else .panic
  | _ => .panic

/-! ## The registry -/

/-- `namedTypes`, a map from names to types: named.go:34; the order is that of `Range`, any. -/
abbrev Reg := List (Str × Nat)

/-- Operations on the registry: `NewNamedType` (63-76), which makes the type at the address `p`, and `RemoveNamedType` (45-47). -/
inductive RegOp where
  | add (name : Str) (p : Nat)
  | remove (name : Str)

/-- `none` is a panic. -/
def Reg.step (r : Reg) : RegOp → Option Reg
  | .add n p => if (r.lookup n).isSome then none else some ((n, p) :: r)
  | .remove n => some (r.filter fun e => e.1 ≠ n)

/-- `NamedType`: named.go:87-92. -/
def Reg.get (r : Reg) (n : Str) : Option Nat := r.lookup n

/-- `NamedTypeFromReflected`: named.go:101-112; a nil Go type is `none`. -/
def Reg.fromReflected (W : World) (r : Reg) (rt : Option GoType) : Option Nat :=
  (r.find? fun e => decide (rt = (W.defs e.2).impl)).map (·.2)

end Verif.Named
