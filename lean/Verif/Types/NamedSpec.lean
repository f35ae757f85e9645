import Verif.Types.Named
import Verif.Value.Eq
/-!
# Specification: the types that are made from a registered one, and the values of the user
-/
set_option autoImplicit false
namespace Verif.Named
open Verif.Value (Str Val)

/-- The type registered at `p`, or that type with parameters -/
inductive Made (p : Nat) : NT → Prop where
  | named : Made p (.named p)
  | param (id : Nat) (ps : List Val) : Made p (.param id (.named p) ps)

/-- Made from the type registered at `p`, exact types of values included -/
inductive Over (p : Nat) : NT → Prop where
  | made (t : NT) : Made p t → Over p t
  | exact (t : NT) (v : V) : Made p t → Over p (.exact t v)

/-- The Go type that values must have: the interface if there is one, else the implementation -/
def Def.target (d : Def) : Option GoType := d.ifd.or d.impl

/-- The Go type `a` has what it takes to be assigned to a variable of the Go type `b`. -/
def Fits (a b : GoType) : Prop := a = b ∨ (b.iface = true ∧ ∀ m ∈ b.methods, m ∈ a.methods)

/-- The object `x` is a value of the type registered at `q` (with or without parameters), which is implemented by `a`: its `Type` is
`ExactNamed(type, x)`. -/
def IsValue (W : World) (x q : Nat) (a : GoType) : Prop :=
  ∃ t, Made q t ∧ W.typeOf x = .nt (.exact t (.host x)) ∧ (W.defs q).impl = some a

/-- `Equals` and `HashCode` of values are as they should be. -/
structure LawfulValues (W : World) (S : V → Prop) : Prop where
  refl : ∀ v, S v → W.veq v v = true
  symm : ∀ v w, S v → S w → W.veq v w = true → W.veq w v = true
  trans : ∀ u v w, S u → S v → S w → W.veq u v = true → W.veq v w = true → W.veq u w = true
  hash : ∀ v w, S v → S w → W.veq v w = true → W.vhash v = W.vhash w

/-- Parameters are proper values and the values of exact types are in `S`. -/
def Proper (S : V → Prop) : NT → Prop
  | .named _ => True
  | .param _ t ps => Proper S t ∧ ∀ v ∈ ps, Value.WF v
  | .exact t v => Proper S t ∧ S v

/-- The two types are the same object. -/
inductive SameObject : NT → T → Prop where
  | named (p : Nat) : SameObject (.named p) (.nt (.named p))
  | param (i : Nat) (t u : NT) (ps qs : List Val) : SameObject (.param i t ps) (.nt (.param i u qs))

/-- The types all of whose values are `v`, as far as `Assignable` looks: exact types of an equal value, and combinations of them -/
inductive OnlyValue (W : World) (v : V) : T → Prop where
  | exact (t : NT) (w : V) : W.veq v w = true → OnlyValue W v (.nt (.exact t w))
  | allOf (ts : List T) : (∀ t ∈ ts, OnlyValue W v t) → OnlyValue W v (.allOf ts)
  | anyOf (ts : List T) : ts ≠ [] → (∀ t ∈ ts, OnlyValue W v t) → OnlyValue W v (.anyOf ts)
  | oneOf (ts : List T) : ts ≠ [] → (∀ t ∈ ts, OnlyValue W v t) → OnlyValue W v (.oneOf ts)

/-- What the registry can become: by registering types under their names and by removing them -/
inductive Reachable (W : World) : Reg → Prop where
  | empty : Reachable W []
  | step (r r' : Reg) (op : RegOp) : Reachable W r → (∀ n p, op = .add n p → (W.defs p).name = n) → r.step op = some r' → Reachable W r'

end Verif.Named
