import Verif.Value.Model
/-!
# Native values

`internal/native.go`: Go values that `vf.Value` has no other representation for, with the conversion of `internal/value.go` that `HashCode` uses for
the fields of structs.

Simplifications, for the whole file:
* the Go values are those of `G`.  Not modelled: maps, slices of bytes or of `dgo.Value`, interfaces with methods, and what `value` (value.go:48-84)
  converts though it is a struct or a pointer (times, regexps, errors, values of dgo).
* memory is a function from addresses to the content of the variables there; nothing in this file changes it.
* `reflect.DeepEqual` is a function of Go's library; what it tells is in the specification (`DeepEq`).
-/
set_option autoImplicit false
set_option linter.unusedVariables false
namespace Verif.Native
open Verif.Value (Val)

/-- Values of the types bool, string, float32, float64 and the integer types, and of types declared as one of those.  Not modelled: complex numbers,
and unsigned integers that are not an `int64`. -/
inductive Basic where
  | bool (b : Bool)
  | int (i : BitVec 64)
  | float (f : Value.F64)
  | str (s : Value.Str)

/-- `value`: value.go:48-84. -/
def Basic.val : Basic → Val
  | .bool b => .bool b
  | .int i => .int i
  | .float f => .float f
  | .str s => .str s

/-- Go values; `t` is the Go type -/
inductive G where
  | basic (t : Nat) (v : Basic)
  /-- of a type that is declared as a basic type -/
  | named (t : Nat) (v : Basic)
  | uintptr (n : BitVec 64)
  /-- the address of the code; 0: nil -/
  | func (t : Nat) (code : BitVec 64)
  | chan (t : Nat) (p : BitVec 64)
  | ptr (t : Nat) (p : Option Nat)
  /-- the fields, and whether each is exported -/
  | struct (t : Nat) (fs : List (Bool × G))
  | array (t : Nat) (vs : List G)
  | slice (t : Nat) (vs : Option (List G))
  /-- an `interface{}` -/
  | iface (v : Option G)

/-- What is stored where -/
abbrev Heap := Nat → G

/-- The address as a number -/
abbrev addr (p : Nat) : BitVec 64 := BitVec.ofNat 64 p

/-- What a function does: it returns, it panics, or it has not returned after so many calls. -/
inductive Res (α : Type) where
  | ok (a : α)
  | panic
  | more

def Res.bind {α β : Type} (x : Res α) (f : α → Res β) : Res β :=
  match x with
  | .ok a => f a
  | .panic => .panic
  | .more => .more

/-- The results for all elements, in order -/
def mapRes {α β : Type} (f : α → Res β) : List α → Res (List β)
  | [] => .ok []
  | a :: as => (f a).bind fun b => (mapRes f as).bind fun bs => .ok (b :: bs)

/-- A `dgo.Value`.  A native (native.go:12) is a Go value; `hidden` if it was found in a field that is not exported, so that it has no
`Interface` (`flagRO` of package reflect). -/
inductive DV where
  | data (v : Val)
  /-- a `goFunc` -/
  | func (code : BitVec 64)
  | arr (vs : List DV)
  | native (hidden : Bool) (g : G)

def DV.isNative : DV → Bool
  | .native _ _ => true
  | _ => false

/-- `ValueFromReflected`: value.go:98-142, with `ArrayFromReflected(vr, true)`: array.go:719-755.  There, natives panic in `FrozenCopy`
(native.go:104-106), the others are frozen.  The first argument bounds the number of nested calls. -/
def fromReflected (H : Heap) : Nat → Bool → G → Res DV
  | 0, _, _ => .more
  | n + 1, hidden, g =>
    match g with
    | .basic _ v => .ok (if hidden then .native hidden g else .data v.val)
    | .func _ c => .ok (.func c)
    | .ptr _ none => .ok (.data .nil)
    | .ptr _ (some p) =>
      match H p with
      | .struct _ _ => .ok (.native hidden g)
      | x => fromReflected H n hidden x
    | .slice _ none => .ok (.data .nil)
    | .slice _ (some vs) => (mapRes (fromReflected H n hidden) vs).bind fun ds => if ds.any DV.isNative then .panic else .ok (.arr ds)
    | .iface none => .ok (.data .nil)
    | .iface (some x) => fromReflected H n hidden x
    | g => .ok (.native hidden g)

/-- The loops of `structHash` (native.go:131-138) and of `deepHashCode` of an array (array.go:1094-1101) -/
def hashLoop {α : Type} (f : α → Res (BitVec 64)) : BitVec 64 → List α → Res (BitVec 64)
  | h, [] => .ok h
  | h, a :: as => (f a).bind fun x => hashLoop f (h * 31 + x) as

/-- `HashCode`: native.go:112-138, function.go:297-299, array.go:1090-1101; other values as in Verif/Value.  `Pointer` of a `uintptr` panics.
The first argument bounds the number of nested calls. -/
def hashCode (H : Heap) : Nat → DV → Res (BitVec 64)
  | 0, _ => .more
  | n + 1, d =>
    match d with
    | .data v => .ok (Value.hash v)
    | .func c => .ok c
    | .arr vs => hashLoop (hashCode H n) 1 vs
    | .native hidden g =>
      match g with
      | .ptr _ (some p) =>
        match H p with
        | .struct _ fs => hashLoop (fun f => (fromReflected H n (hidden || !f.1) f.2).bind (hashCode H n)) 1 fs
        | _ => .ok (addr p ^^^ (addr p >>> 32))
      | .ptr _ none => .ok 0
      | .chan _ p => .ok (p ^^^ (p >>> 32))
      | .uintptr _ => .panic
      | .struct _ fs => (hashLoop (fun f => (fromReflected H n (hidden || !f.1) f.2).bind (hashCode H n)) 1 fs).bind fun h => .ok (h * 3)
      | _ => .ok 1234

/-- `vf.Value(x).HashCode()` -/
def valueHash (H : Heap) (n : Nat) (g : G) : Res (BitVec 64) := (fromReflected H n false g).bind (hashCode H n)

/-! ## Types -/

/-- A Go type: what it is, its underlying type, whether it has a name, whether it is an interface, and its methods -/
structure GoType where
  id : Nat
  under : Nat
  named : Bool
  iface : Bool
  name : Value.Str
  methods : List Nat
  deriving DecidableEq

/-- `AssignableTo` of package reflect, for types that are not channels -/
def GoType.assignableTo (a b : GoType) : Bool :=
  a == b || (a.under == b.under && !(a.named && b.named)) || (b.iface && b.methods.all fun m => a.methods.contains m)

/-- `nativeType`: native.go:14-16; `none` is `DefaultNativeType` (native.go:20) -/
abbrev NType := Option GoType

/-- `Assignable` of a native type: native.go:28-39, for native types -/
def assignable (t o : NType) : Bool :=
  match t, o with
  | none, _ => true
  | some _, none => false
  | some a, some b => b.assignableTo a

/-- `Instance`: native.go:64-72, for natives, with the Go type of the value -/
def instanceOf (t : NType) (g : GoType) : Bool :=
  match t with
  | none => true
  | some a => g.assignableTo a

/-- `Equals`: native.go:41-46. -/
def typeEq (t o : NType) : Bool := t == o

/-- `HashCode`: native.go:48-50; `none`: panic.  TiNative is 19: dgo/typeidentifier.go:67-68. -/
def typeHash (t : NType) : Option (BitVec 64) :=
  match t with
  | none => none
  | some a => some (Value.strHash a.name * 31 + 19)

end Verif.Native
