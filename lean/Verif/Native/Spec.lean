import Verif.Native.Model
/-!
# Native values: specification
-/
set_option autoImplicit false
namespace Verif.Native

mutual
/-- Two Go values are alike: of the same type and with the same content, where pointers are the same or related by `R`.  Functions are alike only if
both are nil, and floats only if they are equal. -/
inductive Like (R : Nat → Nat → Prop) : G → G → Prop
  | basic (t : Nat) {v w : Basic} (h : Value.eq v.val w.val = true) : Like R (.basic t v) (.basic t w)
  | named (t : Nat) {v w : Basic} (h : Value.eq v.val w.val = true) : Like R (.named t v) (.named t w)
  | uintptr (n : BitVec 64) : Like R (.uintptr n) (.uintptr n)
  | func (t : Nat) : Like R (.func t 0) (.func t 0)
  | chan (t : Nat) (p : BitVec 64) : Like R (.chan t p) (.chan t p)
  | nil (t : Nat) : Like R (.ptr t none) (.ptr t none)
  | same (t p : Nat) : Like R (.ptr t (some p)) (.ptr t (some p))
  | ptr (t : Nat) {p q : Nat} (h : R p q) : Like R (.ptr t (some p)) (.ptr t (some q))
  | struct (t : Nat) {fs gs : List (Bool × G)} (h : LikeFields R fs gs) : Like R (.struct t fs) (.struct t gs)
  | array (t : Nat) {vs ws : List G} (h : LikeAll R vs ws) : Like R (.array t vs) (.array t ws)
  | nilSlice (t : Nat) : Like R (.slice t none) (.slice t none)
  | slice (t : Nat) {vs ws : List G} (h : LikeAll R vs ws) : Like R (.slice t (some vs)) (.slice t (some ws))
  | nilIface : Like R (.iface none) (.iface none)
  | iface {v w : G} (h : Like R v w) : Like R (.iface (some v)) (.iface (some w))
inductive LikeFields (R : Nat → Nat → Prop) : List (Bool × G) → List (Bool × G) → Prop
  | nil : LikeFields R [] []
  | cons (e : Bool) {v w : G} {fs gs : List (Bool × G)} (h : Like R v w) (hs : LikeFields R fs gs) : LikeFields R ((e, v) :: fs) ((e, w) :: gs)
inductive LikeAll (R : Nat → Nat → Prop) : List G → List G → Prop
  | nil : LikeAll R [] []
  | cons {v w : G} {vs ws : List G} (h : Like R v w) (hs : LikeAll R vs ws) : LikeAll R (v :: vs) (w :: ws)
end

/-- What is stored where related pointers point is alike. -/
def Respects (H : Heap) (R : Nat → Nat → Prop) : Prop := ∀ p q, R p q → Like R (H p) (H q)

/-- `reflect.DeepEqual`, as its documentation says: pointers are deeply equal if they are equal or point to deeply equal values, also in cycles,
where pointers that are being compared are taken for equal. -/
def DeepEq (H : Heap) (a b : G) : Prop := ∃ R, Respects H R ∧ Like R a b

/-- `native.Equals` (native.go:82-92), of two natives of the Go values; deeply equal values have the same kind. -/
def Equal (H : Heap) (a b : G) : Prop := DeepEq H a b

/-- The hash code of the Go value as a value of dgo is `h`. -/
def HashIs (H : Heap) (g : G) (h : BitVec 64) : Prop := ∃ n, valueHash H n g = .ok h
/-- Asking for it panics. -/
def HashPanics (H : Heap) (g : G) : Prop := ∃ n, valueHash H n g = .panic
/-- Asking for it never returns (until the stack is used up). -/
def HashHangs (H : Heap) (g : G) : Prop := ∀ n, valueHash H n g = .more

mutual
/-- No NaN and no function but nil, other than behind pointers -/
inductive Comparable : G → Prop
  | basic (t : Nat) {v : Basic} (h : Value.eq v.val v.val = true) : Comparable (.basic t v)
  | named (t : Nat) {v : Basic} (h : Value.eq v.val v.val = true) : Comparable (.named t v)
  | uintptr (n : BitVec 64) : Comparable (.uintptr n)
  | func (t : Nat) : Comparable (.func t 0)
  | chan (t : Nat) (p : BitVec 64) : Comparable (.chan t p)
  | ptr (t : Nat) (p : Option Nat) : Comparable (.ptr t p)
  | struct (t : Nat) {fs : List (Bool × G)} (h : ComparableFields fs) : Comparable (.struct t fs)
  | array (t : Nat) {vs : List G} (h : ComparableAll vs) : Comparable (.array t vs)
  | nilSlice (t : Nat) : Comparable (.slice t none)
  | slice (t : Nat) {vs : List G} (h : ComparableAll vs) : Comparable (.slice t (some vs))
  | nilIface : Comparable (.iface none)
  | iface {v : G} (h : Comparable v) : Comparable (.iface (some v))
inductive ComparableFields : List (Bool × G) → Prop
  | nil : ComparableFields []
  | cons (e : Bool) {v : G} {fs : List (Bool × G)} (h : Comparable v) (hs : ComparableFields fs) : ComparableFields ((e, v) :: fs)
inductive ComparableAll : List G → Prop
  | nil : ComparableAll []
  | cons {v : G} {vs : List G} (h : Comparable v) (hs : ComparableAll vs) : ComparableAll (v :: vs)
end

mutual
/-- A Go value without a cycle of pointers, with no `uintptr`, and whose slices have no natives (`plain`: not in a hidden field, where all is native)
as elements -/
inductive Hashable (H : Heap) : Bool → G → Prop
  | basic (hid : Bool) (t : Nat) (v : Basic) : Hashable H hid (.basic t v)
  | named (hid : Bool) (t : Nat) (v : Basic) : Hashable H hid (.named t v)
  | func (hid : Bool) (t : Nat) (c : BitVec 64) : Hashable H hid (.func t c)
  | chan (hid : Bool) (t : Nat) (p : BitVec 64) : Hashable H hid (.chan t p)
  | nil (hid : Bool) (t : Nat) : Hashable H hid (.ptr t none)
  | ptr (hid : Bool) (t p : Nat) (h : Hashable H hid (H p)) : Hashable H hid (.ptr t (some p))
  | struct (hid : Bool) (t : Nat) {fs : List (Bool × G)} (h : HashableFields H hid fs) : Hashable H hid (.struct t fs)
  | array (hid : Bool) (t : Nat) (vs : List G) : Hashable H hid (.array t vs)
  | nilSlice (hid : Bool) (t : Nat) : Hashable H hid (.slice t none)
  | slice (hid : Bool) (t : Nat) {vs : List G} (h : HashableAll H hid vs) : Hashable H hid (.slice t (some vs))
  | nilIface (hid : Bool) : Hashable H hid (.iface none)
  | iface (hid : Bool) {v : G} (h : Hashable H hid v) : Hashable H hid (.iface (some v))
inductive HashableFields (H : Heap) : Bool → List (Bool × G) → Prop
  | nil (hid : Bool) : HashableFields H hid []
  | cons (hid e : Bool) {v : G} {fs : List (Bool × G)} (h : Hashable H (hid || !e) v) (hs : HashableFields H hid fs) :
      HashableFields H hid ((e, v) :: fs)
/-- Elements of a slice that are values of dgo other than natives, too -/
inductive HashableAll (H : Heap) : Bool → List G → Prop
  | nil (hid : Bool) : HashableAll H hid []
  | cons (hid : Bool) {v : G} {vs : List G} (h : Hashable H hid v) (hp : Proper H hid v) (hs : HashableAll H hid vs) : HashableAll H hid (v :: vs)
/-- The Go value is not represented by a native: a value of a basic type that is not hidden, a slice or a function, or a pointer to such. -/
inductive Proper (H : Heap) : Bool → G → Prop
  | basic (t : Nat) (v : Basic) : Proper H false (.basic t v)
  | func (hid : Bool) (t : Nat) (c : BitVec 64) : Proper H hid (.func t c)
  | nil (hid : Bool) (t : Nat) : Proper H hid (.ptr t none)
  | ptr (hid : Bool) (t p : Nat) (h : Proper H hid (H p)) : Proper H hid (.ptr t (some p))
  | slice (hid : Bool) (t : Nat) (vs : Option (List G)) : Proper H hid (.slice t vs)
  | nilIface (hid : Bool) : Proper H hid (.iface none)
  | iface (hid : Bool) {v : G} (h : Proper H hid v) : Proper H hid (.iface (some v))
end

/-- `a` can be assigned to a variable of the type `b`: they are the same, or have the same underlying type and one has no name, or `b` is an interface
whose methods `a` has. -/
def Fits (a b : GoType) : Prop :=
  a = b ∨ (a.under = b.under ∧ (a.named = false ∨ b.named = false)) ∨ (b.iface = true ∧ ∀ m ∈ b.methods, m ∈ a.methods)

end Verif.Native
