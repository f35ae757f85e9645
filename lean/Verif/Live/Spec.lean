import Verif.Live.Model
/-!
# What types of arrays say: specification
-/
set_option autoImplicit false
namespace Verif.Live

/-- What a value is made of: a number, a list, or the type of a list -/
inductive Tree where
  | atom (i : BitVec 64)
  | arr (ts : List Tree)
  | type (ts : List Tree)

mutual
/-- `r` has the contents `t` -/
inductive Has (h : Heap) : Ref → Tree → Prop where
  | atom (i : BitVec 64) : Has h (.atom i) (.atom i)
  | obj {p : Nat} {o : Obj} {ts : List Tree} : h[p]? = some o → HasAll h o.es ts → Has h (.obj p) (.arr ts)
  | type {p : Nat} {o : Obj} {ts : List Tree} : h[p]? = some o → HasAll h o.es ts → Has h (.type p) (.type ts)
inductive HasAll (h : Heap) : List Ref → List Tree → Prop where
  | nil : HasAll h [] []
  | cons {r : Ref} {rs : List Ref} {t : Tree} {ts : List Tree} : Has h r t → HasAll h rs ts → HasAll h (r :: rs) (t :: ts)
end

/-- Everything that can be reached from the value, types included, is frozen. -/
inductive Solid (h : Heap) : Ref → Prop where
  | atom (i : BitVec 64) : Solid h (.atom i)
  | obj {p : Nat} {es : List Ref} : h[p]? = some ⟨true, es⟩ → (∀ e ∈ es, Solid h e) → Solid h (.obj p)
  | type {p : Nat} {es : List Ref} : h[p]? = some ⟨true, es⟩ → (∀ e ∈ es, Solid h e) → Solid h (.type p)

/-- The types that can be reached are types of frozen arrays, with nothing in them that is not frozen.  The arrays need not be frozen, and those that are
only contain what is. -/
inductive SolidTypes (h : Heap) : Ref → Prop where
  | atom (i : BitVec 64) : SolidTypes h (.atom i)
  | type {p : Nat} : Solid h (.type p) → SolidTypes h (.type p)
  | frozen {p : Nat} : Solid h (.obj p) → SolidTypes h (.obj p)
  | mutable {p : Nat} {es : List Ref} : h[p]? = some ⟨false, es⟩ → (∀ e ∈ es, SolidTypes h e) → SolidTypes h (.obj p)

end Verif.Live
