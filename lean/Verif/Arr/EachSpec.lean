import Verif.Arr.EachModel
/-! # Kinds of actors of loops over the array `a` -/
set_option autoImplicit false
namespace Verif.Arr

variable {V S : Type} [ElemOps V]

/-- All calls of an actor are of this kind. -/
def Prog.Calls (P : Op V → Prop) : Prog V S → Prop
  | .ret _ _ => True
  | .call op cont => P op ∧ ∀ o, (cont o).Calls P

/-- The actor never ends the loop. -/
def Prog.Goes : Prog V S → Prop
  | .ret _ go => go = true
  | .call _ cont => ∀ o, (cont o).Goes

def Prog.map {T : Type} (f : S → T) : Prog V S → Prog V T
  | .ret s go => .ret (f s) go
  | .call op cont => .call op fun o => (cont o).map f

/-- The actor, which first calls `Get` with the index that it is given, and keeps in its state whether it always was the element given. -/
def checked (a : Nat) (actor : S → Nat → Option V → Prog V S) : S × Prop → Nat → Option V → Prog V (S × Prop) :=
  fun s i c => .call (.get a i) fun o => (actor s.1 i c).map fun s' => (s', s.2 ∧ o = .val c)

/-- The calls that don't add elements to the array and don't remove any. -/
def KeepsLength (a : Nat) : Op V → Prop
  | .add b _ | .addAll b _ | .addValues b _ | .insert b _ _ | .remove b _ | .removeValue b _ | .pop b => b ≠ a
  | _ => True

/-- The calls that change no array except that they may add elements at the end of this one. -/
def OnlyAdds (a : Nat) : Op V → Prop
  | .add b _ | .addAll b _ | .addValues b _ | .with b _ | .withValues b _ => b = a
  | .insert _ _ _ | .set _ _ _ | .remove _ _ | .removeValue _ _ | .pop _ | .rawSet _ _ _ => False
  | _ => True

/-- The calls that don't let arrays share storage: all but `With`, `WithValues`, `GoSlice` and `WrapSlice`. -/
def KeepsApart : Op V → Prop
  | .with _ _ | .withValues _ _ | .goSlice _ | .wrapSlice _ => False
  | _ => True

/-- The calls that may change this array. -/
def Changes (a : Nat) : Op V → Prop
  | .add b _ | .addAll b _ | .addValues b _ | .insert b _ _ | .set b _ _ | .remove b _ | .removeValue b _ | .pop b => b = a
  | _ => False

end Verif.Arr
