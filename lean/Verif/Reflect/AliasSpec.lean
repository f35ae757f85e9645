import Verif.Reflect.Alias
/-!
# Which programs are meant
-/
set_option autoImplicit false
set_option linter.unusedVariables false
namespace Verif.Reflect.Alias

/-- `GoStruct` is not called for frozen structs. -/
def Safe (m : St) : Op → Prop
  | .goStruct o => (m.objs o).frozen = false
  | _ => True

/-- The slice that the step writes to -/
def Writes : Op → Nat → Prop
  | .goWrite a _ _, b => b = a
  | _, _ => False

/-- `GoStruct` is never called for a frozen struct. -/
def SafeRun (m : St) : List Op → Prop
  | [] => True
  | op :: os => Safe m op ∧ SafeRun (step m op) os

/-- The step is not one of the struct `n` or of one of the arrays in `D`. -/
def Avoids (n : Nat) (D : Nat → Prop) : Op → Prop
  | .put o _ _ | .putArray o _ _ | .freeze o | .frozenCopy o | .copy o _ | .thawedCopy o | .goStruct o | .toPtr o | .toVar o _ => o ≠ n
  | .dgoSet d _ _ => ¬D d
  | _ => True

/-- Counters -/
structure Base where
  nv : Nat
  na : Nat
  nd : Nat
  no : Nat

def St.base (m : St) : Base := ⟨m.nv, m.na, m.nd, m.no⟩

def FV.New (b : Base) : FV → Prop
  | .scalar _ => True
  | .slice a => b.na ≤ a
  | .dgo d => b.nd ≤ d

/-- The step works on nothing that was there. -/
def Op.New (b : Base) : Op → Prop
  | .goSlice _ | .dgoNew _ => True
  | .goVar fs => ∀ f ∈ fs, f.New b
  | .goSet v _ f => b.nv ≤ v ∧ f.New b
  | .goRead v _ | .ofPtr v | .ofValue v => b.nv ≤ v
  | .goWrite a _ _ => b.na ≤ a
  | .dgoSet d _ _ | .dgoFreeze d => b.nd ≤ d
  | .put o _ _ | .freeze o | .frozenCopy o | .copy o _ | .thawedCopy o | .goStruct o | .toPtr o => b.no ≤ o
  | .putArray o _ d => b.no ≤ o ∧ b.nd ≤ d
  | .toVar o v => b.no ≤ o ∧ b.nv ≤ v

end Verif.Reflect.Alias
