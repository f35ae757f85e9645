import Verif.Reflect.FromTypeSpec
import Verif.Reflect.Call
import Mathlib.Data.List.Forall2
/-!
# What a call of a Go function should do
-/
set_option autoImplicit false
set_option linter.unusedVariables false
namespace Verif.Reflect
open Verif.Value Verif.Types

/-- Each value, put in a variable of the type at its position, is the Go value there. -/
inductive Params (E : Env) : List GT → List Val → List GV → Prop where
  | nil : Params E [] [] []
  | cons {t : GT} {v : Val} {g : GV} {ts : List GT} {vs : List Val} {gs : List GV} :
      reflectTo E v t = some g → Params E ts vs gs → Params E (t :: ts) (v :: vs) (g :: gs)

/-- The body of the function gets the Go values `gs` for the arguments `args`: one for each parameter, in order, and for a variadic one a slice
(that is not nil) of what remains. -/
def Receives (E : Env) (f : Fn) (args : List Val) (gs : List GV) : Prop :=
  match f.rest with
  | none => Params E f.ins args gs
  | some e => ∃ vs more fixed rs, args = vs ++ more ∧ Params E f.ins vs fixed ∧ List.Forall₂ (fun v g => reflectTo E v e = some g) more rs ∧
      gs = fixed ++ [.slice e (some rs)]

/-- The types of the parameters of the Go function -/
def Fn.params (f : Fn) : List GT := f.ins ++ f.rest.toList.map .slice

/-- The Go value is a `dgo.Value`, or an `interface{}` that holds one. -/
def IsValue (g : GV) : Prop := ∃ k v, g = .value k (some v) ∨ g = .iface (some (.value k (some v)))

/-- The result of the call stands for the result of the body: Go's nil for a nil that is no `dgo.Value`, else what is read. -/
def Result (E : Env) (g : GV) (r : Option Val) : Prop :=
  (r = none ∧ IsNil g = true ∧ ¬ IsValue g ∧ fromReflected E g = .ok .nil) ∨
    ∃ v, r = some v ∧ fromReflected E g = .ok v ∧ (IsNil g = true → IsValue g)

/-- Reading what the body gets, one by one, gives the arguments. -/
def ReadsBack (E : Env) (f : Fn) (gs : List GV) (args : List Val) : Prop :=
  match f.rest with
  | none => List.Forall₂ (fun g v => fromReflected E g = .ok v) gs args
  | some e => ∃ fixed rs vs more, gs = fixed ++ [.slice e (some rs)] ∧ args = vs ++ more ∧
      List.Forall₂ (fun g v => fromReflected E g = .ok v) fixed vs ∧ List.Forall₂ (fun g v => fromReflected E g = .ok v) rs more

end Verif.Reflect
