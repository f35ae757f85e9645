import Verif.Reflect.FromType
import Verif.Types.Assign
/-!
# Go functions as `dgo` values

`dgo.Function`: internal/function.go.  A Go function has types of parameters and results, and a body, about which nothing is assumed.
-/
set_option autoImplicit false
set_option linter.unusedVariables false
namespace Verif.Reflect
open Verif.Value Verif.Types

/-- A Go function.  Its parameters are `ins` and, if it is variadic, one of the type `[]e`, where `rest` is `e`.  The body gets the arguments
(the last one a slice, if it is variadic) and returns the results, or panics. -/
structure Fn where
  ins : List GT
  rest : Option GT
  outs : List GT
  body : List GV → Option (List GV)

/-- `dgo` values put in the variables of new parameters: the loops in function.go:329-332 and 349-352. -/
def pass (E : Env) : List Val → List GT → Option (List GV)
  | v :: vs, t :: ts => (reflectTo E v t).bind fun g => (pass E vs ts).map (g :: ·)
  | _, _ => some []

/-- Is the result of a call a `dgo.Value`?  (`re.Interface().(dgo.Value)`) -/
def isValue? : GV → Bool
  | .value _ (some _) => true
  | .iface (some (.value _ (some _))) => true
  | _ => false

/-- `convertReturn`: internal/function.go:301-316.  `none`: Go's nil. -/
def convertReturn (E : Env) : List GV → Except NoVal (List (Option Val))
  | [] => .ok []
  | g :: gs =>
    (fromReflected E g).bind fun v =>
      (convertReturn E gs).map fun rs =>
        (match v with
         | .nil => if isValue? g then some .nil else none
         | v => some v) :: rs

/-- The arguments that the body gets: internal/function.go:318-352; `none`: panic. -/
def Fn.arguments (E : Env) (f : Fn) (args : List Val) : Option (List GV) :=
  match f.rest with
  | some e =>
    let nv := f.ins.length
    if args.length < nv then none
    else
      (pass E (args.take nv) f.ins).bind fun gs =>
        (reflectAll E (args.drop nv) e).map fun rs => gs ++ [.slice e (some rs)]
  | none => if args.length ≠ f.ins.length then none else pass E args f.ins

/-- `goFunc.Call`: internal/function.go:300-354. -/
def Fn.call (E : Env) (f : Fn) (args : List Val) : Except NoVal (List (Option Val)) :=
  match f.arguments E args with
  | none => .error .panic
  | some gs =>
    match f.body gs with
    | none => .error .panic
    | some rs => convertReturn E rs

/-! ## Types of functions -/

/-- The types of the elements of an `exactFunctionTuple`: internal/function.go:118-130; `k` is the index of the first. -/
def typesFrom (o : Oid) : Nat → List GT → Option (List Ty)
  | _, [] => some []
  | k, t :: ts => (typeFromReflected (.part o k) t).bind fun a => (typesFrom o (k + 1) ts).map (a :: ·)

/-- `exactFunctionType.In`: internal/function.go:152-155; the last parameter of a variadic function counts as one of the type of its elements
(121-127). -/
def Fn.inType (o : Oid) (f : Fn) : Option Ty := (typesFrom o 0 (f.ins ++ f.rest.toList)).map fun ts => .tuple o ts f.rest.isSome

/-- `exactFunctionType.Out`: internal/function.go:168-171. -/
def Fn.outType (o : Oid) (f : Fn) : Option Ty := (typesFrom o 0 f.outs).map fun ts => .tuple o ts false

/-- `functionTypeAssignable`: internal/function.go:213-220, for two function types given by the types and flags of their tuples.  The guard that
`Assignable` makes for the function types themselves is left out: no type here has a function type in it. -/
def functionTypeAssignable (E : Types.Env) (ins : List Ty) (var : Bool) (outs : List Ty) (ins' : List Ty) (var' : Bool) (outs' : List Ty) : Bool :=
  let n := depths ins + depths ins' + depths outs + depths outs' + 3
  var == var' &&
    (match tupleTuple (asg E n) none ins var ins' var' with
     | some (true, _) => match tupleTuple (asg E n) none outs false outs' false with
       | some (true, _) => true
       | _ => false
     | _ => false)

end Verif.Reflect
