import Verif.Value.Model
/-!
# `Callable` in pcore expressions

streamer/pcore/parser.go:304-348, 497-537, 745-755, 802-810, given the arguments that were read between the brackets.

The types are any type `T`; `isFn` tells which of them are function types.  The types of the parameters and the results are the lists that `tf.Tuple` and
`tf.VariadicTuple` are given (a tuple of exact types is the type of an array, internal/array.go:390-395, with the same element types).
-/
set_option autoImplicit false
namespace Verif.Pcore.Fn

/-- An argument: an integer, the word `default`, a type, an array, and any other value -/
inductive Arg (T : Type) where
  | int (n : BitVec 64)
  | dflt
  | ty (t : T)
  | arr (as : List (Arg T))
  | other

/-- A function type: the types of the parameters, whether the last one may be given any number of times, and the type of the result -/
structure FnType (T : Type) where
  params : List T
  variadic : Bool
  returns : List T
  deriving DecidableEq, Repr

variable {T : Type}

/-- `getIfInt`: parser.go:745-755. -/
def Arg.int? (d : BitVec 64) : Arg T → Option (BitVec 64)
  | .int n => some n
  | .dflt => some d
  | _ => none

def types? : List (Arg T) → Option (List T)
  | [] => some []
  | .ty t :: r => (types? r).map (t :: ·)
  | _ :: _ => none

/-- The end of `tupleFromArgs`: parser.go:526-537, and internal/array.go:365-377; `none`: it panics. -/
def tupleOf (as : List (Arg T)) (min max : Int) : Option (List T × Bool) :=
  (types? as).bind fun ts =>
    if min = as.length ∧ min = max then some (ts, false)
    else if ts.isEmpty then none
    else some (ts, true)

/-- `tupleFromArgs`: parser.go:497-525.  `args.Get(-1)` panics. -/
def tupleFromArgs (args : List (Arg T)) : Option (List T × Bool) :=
  match args.reverse with
  | [] => none
  | x :: r =>
    match x.int? (-1) with
    | none => tupleOf args args.length args.length
    | some n =>
      match r with
      | [] => none
      | y :: r' =>
        match y.int? (-1) with
        | some m => tupleOf r'.reverse (if m = -1 then r'.length else m.toInt) (if n = -1 then r'.length else n.toInt)
        | none => tupleOf r.reverse (if n = -1 then r.length else n.toInt) 9223372036854775807

/-- The arguments without the block, which are not empty, with the sizes changed: parser.go:331-342. -/
def growSizes (init : List (Arg T)) : List (Arg T) :=
  match init.reverse with
  | [] => []
  | x :: r =>
    match x.int? (-1) with
    | none => init
    | some n =>
      let x' := if n = -1 then x else .int (n + 1)
      let r' :=
        if init.length + 1 > 3 then
          match r with
          | [] => []
          | y :: r2 =>
            match y.int? 0 with
            | some m => .int (m + 1) :: r2
            | none => y :: r2
        else r
      (x' :: r').reverse

/-- The block goes first: parser.go:319-346.  `args.Get(-1)` panics. -/
def moveBlock (isFn : T → Bool) (args : List (Arg T)) : Option (List (Arg T)) :=
  match args.reverse with
  | [] => none
  | .ty b :: r => if isFn b ∧ args.length > 1 then some (.ty b :: growSizes r.reverse) else some args
  | _ => some args

/-- `callableType` after `[`: parser.go:310-347, and `returnType`: parser.go:802-810; `none`: it panics. -/
def callable (isFn : T → Bool) (args : List (Arg T)) : Option (FnType T) :=
  match args with
  | [.arr ps, .ty r] => fn ps [r]
  | [.arr _, _] => none
  | args => fn args []
where
  fn (args : List (Arg T)) (returns : List T) : Option (FnType T) :=
    ((moveBlock isFn args).bind tupleFromArgs).map fun p => ⟨p.1, p.2, returns⟩

/-! ## Specification -/

/-- `k` arguments can be given to functions of the type: internal/function.go has the numbers from the tuple, and the last type of a variadic one is that
of any number of arguments -/
def FnType.Takes (f : FnType T) (k : Nat) : Prop := if f.variadic then f.params.length ≤ k + 1 else k = f.params.length

/-- A block, which is the last of several types if that is a function type, goes first. -/
def blockFirst (isFn : T → Bool) (ts : List T) : List T :=
  match ts.reverse with
  | b :: x :: r => if isFn b then b :: (x :: r).reverse else ts
  | _ => ts

/-- The type that an argument is, if it is one -/
def Arg.ty? : Arg T → Option T
  | .ty t => some t
  | _ => none

/-- A type, or a size -/
def Arg.Fine : Arg T → Prop
  | .ty _ => True
  | .int _ => True
  | .dflt => True
  | _ => False

end Verif.Pcore.Fn
