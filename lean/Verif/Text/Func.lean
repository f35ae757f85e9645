import Verif.Text.Parser
import Verif.Text.Printer
/-!
# Model: function types as text

The type of a function is given by two tuple types, one for the arguments and one for what is returned.  A tuple type whose elements
are all exact is the exact type of an array (`newTupleType`: internal/array.go:371-397), so both kinds occur.  The types inside of the tuples are
those of `Ty`, which has no function types.
-/
set_option autoImplicit false
namespace Verif.Text
open Verif.Value (Str Val)
open Verif.Types (Ty Oid maxInt)

/-- `functionType`: internal/function.go:12-16. -/
structure FnTy where
  ins : Ty
  outs : Ty

/-- Types that are a `dgo.TupleType` with elements: `tupleType` and `exactArrayType` of internal/array.go. -/
def isTupleTy : Ty → Bool
  | .tuple .. => true
  | .exactD _ (.arr _) => true
  | _ => false

/-- `FunctionType`: internal/function.go:195-205.  It panics when the number of values returned may vary, except for `DefaultTupleType`.
(Which object is returned for the default is left out.) -/
def functionType (ins outs : Ty) : Except PErr FnTy :=
  match outs with
  | .tuple _ ts true => if ts.length = 1 ∧ ts.all Ty.isAny = true then .ok ⟨ins, outs⟩ else .error .badArgs
  | _ => .ok ⟨ins, outs⟩

/-- `writeTupleArgs` with parentheses: stringer/typestring.go:369-388. -/
def argsPieces (S : SEnv) (st : Val → List Piece) : Ty → List Piece
  | .tuple _ ts variadic => [.ch 40] ++ tuplePieces S st variadic ts ++ [.ch 41]
  | .exactD _ (.arr vs) => [.ch 40] ++ valsPieces S st (.ch 44) vs ++ [.ch 41]
  | _ => []

/-- What follows the arguments: stringer/typestring.go:230-238. -/
def outText (S : SEnv) (prio : Nat) : Ty → Str
  | .tuple _ [] _ => []
  | .tuple _ [t] false => 32 :: textOfPieces S (tyPieces S (sensPieces S) prio t)
  | .exactD _ (.arr []) => []
  | .exactD _ (.arr [v]) => 32 :: textOfPieces S (valPieces S (sensPieces S) v)
  | t => 32 :: textOfPieces S (argsPieces S (sensPieces S) t)

/-- `func` -/
def wFunc : Str := w ['f', 'u', 'n', 'c']

/-- `function`: stringer/typestring.go:226-239, where the type is written with the priority `prio`. -/
def fnText (S : SEnv) (prio : Nat) (f : FnTy) : Str :=
  textOfPieces S ([.word wFunc] ++ argsPieces S (sensPieces S) f.ins) ++ outText S prio f.outs

/-- `TypeString` of a function type: typestring.go:32-42. -/
def fnString (S : SEnv) (f : FnTy) : Str := fnText S commaPrio f

/-- `PopLastType().(dgo.TupleType)`: parser.go:579 and 587.  The assertion panics for other types. -/
def asTuple (v : PV) : Except PErr Ty := if isTupleTy v.asType then .ok v.asType else .error .badArgs

/-- `funcExpression` after the word `func`: parser.go:573-595. -/
def pFunc (E : PEnv) (te : Sub) (ts : List Token) : R FnTy :=
  if (peekTok ts).type ≠ 40 then .error (.syntax (peekTok ts))
  else
    match pList E te 41 ts.tail with
    | .error e => .error e
    | .ok (v, ts) =>
      match asTuple v with
      | .error e => .error e
      | .ok ins =>
        if (peekTok ts).type = 40 then
          match pList E te 41 ts.tail with
          | .error e => .error e
          | .ok (v, ts) =>
            match asTuple v with
            | .error e => .error e
            | .ok outs => (functionType ins outs).map fun f => (f, ts)
        else if isExpressionEnd (peekTok ts).type then (functionType ins (.tuple O [] false)).map fun f => (f, ts)
        else
          match pAnyOf E te (peekTok ts) ts.tail with
          | .error e => .error e
          | .ok (v, ts) =>
            match Types.newTupleType O [v.asType] false with
            | none => .error .badArgs
            | some outs => (functionType ins outs).map fun f => (f, ts)

/-- `Parse` of tokens the first of which is the word `func`: parser.go:255-261, 747-789 and 597-633.  Tokens that begin otherwise and operators
after the function type are not modelled. -/
def parseFnTokens (E : PEnv) (ts : List Token) : Except PErr FnTy :=
  if (peekTok ts).type = tIdentifier ∧ (peekTok ts).value = wFunc then
    if (peekTok ts.tail).type = 61 then .error .unsupported
    else
      match pFunc E (typeExpression E (ts.length + 1)) ts.tail with
      | .error e => .error e
      | .ok (f, ts) =>
        if (peekTok ts).type = 124 ∨ (peekTok ts).type = 38 ∨ (peekTok ts).type = 94 then .error .unsupported
        else if (peekTok ts).type ≠ tEnd then .error (.syntax (peekTok ts))
        else .ok f
  else .error .unsupported

/-- `Parse` of a text that begins with `func`: parser.go:131-177. -/
def parseFn (E : PEnv) (text : Str) : Except PErr FnTy :=
  match tokens (runes text) with
  | .error e => .error (.lex e)
  | .ok ts => parseFnTokens E ts

end Verif.Text
