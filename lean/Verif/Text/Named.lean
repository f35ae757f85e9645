import Verif.Text.Chains
import Verif.Print.Model
import Verif.Types.Named
/-!
# The text of the values of named types, and what the parser makes of it

`ValueString` of a named type writes the name and the argument that the extractor finds; the parser makes a value of a name and what
follows it.
-/
set_option autoImplicit false
namespace Verif.Text
open Verif.Value (Str Val)

/-- Does `ValueString` write the argument without a blank?  internal/named.go:183-187. -/
def joined : Val → Bool
  | .arr _ | .map _ | .str _ => true
  | _ => false

/-- What `ValueString` writes: internal/named.go:179-189.  `arg` is what the extractor returned, `none` if there is no extractor.  For nil,
booleans, integers, floats, strings, and arrays and maps of these, `AppendValue` of an indenter that does not indent writes what
`buildTypeString` writes for the exact type (internal/array.go:877-890, internal/map.go:84-91 and 395-414,
internal/string.go:542-544, util/erpindenter.go:42-62); other arguments are not modelled, the model has their exact types. -/
def valueText (S : SEnv) (name : Str) (arg : Option Val) : Str :=
  name ++
    match arg with
    | none => []
    | some d => (if joined d then [] else [32]) ++ textOfPieces S (valPieces S (sensPieces S) d)

/-- `ValueString`: internal/named.go:179-191.  `String` of the indenter drops blanks at the ends of lines. -/
def valueString (S : SEnv) (name : Str) (arg : Option Val) : Str := Print.stringLoop [] (Print.chars (valueText S name arg))

/-- `ValueString` of a value of the type at `p` in a world of named types, if the extractor returns a value of dgo: internal/named.go:179-191.
`none`: the extractor panics, or returns a value of the user, the text of which is their own. -/
def valueStringOf (S : SEnv) (W : Named.World) (p : Nat) (v : Named.V) : Option Str :=
  match (W.defs p).extractor with
  | none => some (valueString S (W.defs p).name none)
  | some f =>
    match f v with
    | .ok (.data d) => some (valueString S (W.defs p).name (some d))
    | _ => none

/-- What the parser makes of a name: the type, or what `New` of the type returns for an argument -/
inductive NV where
  | type (p : Nat)
  | new (p : Nat) (arg : PV)

/-- The value that `New` returns: parser.go:640.  `none`: there is no value, or the argument is a type. -/
def NV.value (W : Named.World) : NV → Option (Named.Out Named.V)
  | .new p (.val d) => some (Named.new W (.named p) (.data d))
  | _ => none

/-- `internal.ExactValue`: internal/type.go:67-72. -/
def exactPV (v : PV) : PV :=
  match exactOf v with
  | some x => .val x
  | none => v

/-- `namedType` for the name of a named type: parser.go:635-644. -/
def pNamed (E : PEnv) (te : Sub) (p : Nat) (ts : List Token) : R NV :=
  if isExpressionEnd (peekTok ts).type then .ok (.type p, ts)
  else
    match pAnyOf E te (peekTok ts) ts.tail with
    | .error e => .error e
    | .ok (v, ts) => .ok (.new p (exactPV v), ts)

/-- The words of `identifier` that are not looked up: parser.go:597-625. -/
def builtin : List Str :=
  [w ['a', 'n', 'y'], w ['b', 'o', 'o', 'l'], w ['i', 'n', 't'], w ['f', 'l', 'o', 'a', 't'], w ['d', 'g', 'o'],
   w ['b', 'i', 'n', 'a', 'r', 'y'], w ['t', 'r', 'u', 'e'], w ['f', 'a', 'l', 's', 'e'], w ['n', 'i', 'l'], w ['m', 'a', 'p'],
   w ['t', 'y', 'p', 'e'], w ['s', 't', 'r', 'i', 'n', 'g'], w ['s', 'e', 'n', 's', 'i', 't', 'i', 'v', 'e'], w ['f', 'u', 'n', 'c']]

/-- `Parse` of tokens the first of which is a name, `t`: parser.go:255-261, 747-789 and 716-728.  `known` is the registry of named types.
Tokens that begin otherwise, the declaration and use of aliases, and operators after a name are not modelled. -/
def parseName (E : PEnv) (known : Str → Option Nat) (fuel : Nat) (t : Token) (ts : List Token) : Except PErr NV :=
  if t.type = tIdentifier ∧ (peekTok ts).type ≠ 61 ∧ builtin.contains t.value = false then
    match known t.value with
    | none => .error .unsupported
    | some p =>
      match pNamed E (typeExpression E fuel) p ts with
      | .error e => .error e
      | .ok (v, ts) =>
        if (peekTok ts).type = 124 ∨ (peekTok ts).type = 38 ∨ (peekTok ts).type = 94 then .error .unsupported
        else if (peekTok ts).type ≠ tEnd then .error (.syntax (peekTok ts))
        else .ok v
  else .error .unsupported

/-- `Parse` of a text that begins with a name: parser.go:131-177. -/
def parseNamed (E : PEnv) (known : Str → Option Nat) (text : Str) : Except PErr NV :=
  match tokens (runes text) with
  | .error e => .error (.lex e)
  | .ok ts => parseName E known (ts.length + 1) (peekTok ts) ts.tail

/-- The text of a named type with parameters: `named` of stringer/typestring.go:247-255. -/
def namedTypeText (S : SEnv) (name : Str) (params : List Val) : Str :=
  name ++ textOfPieces S ([.ch 91] ++ valsPieces S (sensPieces S) (.ch 44) params ++ [.ch 93])

end Verif.Text
