import Verif.Text.Printer
/-!
# The printer of types with an alias map

stringer/typestring.go, as in Text/Printer.lean, but the types that the alias map knows are printed as their names.

Simplifications: as in Text/Printer.lean, but for the alias map.  The alias map does not tell objects apart (`GetName` looks for an equal type), so the
identity of the types of values is always `O`.
-/
set_option autoImplicit false
namespace Verif.Text
open Verif.Value (Str Val F64)
open Verif.Types (Ty Oid maxInt)

/-- `AliasMap.GetName` -/
abbrev Names := Ty → Option Str

/-- typestring.go:401-404 -/
def named (N : Names) (t : Ty) (ps : List Piece) : List Piece :=
  match N t with
  | some n => [.word n]
  | none => ps

mutual
/-- `buildTypeString(v.Type(), prio)` with an alias map: as `valPieces`, each type is looked up before it is printed (what is printed for the type of a
sensitive value is `st`). -/
def namVal (N : Names) (S : SEnv) (st : Val → List Piece) : Val → List Piece
  | .nil => named N .nilT [.word wNil]
  | .bool b => named N (.exact (.bool b)) [.word (if b then wTrue else wFalse)]
  | .int i => named N (.exact (.int i)) [.int i.toInt]
  | .float f => named N (.exact (.float f)) [.float f]
  | .str s => named N (.exact (.str s)) [.str s]
  | .bin b => named N (.exact (.bin b)) [.word wBinary, .ch 32, .ch 34, .word (S.encode b), .ch 34]
  | .time ns => named N (.exact (.time ns)) [.word wTime, .ch 91, .str (S.timeText ns), .ch 93]
  | .regexp s => named N (.exact (.regexp s)) [.word wRegexp, .ch 91, .str s, .ch 93]
  | .sens v => st v
  | .arr vs => named N (.exactD O (.arr vs)) ([.ch 123] ++ namVals N S st (.ch 44) vs ++ [.ch 125])
  | .map es => named N (.exactD O (.map es)) ([.ch 123] ++ namEntries N S st es ++ [.ch 125])
  | .entry k v => named N (.exactD O (.entry k v)) (namVal N S st k ++ [.ch 58] ++ namVal N S st v)

/-- `joinValueTypes` -/
def namVals (N : Names) (S : SEnv) (st : Val → List Piece) (sep : Piece) : List Val → List Piece
  | [] => []
  | [v] => namVal N S st v
  | v :: vs => namVal N S st v ++ [sep] ++ namVals N S st sep vs

/-- `joinValueTypes` of the entries of a map -/
def namEntries (N : Names) (S : SEnv) (st : Val → List Piece) : List (Val × Val) → List Piece
  | [] => []
  | [(k, v)] => named N (.exactD O (.entry k v)) (namVal N S st k ++ [.ch 58] ++ namVal N S st v)
  | (k, v) :: es => named N (.exactD O (.entry k v)) (namVal N S st k ++ [.ch 58] ++ namVal N S st v) ++ [.ch 44] ++ namEntries N S st es
end

mutual
/-- `buildTypeString` with an alias map: typestring.go:44-239 and 400-421.  Each type is looked up before it is printed. -/
def namPieces (N : Names) (S : SEnv) (st : Val → List Piece) (prio : Nat) : Ty → List Piece
  | .any => named N .any [.word wAny]
  | .nilT => named N .nilT [.word wNil]
  | .boolT => named N .boolT [.word wBool]
  | .intT => named N .intT [.word wInt]
  | .floatT => named N .floatT [.word wFloat]
  | .strT => named N .strT [.word wString]
  | .regexpT => named N .regexpT [.word wRegexp]
  | .timeT => named N .timeT [.word wTime]
  | .arrT => named N .arrT ([.ch 91, .ch 93] ++ named N .any [.word wAny])
  | .mapT => named N .mapT ([.word wMap, .ch 91] ++ named N .any [.word wAny] ++ [.ch 93] ++ named N .any [.word wAny])
  | .exact v => named N (.exact v) (namVal N S st v)
  | .intRange min max inclusive => named N (.intRange min max inclusive) (intRangePieces min max inclusive)
  | .floatRange min max inclusive => named N (.floatRange min max inclusive) (floatRangePieces min max inclusive)
  | .sizedStr min max => named N (.sizedStr min max) (
    [.word wString] ++ if min = 0 ∧ max = maxInt then [] else [.ch 91] ++ sizeBoundaries min max ++ [.ch 93])
  | .ciStr s => named N (.ciStr s) ([.ch 126, .str s])
  | .pattern rx => named N (.pattern rx) ([.rx rx])
  | .bin min max => named N (.bin min max) ([.word wBinary] ++ if min = 0 ∧ max = maxInt then [] else [.ch 91] ++ sizeBoundaries min max ++ [.ch 93])
  | .exactD o v => named N (.exactD o v) (namVal N S st v)
  | .sizedArr o e min max => named N (.sizedArr o e min max) (
    (if min = 0 ∧ max = maxInt then [.ch 91, .ch 93] else [.ch 91] ++ sizeBoundaries min max ++ [.ch 93]) ++ namPieces N S st typePrio e)
  | .tuple o ts variadic => named N (.tuple o ts variadic) ([.ch 123] ++ namTuple N S st variadic ts ++ [.ch 125])
  | .sizedMap o k v min max => named N (.sizedMap o k v min max) (
    [.word wMap, .ch 91] ++ namPieces N S st commaPrio k ++
      (if min = 0 ∧ max = maxInt then [] else [.ch 44] ++ sizeBoundaries min max) ++ [.ch 93] ++ namPieces N S st typePrio v)
  | .struct o additional fs => named N (.struct o additional fs) (
    [.ch 123] ++ namFields N S st fs ++ (if additional then (if fs.isEmpty then [] else [.ch 44]) ++ [.dots3] else []) ++ [.ch 125])
  | .allOf o ts => named N (.allOf o ts) (ternary prio (namJoin N S st (.ch 38) andPrio ts))
  | .allOfVal o vs => named N (.allOfVal o vs) (ternary prio (namVals N S st (.ch 38) vs))
  | .anyOf o ts => named N (.anyOf o ts) (ternary prio (namJoin N S st (.ch 124) orPrio ts))
  | .oneOf o ts => named N (.oneOf o ts) (ternary prio (namJoin N S st (.ch 94) xorPrio ts))
  | .not t => named N (.not t) ([.ch 33] ++ namPieces N S st typePrio t)
  | .sens o t => named N (.sens o t) ([.word wSensitive] ++ if t.isAny then [] else [.ch 91] ++ namPieces N S st prio t ++ [.ch 93])
  | .metaT t => named N (.metaT t) ([.word wType] ++ if t.isAny then [] else [.ch 91] ++ namPieces N S st prio t ++ [.ch 93])
  | .metaMeta => named N .metaMeta ([.word wType, .ch 91, .word wType, .ch 93])

/-- `joinTypes` -/
def namJoin (N : Names) (S : SEnv) (st : Val → List Piece) (sep : Piece) (prio : Nat) : List Ty → List Piece
  | [] => []
  | [t] => namPieces N S st prio t
  | t :: ts => namPieces N S st prio t ++ [sep] ++ namJoin N S st sep prio ts

/-- `writeTupleArgs`: typestring.go:369-388. -/
def namTuple (N : Names) (S : SEnv) (st : Val → List Piece) (variadic : Bool) : List Ty → List Piece
  | [] => []
  | [t] => (if variadic then [.dots3] else []) ++ namPieces N S st commaPrio t
  | t :: ts => namPieces N S st commaPrio t ++ [.ch 44] ++ namTuple N S st variadic ts

/-- `joinStructMapEntries`: typestring.go:316-331. -/
def namFields (N : Names) (S : SEnv) (st : Val → List Piece) : List (Val × Bool × Ty) → List Piece
  | [] => []
  | [(k, rq, t)] => namVal N S st k ++ (if rq then [] else [.ch 63]) ++ [.ch 58] ++ namPieces N S st commaPrio t
  | (k, rq, t) :: fs =>
    namVal N S st k ++ (if rq then [] else [.ch 63]) ++ [.ch 58] ++ namPieces N S st commaPrio t ++ [.ch 44] ++ namFields N S st fs
end

/-- `TypeStringWithAliasMap`: typestring.go:37-42. -/
def typeStringWith (N : Names) (S : SEnv) (t : Ty) : Str := textOfPieces S (namPieces N S (sensPieces S) commaPrio t)

/-- The words of the language of types: `identifierToTypeMap` and the cases of `identifier`: parser.go:597-633. -/
def wordsOfTypes : List Str :=
  [wAny, wBool, wInt, wFloat, wBinary, wTrue, wFalse, wNil, wMap, wType, wString, wSensitive, w ['d', 'g', 'o'], w ['f', 'u', 'n', 'c']]

end Verif.Text
