import Verif.Text.Parser
/-!
# The printer of types

stringer/typestring.go.  The printer writes one piece after the other; the model returns the pieces.

Simplifications, for the whole file:
* the alias map is empty: with the default aliases a type that equals an aliased one is printed as the name of the alias
  (typestring.go:401-404; Text/AliasPrinter.lean).
* no type contains itself, so that line 408 never finds a recursion.
-/
set_option autoImplicit false
namespace Verif.Text
open Verif.Value (Str Val F64)
open Verif.Types (Ty Oid maxInt)

/-- What the model leaves open -/
structure SEnv where
  /-- `strconv.IsPrint` -/
  isPrint : Nat → Bool
  /-- `util.Ftoa`: util/string.go:9-18 -/
  ftoa : F64 → Str
  /-- `Binary.Encode` -/
  encode : List UInt8 → Str
  /-- `Time.String` -/
  timeText : Int → Str

/-- What is written at once -/
inductive Piece where
  /-- a word: an identifier -/
  | word (s : Str)
  /-- `strconv.FormatInt` -/
  | int (v : Int)
  /-- `util.Ftoa` -/
  | float (f : F64)
  /-- `strconv.Quote` -/
  | str (s : Str)
  /-- `RegexpSlashQuote` -/
  | rx (s : Str)
  /-- a character -/
  | ch (c : UInt8)
  | dots2
  | dots3

/-- The text of a piece -/
def Piece.text (S : SEnv) : Piece → Str
  | .word s => s
  | .int v => formatInt v
  | .float f => S.ftoa f
  | .str s => quote S.isPrint s
  | .rx s => slashQuote s
  | .ch c => [c]
  | .dots2 => [46, 46]
  | .dots3 => [46, 46, 46]

/-- typestring.go:15-21 -/
def commaPrio : Nat := 0
def orPrio : Nat := 1
def xorPrio : Nat := 2
def andPrio : Nat := 3
def typePrio : Nat := 4

/-- `writeSizeBoundaries`: typestring.go:333-339. -/
def sizeBoundaries (min max : Int) : List Piece :=
  [.int min] ++ if max ≠ maxInt then [.ch 44, .int max] else []

/-- `writeIntRange`: typestring.go:341-353. -/
def intRangePieces (min max : BitVec 64) (inclusive : Bool) : List Piece :=
  (if min ≠ Types.minI64 then [.int min.toInt] else []) ++ [if inclusive then .dots2 else .dots3] ++
    if max ≠ Types.maxI64 then [.int max.toInt] else []

/-- `writeFloatRange`: typestring.go:355-367. -/
def floatRangePieces (min max : F64) (inclusive : Bool) : List Piece :=
  (if !Value.F64.eq min Types.F64.min then [.float min] else []) ++ [if inclusive then .dots2 else .dots3] ++
    if !Value.F64.eq max Types.F64.max then [.float max] else []

def wAny := w ['a', 'n', 'y']
def wNil := w ['n', 'i', 'l']
def wBool := w ['b', 'o', 'o', 'l']
def wInt := w ['i', 'n', 't']
def wFloat := w ['f', 'l', 'o', 'a', 't']
def wString := w ['s', 't', 'r', 'i', 'n', 'g']
def wRegexp := w ['r', 'e', 'g', 'e', 'x', 'p']
def wTime := w ['t', 'i', 'm', 'e']
def wBinary := w ['b', 'i', 'n', 'a', 'r', 'y']
def wTrue := w ['t', 'r', 'u', 'e']
def wFalse := w ['f', 'a', 'l', 's', 'e']
def wMap := w ['m', 'a', 'p']
def wType := w ['t', 'y', 'p', 'e']
def wSensitive := w ['s', 'e', 'n', 's', 'i', 't', 'i', 'v', 'e']

mutual
/-- `buildTypeString(v.Type(), prio)`: `exactValue`, `stringExact`, `binaryExact`, `timeExact`, `regexpExact`, `arrayExact`, `mapExact`,
`mapEntryExact`: typestring.go:72-76, 88-96, 114-118, 133-138, 150-162, 173-175.  `st` is what is printed for the type of a sensitive value. -/
def valPieces (S : SEnv) (st : Val → List Piece) : Val → List Piece
  | .nil => [.word wNil]
  | .bool b => [.word (if b then wTrue else wFalse)]
  | .int i => [.int i.toInt]
  | .float f => [.float f]
  | .str s => [.str s]
  | .bin b => [.word wBinary, .ch 32, .ch 34, .word (S.encode b), .ch 34]
  | .time ns => [.word wTime, .ch 91, .str (S.timeText ns), .ch 93]
  | .regexp s => [.word wRegexp, .ch 91, .str s, .ch 93]
  | .sens v => st v
  | .arr vs => [.ch 123] ++ valsPieces S st (.ch 44) vs ++ [.ch 125]
  | .map es => [.ch 123] ++ entriesPieces S st es ++ [.ch 125]
  | .entry k v => valPieces S st k ++ [.ch 58] ++ valPieces S st v

/-- `joinValueTypes` -/
def valsPieces (S : SEnv) (st : Val → List Piece) (sep : Piece) : List Val → List Piece
  | [] => []
  | [v] => valPieces S st v
  | v :: vs => valPieces S st v ++ [sep] ++ valsPieces S st sep vs

def entriesPieces (S : SEnv) (st : Val → List Piece) : List (Val × Val) → List Piece
  | [] => []
  | [(k, v)] => valPieces S st k ++ [.ch 58] ++ valPieces S st v
  | (k, v) :: es => valPieces S st k ++ [.ch 58] ++ valPieces S st v ++ [.ch 44] ++ entriesPieces S st es
end

/-- `writeTernary`: typestring.go:390-398. -/
def ternary (prio : Nat) (operands : List Piece) : List Piece :=
  (if orPrio ≤ prio then [.ch 40] else []) ++ operands ++ if orPrio ≤ prio then [.ch 41] else []

mutual
/-- `buildTypeString`: typestring.go:44-239 and 400-421. -/
def tyPieces (S : SEnv) (st : Val → List Piece) (prio : Nat) : Ty → List Piece
  | .any => [.word wAny]
  | .nilT => [.word wNil]
  | .boolT => [.word wBool]
  | .intT => [.word wInt]
  | .floatT => [.word wFloat]
  | .strT => [.word wString]
  | .regexpT => [.word wRegexp]
  | .timeT => [.word wTime]
  | .arrT => [.ch 91, .ch 93, .word wAny]
  | .mapT => [.word wMap, .ch 91, .word wAny, .ch 93, .word wAny]
  | .exact v => valPieces S st v
  | .intRange min max inclusive => intRangePieces min max inclusive
  | .floatRange min max inclusive => floatRangePieces min max inclusive
  | .sizedStr min max =>
    [.word wString] ++ if min = 0 ∧ max = maxInt then [] else [.ch 91] ++ sizeBoundaries min max ++ [.ch 93]
  | .ciStr s => [.ch 126, .str s]
  | .pattern rx => [.rx rx]
  | .bin min max => [.word wBinary] ++ if min = 0 ∧ max = maxInt then [] else [.ch 91] ++ sizeBoundaries min max ++ [.ch 93]
  | .exactD _ v => valPieces S st v
  | .sizedArr _ e min max =>
    (if min = 0 ∧ max = maxInt then [.ch 91, .ch 93] else [.ch 91] ++ sizeBoundaries min max ++ [.ch 93]) ++ tyPieces S st typePrio e
  | .tuple _ ts variadic => [.ch 123] ++ tuplePieces S st variadic ts ++ [.ch 125]
  | .sizedMap _ k v min max =>
    [.word wMap, .ch 91] ++ tyPieces S st commaPrio k ++
      (if min = 0 ∧ max = maxInt then [] else [.ch 44] ++ sizeBoundaries min max) ++ [.ch 93] ++ tyPieces S st typePrio v
  | .struct _ additional fs =>
    [.ch 123] ++ fieldPieces S st fs ++ (if additional then (if fs.isEmpty then [] else [.ch 44]) ++ [.dots3] else []) ++ [.ch 125]
  | .allOf _ ts => ternary prio (joinPieces S st (.ch 38) andPrio ts)
  | .allOfVal _ vs => ternary prio (valsPieces S st (.ch 38) vs)
  | .anyOf _ ts => ternary prio (joinPieces S st (.ch 124) orPrio ts)
  | .oneOf _ ts => ternary prio (joinPieces S st (.ch 94) xorPrio ts)
  | .not t => [.ch 33] ++ tyPieces S st typePrio t
  | .sens _ t => [.word wSensitive] ++ if t.isAny then [] else [.ch 91] ++ tyPieces S st prio t ++ [.ch 93]
  | .metaT t => [.word wType] ++ if t.isAny then [] else [.ch 91] ++ tyPieces S st prio t ++ [.ch 93]
  | .metaMeta => [.word wType, .ch 91, .word wType, .ch 93]

/-- `joinTypes` -/
def joinPieces (S : SEnv) (st : Val → List Piece) (sep : Piece) (prio : Nat) : List Ty → List Piece
  | [] => []
  | [t] => tyPieces S st prio t
  | t :: ts => tyPieces S st prio t ++ [sep] ++ joinPieces S st sep prio ts

/-- `writeTupleArgs`: typestring.go:369-388. -/
def tuplePieces (S : SEnv) (st : Val → List Piece) (variadic : Bool) : List Ty → List Piece
  | [] => []
  | [t] => (if variadic then [.dots3] else []) ++ tyPieces S st commaPrio t
  | t :: ts => tyPieces S st commaPrio t ++ [.ch 44] ++ tuplePieces S st variadic ts

/-- `joinStructMapEntries`: typestring.go:316-331. -/
def fieldPieces (S : SEnv) (st : Val → List Piece) : List (Val × Bool × Ty) → List Piece
  | [] => []
  | [(k, rq, t)] => valPieces S st k ++ (if rq then [] else [.ch 63]) ++ [.ch 58] ++ tyPieces S st commaPrio t
  | (k, rq, t) :: fs =>
    valPieces S st k ++ (if rq then [] else [.ch 63]) ++ [.ch 58] ++ tyPieces S st commaPrio t ++ [.ch 44] ++ fieldPieces S st fs
end

/-- What is printed for the type of a sensitive value: that type is generic, so that no sensitive value occurs in it. -/
def sensPieces (S : SEnv) (v : Val) : List Piece := tyPieces S (fun _ => []) commaPrio (.sens O (Types.genericOf O v))

def textOfPieces (S : SEnv) (ps : List Piece) : Str := ps.flatMap (Piece.text S)

/-- `TypeString`: typestring.go:32-42. -/
def typeString (S : SEnv) (t : Ty) : Str := textOfPieces S (tyPieces S (sensPieces S) commaPrio t)

end Verif.Text
