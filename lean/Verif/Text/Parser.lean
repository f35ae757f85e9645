import Verif.Text.Quote
import Verif.Text.Number
import Verif.Types.Struct
/-!
# The parser of type expressions

The functions of parser/parser.go over a list of tokens.

Simplifications, for the whole file:
* all tokens are made before parsing starts (the code makes them one by one).  So a text that has both a lexical and a syntax
  error is reported as the former.  What follows a character NUL is never looked at.
* a value that a function pushes on the value stack is the result of that function.
* types that are made get the identity `.user 0`, see `Ty.strip`.
* not modelled, so an error: named types, names that are not in the alias map and those that are declared by the text (`name=...`),
  `func`, and the type `dgo`; a sensitive type as a value.
* a struct type whose keys are not exact types is an error here; in the code this panic is raised when the result of the parser
  is resolved (internal/mapstruct.go:151-158).
-/
set_option autoImplicit false
namespace Verif.Text
open Verif.Value (Str Val F64)
open Verif.Types (Ty Oid maxInt)

/-- What the model leaves open -/
structure PEnv where
  /-- `strconv.ParseFloat(s, 64)`, the error ignored -/
  parseFloat : Str → F64
  /-- `float64(i)` -/
  ofInt : BitVec 64 → F64
  /-- `strings.ToLower` -/
  lower : Str → Str
  /-- is it the source of a regular expression? -/
  compiles : Str → Bool
  /-- the types that have names: `AliasAdder.GetType`.  Types that contain names that are not declared yet are left out -/
  alias_ : Str → Option Ty := fun _ => none

inductive PErr where
  | lex (e : Err)
  /-- `badSyntax`: parser.go:81-83 -/
  | syntax (t : Token)
  /-- "mix of elements and map entries" -/
  | mix
  /-- a panic of a type constructor -/
  | badArgs
  | unsupported
  /-- the fuel is used up (this does not happen) -/
  | fuel

abbrev R (α : Type) := Except PErr (α × List Token)

/-- What the parser pushes on the stack: a value or a type -/
inductive PV where
  | val (v : Val)
  | ty (t : Ty)

/-- An element of a list: a value or type, or a map entry -/
inductive Elem where
  | one (v : PV)
  | entry (k : PV) (optional : Bool) (v : PV)

/-- The identity of all types that the parser makes -/
def O : Oid := .user 0

/-- `PopLastType`: parser.go:239-247. -/
def PV.asType : PV → Ty
  | .val v => Types.typeOf O v
  | .ty t => t

/-- `PeekToken`: parser.go:205-210.  At the end the lexer yields the end token again and again. -/
def peekTok : List Token → Token
  | [] => ⟨[], tEnd⟩
  | t :: _ => t

/-- `tokenInt`: parser.go:791-794. -/
def tokenInt (t : Token) : BitVec 64 := BitVec.ofInt 64 (parseInt t.value)

/-- A panic as an error -/
def orPanic {α : Type} : Option α → Except PErr α
  | some a => .ok a
  | none => .error .badArgs

/-! ## Numbers -/

/-- `integer`: parser.go:667-689. -/
def pInteger (E : PEnv) (t : Token) (ts : List Token) : R PV :=
  let i := tokenInt t
  let n := peekTok ts
  if n.type = tDotdot ∨ n.type = tDotdotdot then
    let inclusive := n.type == tDotdot
    let ts := ts.tail
    let x := peekTok ts
    if x.type = tInteger then (orPanic (Types.integerType i (tokenInt x) inclusive)).map fun r => (.ty r, ts.tail)
    else if x.type = tFloat then
      (orPanic (Types.floatType (E.ofInt i) (E.parseFloat x.value) inclusive)).map fun r => (.ty r, ts.tail)
    else (orPanic (Types.integerType i Types.maxI64 inclusive)).map fun r => (.ty r, ts)
  else .ok (.val (.int i), ts)

/-- `float`: parser.go:646-665. -/
def pFloat (E : PEnv) (t : Token) (ts : List Token) : R PV :=
  let f := E.parseFloat t.value
  let n := peekTok ts
  if n.type = tDotdot ∨ n.type = tDotdotdot then
    let inclusive := n.type == tDotdot
    let ts := ts.tail
    let n := peekTok ts
    if n.type = tInteger ∨ n.type = tFloat then
      (orPanic (Types.floatType f (E.parseFloat n.value) inclusive)).map fun r => (.ty r, ts.tail)
    else (orPanic (Types.floatType f Types.F64.max inclusive)).map fun r => (.ty r, ts.tail)
  else .ok (.val (.float f), ts)

/-- `dotRange`: parser.go:691-706. -/
def pDotRange (E : PEnv) (t : Token) (ts : List Token) : R PV :=
  let n := peekTok ts
  let inclusive := t.type == tDotdot
  if n.type = tInteger then (orPanic (Types.integerType Types.minI64 (tokenInt n) inclusive)).map fun r => (.ty r, ts.tail)
  else if n.type = tFloat then
    (orPanic (Types.floatType Types.F64.min (E.parseFloat n.value) inclusive)).map fun r => (.ty r, ts.tail)
  else .error (.syntax n)

/-! ## Operators

`te` is `typeExpression`. -/

abbrev Sub := Token → List Token → R PV

/-- The loop of `anyOf`, `oneOf` and `allOf`: parser.go:434-442; the values after the first.  The fuel is the number of tokens. -/
def opLoop (sub : Sub) (op : Nat) : Nat → List Token → R (List PV)
  | 0, _ => .error .fuel
  | n + 1, ts =>
    match sub (peekTok ts.tail) ts.tail.tail with
    | .error e => .error e
    | .ok (v, ts) =>
      if (peekTok ts).type ≠ op then .ok ([v], ts)
      else (opLoop sub op n ts).map fun x => (v :: x.1, x.2)

/-- `anyOf`, `oneOf`, `allOf`: parser.go:431-474. -/
def pOp (sub : Sub) (op : Nat) (make : List Ty → Ty) (t : Token) (ts : List Token) : R PV :=
  match sub t ts with
  | .error e => .error e
  | .ok (v, ts) =>
    if (peekTok ts).type = op then
      (opLoop sub op (ts.length + 1) ts).map fun x => (.ty (make ((v :: x.1).map PV.asType)), x.2)
    else .ok (v, ts)

/-- `unary`: parser.go:476-501. -/
def pUnary (E : PEnv) (te : Sub) (t : Token) (ts : List Token) : R PV :=
  let negate := t.type == 33
  let (t, ts) := if negate then (peekTok ts, ts.tail) else (t, ts)
  let ciString := t.type == 126
  let (t, ts) := if ciString then (peekTok ts, ts.tail) else (t, ts)
  match te t ts with
  | .error e => .error e
  | .ok (v, ts) =>
    match (if ciString then
        match v with
        | .val (.str s) => .ok (.ty (.ciStr (E.lower s)))
        | _ => .error (.syntax t)
      else .ok v : Except PErr PV) with
    | .error e => .error e
    | .ok v => .ok (if negate then .ty (Types.notType v.asType) else v, ts)

def pAllOf (E : PEnv) (te : Sub) : Sub := pOp (pUnary E te) 38 (Types.allOfType O)
def pOneOf (E : PEnv) (te : Sub) : Sub := pOp (pAllOf E te) 94 (Types.oneOfType O)
def pAnyOf (E : PEnv) (te : Sub) : Sub := pOp (pOneOf E te) 124 (Types.anyOfType O)

/-! ## Lists -/

/-- `arrayElement`: parser.go:388-429.  The element that is pushed, if any, and the new `expectEntry`. -/
def pElement (E : PEnv) (te : Sub) (t : Token) (expectEntry : Nat) (ts : List Token) : R (Option Elem × Nat) :=
  let nt := peekTok ts
  let nameKey := (t.type == tIdentifier && nt.type == 58) || nt.type == 63
  if nameKey && expectEntry == 0 then .error .mix
  else
    match (if nameKey then .ok (.val (.str t.value), ts) else pAnyOf E te t ts : R PV) with
    | .error e => .error e
    | .ok (key, ts) =>
      let optional := (peekTok ts).type == 63
      let ts := if optional then ts.tail else ts
      if (peekTok ts).type = 58 then
        if expectEntry = 0 then .error .mix
        else
          match pAnyOf E te (peekTok ts.tail) ts.tail.tail with
          | .error e => .error e
          | .ok (v, ts) => .ok ((some (.entry key optional v), 2), ts)
      else if expectEntry = 2 then .error .mix
      else .ok ((if nameKey then none else some (.one key), 0), ts)

/-- The loop of `list`: parser.go:270-300.  Whether there was an ellipsis, the last `expectEntry`, and the elements.  The fuel is
the number of tokens. -/
def listLoop (E : PEnv) (te : Sub) (endChar : Nat) : Nat → Bool → Nat → List Elem → List Token → R (Bool × Nat × List Elem)
  | 0, _, _, _, _ => .error .fuel
  | n + 1, ellipsis, expectEntry, acc, ts =>
    let t := peekTok ts
    let ts := ts.tail
    let element (ellipsis : Bool) (expectEntry : Nat) (acc : List Elem) (t : Token) (ts : List Token) :
        R (Bool × Nat × List Elem) :=
      if t.type = endChar then .ok ((ellipsis, expectEntry, acc), ts)
      else
        match pElement E te t expectEntry ts with
        | .error e => .error e
        | .ok ((e, expectEntry), ts) =>
          let acc := acc ++ e.toList
          let t := peekTok ts
          let ts := ts.tail
          if t.type = endChar then .ok ((ellipsis, expectEntry, acc), ts)
          else if t.type ≠ 44 then .error (.syntax t)
          else listLoop E te endChar n ellipsis expectEntry acc ts
    if t.type = tDotdotdot then
      let t := peekTok ts
      let ts := ts.tail
      if t.type = endChar ∧ expectEntry ≠ 0 then .ok ((true, expectEntry, acc), ts)
      else if expectEntry = 2 then .error (.syntax t)
      else
        match pAnyOf E te t ts with
        | .error e => .error e
        | .ok (v, ts) =>
          match Types.newArrayType O v.asType 0 maxInt with
          | none => .error .badArgs
          | some et => element true 0 (acc ++ [.one (.ty et)]) (peekTok ts) ts.tail
    else element ellipsis expectEntry acc t ts

/-- The types of the elements, none of which is an entry -/
def elemTypes : List Elem → Option (List Ty)
  | [] => some []
  | .one v :: es => (elemTypes es).map (v.asType :: ·)
  | .entry .. :: _ => none

/-- `ts[ln].(dgo.ArrayType).ElementType()` for the last type: parser.go:335.  (For a tuple type or the exact type of an array, which
get here only when a type follows `...T` without a comma, the model has an error.) -/
def lastElement : List Ty → Option (List Ty)
  | [] => none
  | [.arrT] => some [.any]
  | [.sizedArr _ e _ _] => some [e]
  | [_] => none
  | t :: ts => (lastElement ts).map (t :: ·)

/-- `makeTupleType`: parser.go:321-339. -/
def makeTuple (es : List Elem) (variadic : Bool) : Except PErr Ty :=
  match elemTypes es with
  | none => .error .mix
  | some ts =>
    if variadic then
      match lastElement ts with
      | none => .error .badArgs
      | some ts => orPanic (Types.variadicTupleType O ts)
    else orPanic (Types.newTupleType O ts false)

/-- The entries of a struct type: parser.go:345-362. -/
def structFields : List Elem → Except PErr (List (Val × Bool × Ty))
  | [] => .ok []
  | .one _ :: _ => .error .badArgs
  | .entry k optional v :: es =>
    match k.asType.exactValue with
    | none => .error .unsupported
    | some key => (structFields es).map ((key, !optional, v.asType) :: ·)

/-- `makeStructType`: parser.go:341-364. -/
def makeStruct (es : List Elem) (ellipsis : Bool) : Except PErr Ty :=
  match structFields es with
  | .error e => .error e
  | .ok fs => orPanic (Types.structMapType O ellipsis fs)

/-- `list`: parser.go:263-319. -/
def pList (E : PEnv) (te : Sub) (endChar : Nat) (ts : List Token) : R PV :=
  match listLoop E te endChar (ts.length + 1) false (if endChar = 125 then 1 else 0) [] ts with
  | .error e => .error e
  | .ok ((ellipsis, expectEntry, es), ts) =>
    (if es ≠ [] then
       if expectEntry = 2 then makeStruct es ellipsis else makeTuple es ellipsis
     else if expectEntry = 0 then .ok (.tuple O [] false)
     else makeStruct [] ellipsis).map fun t => (.ty t, ts)

/-- The loop of `params`: parser.go:368-382. -/
def paramsLoop (E : PEnv) (te : Sub) : Nat → List Elem → List Token → R (List Elem)
  | 0, _, _ => .error .fuel
  | n + 1, acc, ts =>
    let t := peekTok ts
    let ts := ts.tail
    if t.type = 93 then .ok (acc, ts)
    else
      match pElement E te t 0 ts with
      | .error e => .error e
      | .ok ((e, _), ts) =>
        let acc := acc ++ e.toList
        let t := peekTok ts
        let ts := ts.tail
        if t.type = 93 then .ok (acc, ts)
        else if t.type ≠ 44 then .error (.syntax t)
        else paramsLoop E te n acc ts

/-- The values of the parameters; there are no entries among them. -/
def elemVals : List Elem → List PV
  | [] => []
  | .one v :: es => v :: elemVals es
  | .entry .. :: es => elemVals es

/-- `params`: parser.go:366-386. -/
def pParams (E : PEnv) (te : Sub) (ts : List Token) : R (List PV) :=
  (paramsLoop E te (ts.length + 1) [] ts).map fun x => (elemVals x.1, x.2)

/-! ## Identifiers -/

/-- `StringType`: internal/string.go:338-361. -/
def stringType : List PV → Option Ty
  | [] => some .strT
  | [.val (.str s)] => some (.exact (.str s))
  | [.val (.int i)] => some (Types.sizedStringType i.toInt maxInt)
  | [.val (.int i), .val (.int j)] => some (Types.sizedStringType i.toInt j.toInt)
  | _ => none

/-- `ArrayType` with a type as first argument: internal/array.go:45-102. -/
def arrayType (e : Ty) : List PV → Option Ty
  | [] => Types.newArrayType O e 0 maxInt
  | [.val (.int i)] => Types.newArrayType O e i.toInt maxInt
  | [.val (.int i), .val (.int j)] => Types.newArrayType O e i.toInt j.toInt
  | _ => none

/-- `MapType` with two types as first arguments: internal/map.go:911-994. -/
def mapType (k v : Ty) : List PV → Option Ty
  | [] => some (Types.newMapType O k v 0 maxInt)
  | [.val (.int i)] => some (Types.newMapType O k v i.toInt maxInt)
  | [.val (.int i), .val (.int j)] => some (Types.newMapType O k v i.toInt j.toInt)
  | _ => none

/-- `SensitiveType`: internal/sensitive.go:23-34. -/
def sensitiveType : List PV → Option Ty
  | [] => some (.sens O .any)
  | [.ty t] => some (.sens O t)
  | _ => none

/-- `mapExpression`: parser.go:503-529. -/
def pMap (E : PEnv) (te : Sub) (ts : List Token) : R PV :=
  if (peekTok ts).type ≠ 91 then .error (.syntax (peekTok ts))
  else
    let ts := ts.tail
    match pAnyOf E te (peekTok ts) ts.tail with
    | .error e => .error e
    | .ok (k, ts) =>
      let n := peekTok ts
      let ts := ts.tail
      match (if n.type = 44 then pParams E te ts else if n.type ≠ 93 then .error (.syntax n) else .ok ([], ts) : R (List PV)) with
      | .error e => .error e
      | .ok (szc, ts) =>
        match te (peekTok ts) ts.tail with
        | .error e => .error e
        | .ok (v, ts) => (orPanic (mapType k.asType v.asType szc)).map fun t => (.ty t, ts)

/-- `meta`: parser.go:531-545. -/
def pMeta (E : PEnv) (te : Sub) (ts : List Token) : R PV :=
  if (peekTok ts).type ≠ 91 then .ok (.ty (.metaT .any), ts)
  else
    let ts := ts.tail
    match pAnyOf E te (peekTok ts) ts.tail with
    | .error e => .error e
    | .ok (v, ts) =>
      if (peekTok ts).type ≠ 93 then .error (.syntax (peekTok ts)) else .ok (.ty (.metaT v.asType), ts.tail)

/-- `string`: parser.go:547-556. -/
def pString (E : PEnv) (te : Sub) (ts : List Token) : R PV :=
  if (peekTok ts).type = 91 then
    match pParams E te ts.tail with
    | .error e => .error e
    | .ok (szc, ts) => (orPanic (stringType szc)).map fun t => (.ty t, ts)
  else .ok (.ty .strT, ts)

/-- `isExpressionEnd`: lexer.go:173-175 and 60-62. -/
def isExpressionEnd (t : Nat) : Bool := [0, 41, 125, 93, 44, 58, 63, 124, 38, 94, 46].contains t

/-- `internal.ExactValue`: internal/type.go:67-72.  The types `ciStringType` and `patternType` are a `dgo.ExactType` as well; the value of
the latter is a regular expression. -/
def exactOf : PV → Option Val
  | .val v => some v
  | .ty (.ciStr s) => some (.str s)
  | .ty (.pattern s) => some (.regexp s)
  | .ty t => t.exactValue

/-- `sensitive`: parser.go:558-571. -/
def pSensitive (E : PEnv) (te : Sub) (ts : List Token) : R PV :=
  if (peekTok ts).type = 91 then
    match pParams E te ts.tail with
    | .error e => .error e
    | .ok (szc, ts) => (orPanic (sensitiveType szc)).map fun t => (.ty t, ts)
  else if !isExpressionEnd (peekTok ts).type then
    match pAnyOf E te (peekTok ts) ts.tail with
    | .error e => .error e
    | .ok (v, ts) =>
      match exactOf v with
      | none => .error .unsupported
      | some v => .ok (.val (.sens v), ts)
  else .ok (.ty (.sens O .any), ts)

/-- A word -/
def w (cs : List Char) : Str := cs.map fun c => UInt8.ofNat c.toNat

/-- `identifier`, `namedType` and `aliasReference`: parser.go:597-644, 716-728.  Named types, `dgo` and `func` are left out (C79, C116, C96), and names
that are not declared. -/
def pIdentifier (E : PEnv) (te : Sub) (t : Token) (ts : List Token) : R PV :=
  if t.value = w ['a', 'n', 'y'] then .ok (.ty .any, ts)
  else if t.value = w ['b', 'o', 'o', 'l'] then .ok (.ty .boolT, ts)
  else if t.value = w ['i', 'n', 't'] then .ok (.ty .intT, ts)
  else if t.value = w ['f', 'l', 'o', 'a', 't'] then .ok (.ty .floatT, ts)
  else if t.value = w ['b', 'i', 'n', 'a', 'r', 'y'] then .ok (.ty (.bin 0 maxInt), ts)
  else if t.value = w ['t', 'r', 'u', 'e'] then .ok (.val (.bool true), ts)
  else if t.value = w ['f', 'a', 'l', 's', 'e'] then .ok (.val (.bool false), ts)
  else if t.value = w ['n', 'i', 'l'] then .ok (.val .nil, ts)
  else if t.value = w ['m', 'a', 'p'] then pMap E te ts
  else if t.value = w ['t', 'y', 'p', 'e'] then pMeta E te ts
  else if t.value = w ['s', 't', 'r', 'i', 'n', 'g'] then pString E te ts
  else if t.value = w ['s', 'e', 'n', 's', 'i', 't', 'i', 'v', 'e'] then pSensitive E te ts
  else if t.value = w ['d', 'g', 'o'] ∨ t.value = w ['f', 'u', 'n', 'c'] then .error .unsupported
  else
    match E.alias_ t.value with
    | some u => .ok (.ty u, ts)
    | none => .error .unsupported

/-- `array`: parser.go:708-714. -/
def pArray (E : PEnv) (te : Sub) (ts : List Token) : R PV :=
  match pParams E te ts with
  | .error e => .error e
  | .ok (szc, ts) =>
    match te (peekTok ts) ts.tail with
    | .error e => .error e
    | .ok (v, ts) => (orPanic (arrayType v.asType szc)).map fun t => (.ty t, ts)

/-- `<name>`: parser.go:763-768 with `aliasReference`: parser.go:716-728. -/
def pAngle (E : PEnv) (ts : List Token) : R PV :=
  if (peekTok ts).type ≠ tIdentifier then .error (.syntax (peekTok ts))
  else
    match E.alias_ (peekTok ts).value with
    | none => .error .unsupported
    | some u => if (peekTok ts.tail).type ≠ 62 then .error (.syntax (peekTok ts.tail)) else .ok (.ty u, ts.tail.tail)

/-- `typeExpression`: parser.go:747-789. -/
def typeExpression (E : PEnv) : Nat → Token → List Token → R PV
  | 0, _, _ => .error .fuel
  | n + 1, t, ts =>
    let te := typeExpression E n
    if t.type = 123 then pList E te 125 ts
    else if t.type = 40 then
      match pAnyOf E te (peekTok ts) ts.tail with
      | .error e => .error e
      | .ok (v, ts) => if (peekTok ts).type ≠ 41 then .error (.syntax (peekTok ts)) else .ok (v, ts.tail)
    else if t.type = 91 then pArray E te ts
    else if t.type = 60 then pAngle E ts
    else if t.type = tInteger then pInteger E t ts
    else if t.type = tFloat then pFloat E t ts
    else if t.type = tDotdot ∨ t.type = tDotdotdot then pDotRange E t ts
    else if t.type = tIdentifier then
      if (peekTok ts).type = 61 then .error .unsupported else pIdentifier E te t ts
    else if t.type = tString then .ok (.val (.str t.value), ts)
    else if t.type = tRegexp then
      if E.compiles t.value then .ok (.ty (.pattern t.value), ts) else .error .badArgs
    else .error (.syntax t)

/-- `Parse` of tokens: parser.go:255-261.  The fuel is the number of tokens. -/
def parseTokens (E : PEnv) (ts : List Token) : Except PErr PV :=
  match pAnyOf E (typeExpression E (ts.length + 1)) (peekTok ts) ts.tail with
  | .error e => .error e
  | .ok (v, ts) => if (peekTok ts).type ≠ tEnd then .error (.syntax (peekTok ts)) else .ok v

/-- `Parse`: parser.go:131-177. -/
def parse (E : PEnv) (text : Str) : Except PErr PV :=
  match tokens (runes text) with
  | .error e => .error (.lex e)
  | .ok ts => parseTokens E ts

/-- `tf.ParseType`: the result as a type. -/
def parseType (E : PEnv) (text : Str) : Except PErr Ty := (parse E text).map PV.asType

end Verif.Text
