import Verif.Pcore.Lexer
import Verif.Text.Parser
import Verif.Types.Assign
/-!
# The parser of pcore expressions

The functions of streamer/pcore/parser.go over a list of tokens.

Simplifications, for the whole file:
* all tokens are made before parsing starts, and a value that a function pushes on the value stack is the result of that function,
  as in Text/Parser.lean.
* the identity of a type that is made is the number of tokens that are left, so that no two types that the parser makes have the
  same.  (The code has one object for all bare `Tuple`, `Variant` and `Sensitive`.)
* not modelled, so the error `unsupported`: names that are not built in and `type X = …` (named types and aliases), `Callable`,
  calls `X(…)`; an array or hash with a type in it, or undef, where the type of a value is taken; a hash entry as key of another one
  (`[a => b => c]`), and two keys that are not both scalar values in `[a => b, c => d]`.
-/
set_option autoImplicit false
namespace Verif.Pcore
open Verif.Value (Str Val F64)
open Verif.Types (Ty Oid maxInt)
open Verif.Text (Token Err PErr PEnv R peekTok tokenInt orPanic tEnd tInteger tFloat tString tRegexp tIdentifier w runes In)

/-- What the model leaves open -/
structure Env extends PEnv where
  /-- `int64(f)` -/
  trunc : F64 → BitVec 64
  /-- what `Assignable` needs -/
  types : Types.Env

/-- What the parser pushes on the stack: a scalar value, a type, an array or a map -/
inductive PV where
  | val (v : Val)
  | ty (t : Ty)
  | arr (vs : List PV)
  | map (es : List (PV × PV))

/-- An element of a list, or the entry `k => v` -/
inductive Elem where
  | one (v : PV)
  | entry (k v : PV)

mutual
/-- The value, if it has no type in it -/
def PV.toVal : PV → Option Val
  | .val v => some v
  | .ty _ => none
  | .arr vs => (toVals vs).map .arr
  | .map es => (toEntries es).map .map
def toVals : List PV → Option (List Val)
  | [] => some []
  | v :: vs =>
    match v.toVal, toVals vs with
    | some x, some xs => some (x :: xs)
    | _, _ => none
def toEntries : List (PV × PV) → Option (List (Val × Val))
  | [] => some []
  | (k, v) :: es =>
    match k.toVal, v.toVal, toEntries es with
    | some a, some b, some xs => some ((a, b) :: xs)
    | _, _, _ => none
end

/-- `typ.AsType`: typ/utils.go:16-21. -/
def PV.asType (o : Oid) : PV → Except PErr Ty
  | .ty t => .ok t
  | v =>
    match v.toVal with
    | some x => .ok (Types.typeOf o x)
    | none => .error .unsupported

def defaultLiteral : Str := w ['d', 'e', 'f', 'a', 'u', 'l', 't']

/-- `getIfInt` and `getInt`: parser.go:748-772, of an argument that exists; `none` is no or the panic. -/
def PV.int? (dflt : BitVec 64) : PV → Option (BitVec 64)
  | .val (.int i) => some i
  | .val (.str s) => if s = defaultLiteral then some dflt else none
  | _ => none

/-- `getFloat`: parser.go:774-788. -/
def PV.float? (E : Env) (dflt : F64) : PV → Option F64
  | .val (.int i) => some (E.ofInt i)
  | .val (.float f) => some f
  | .val (.str s) => if s = defaultLiteral then some dflt else none
  | _ => none

/-- `args.Arg(fn, i, typ.Type)`: internal/arguments.go:27-33, and the tests `v.(dgo.Type)`. -/
def PV.type? : PV → Option Ty
  | .ty t => some t
  | _ => none

def PV.str? : PV → Option Str
  | .val (.str s) => some s
  | _ => none

/-- `toRegexp`: parser.go:821-831; the source. -/
def PV.regexp? (E : Env) : PV → Option Str
  | .val (.str s) => if E.compiles s then some s else none
  | .val (.regexp s) => some s
  | _ => none

/-- All, or `none` -/
def allSome {α β : Type} (f : α → Option β) : List α → Option (List β)
  | [] => some []
  | a :: as =>
    match f a, allSome f as with
    | some b, some bs => some (b :: bs)
    | _, _ => none

/-! ## The types with arguments

`none` is a panic.  The functions for the case that no bracket follows are in `knownType`. -/

/-- `arrayType`: parser.go:254-284. -/
def arrayType (o : Oid) : List PV → Option Ty
  | [a] =>
    match a.int? 0 with
    | some lo => Types.newArrayType o .any lo.toInt maxInt
    | none => (a.type?).bind fun e => Types.newArrayType o e 0 maxInt
  | [a, b] =>
    match a.int? 0 with
    | some lo => (b.int? Types.maxI64).bind fun hi => Types.newArrayType o .any lo.toInt hi.toInt
    | none => (a.type?).bind fun e => (b.int? 0).bind fun lo => Types.newArrayType o e lo.toInt maxInt
  | [a, b, c] =>
    (a.type?).bind fun e => (b.int? 0).bind fun lo => (c.int? Types.maxI64).bind fun hi => Types.newArrayType o e lo.toInt hi.toInt
  | _ => none

/-- `binaryType`: parser.go:288-301. -/
def binaryType : List PV → Option Ty
  | [a] => (a.int? 0).map fun lo => Types.sizedBinaryType lo.toInt maxInt
  | [a, b] => (a.int? 0).bind fun lo => (b.int? Types.maxI64).map fun hi => Types.sizedBinaryType lo.toInt hi.toInt
  | _ => none

/-- The strings and the flag of `enumType`: parser.go:356-366. -/
def enumArgs (args : List PV) : Option (List Str × Bool) :=
  match args.reverse with
  | [] => none
  | .val (.bool ci) :: r => (allSome PV.str? r.reverse).map fun ss => (ss, ci)
  | _ => (allSome PV.str? args).map fun ss => (ss, false)

/-- `tf.Enum` and `tf.CiEnum`: internal/string.go:163-191. -/
def enumOf (o : Oid) : List Ty → Ty
  | [] => .not .any
  | [t] => t
  | ts => .anyOf o ts

/-- `enumType`: parser.go:350-374. -/
def enumType (E : Env) (o : Oid) (args : List PV) : Option Ty :=
  (enumArgs args).map fun x => enumOf o (x.1.map fun s => if x.2 then .ciStr (E.lower s) else .exact (.str s))

/-- `floatType`: parser.go:376-391. -/
def floatType (E : Env) : List PV → Option Ty
  | [a] => (a.float? E Types.F64.min).bind fun lo => Types.floatType lo Types.F64.max true
  | [a, b] => (a.float? E Types.F64.min).bind fun lo => (b.float? E Types.F64.max).bind fun hi => Types.floatType lo hi true
  | _ => none

/-- `hashType`: parser.go:393-419. -/
def hashType (o : Oid) : List PV → Option Ty
  | [a] => (a.int? 0).map fun lo => Types.newMapType o .any .any lo.toInt maxInt
  | [a, b] =>
    match a.int? 0 with
    | some lo => (b.int? Types.maxI64).map fun hi => Types.newMapType o .any .any lo.toInt hi.toInt
    | none => (a.type?).bind fun k => (b.type?).map fun v => Types.newMapType o k v 0 maxInt
  | [a, b, c] =>
    (a.type?).bind fun k => (b.type?).bind fun v => (c.int? 0).map fun lo => Types.newMapType o k v lo.toInt maxInt
  | [a, b, c, d] =>
    (a.type?).bind fun k => (b.type?).bind fun v => (c.int? 0).bind fun lo => (d.int? Types.maxI64).map fun hi =>
      Types.newMapType o k v lo.toInt hi.toInt
  | _ => none

/-- `integerType`: parser.go:421-436. -/
def integerType : List PV → Option Ty
  | [a] => (a.int? Types.minI64).bind fun lo => Types.integerType lo Types.maxI64 true
  | [a, b] => (a.int? Types.minI64).bind fun lo => (b.int? Types.maxI64).bind fun hi => Types.integerType lo hi true
  | _ => none

/-- `Min` and `Max` of a `dgo.FloatType`: internal/float.go:109-119, 153-159, 207-213. -/
def floatMin : Ty → F64
  | .exact (.float f) => f
  | .floatRange lo _ _ => lo
  | _ => Types.F64.min
def floatMax : Ty → F64
  | .exact (.float f) => f
  | .floatRange _ hi _ => hi
  | _ => Types.F64.max

/-- `numberType`: parser.go:438-445, given the result of `floatType`. -/
def numberType (E : Env) (o : Oid) (tp : Ty) : Option Ty :=
  let max := if Value.F64.eq (floatMax tp) Types.F64.max then Types.maxI64 else E.trunc (floatMax tp)
  (Types.integerType (E.trunc (floatMin tp)) max true).map fun it => Types.anyOfType o [it, tp]

/-- `notUndefType`: parser.go:447-463. -/
def notUndefType (E : Env) (o : Oid) : List PV → Option Ty
  | [.ty tp] =>
    if tp.isAny then some (Types.notType .nilT)
    else if Types.assignable E.types tp .nilT then some (Types.allOfType o [Types.notType .nilT, tp])
    else some tp
  | _ => none

/-- `optionalType`: parser.go:465-485. -/
def optionalType (E : Env) (o : Oid) : List PV → Option Ty
  | [.ty tp] => some (opt tp)
  | [.val (.str s)] => some (opt (.exact (.str s)))
  | _ => none
where
  opt (tp : Ty) : Ty := if Types.assignable E.types tp .nilT then tp else Types.anyOfType o [.nilT, tp]

/-- `sensitiveType`: parser.go:487-495 and internal/sensitive.go:23-34. -/
def sensitiveType (o : Oid) : List PV → Option Ty
  | [] => some (.sens o .any)
  | [.ty t] => some (.sens o t)
  | _ => none

/-- The end of `tupleFromArgs`: parser.go:526-537. -/
def tupleOf (o : Oid) (ts : List PV) (min max : Int) : Option Ty :=
  (allSome PV.type? ts).bind fun tys =>
    if min = ts.length ∧ min = max then Types.newTupleType o tys false else Types.variadicTupleType o tys

/-- `tupleFromArgs`: parser.go:497-525.  `args.Get(-1)` panics. -/
def tupleFromArgs (o : Oid) (args : List PV) : Option Ty :=
  match args.reverse with
  | [] => none
  | x :: r =>
    match x.int? (-1) with
    | none => tupleOf o args args.length args.length
    | some n =>
      match r with
      | [] => none
      | y :: r' =>
        match y.int? (-1) with
        | some m =>
          tupleOf o r'.reverse (if m = -1 then r'.length else m.toInt) (if n = -1 then r'.length else n.toInt)
        | none => tupleOf o r.reverse (if n = -1 then r.length else n.toInt) maxInt

/-- `patternType`: parser.go:549-560. -/
def patternType (E : Env) (o : Oid) (args : List PV) : Option Ty :=
  if args.isEmpty then none else (allSome (PV.regexp? E) args).map fun rs => Types.anyOfType o (rs.map .pattern)

/-- `regexpType`: parser.go:562-572. -/
def regexpType (E : Env) : List PV → Option Ty
  | [a] => (a.regexp? E).map fun s => .exact (.regexp s)
  | _ => none

/-- `stringType`: parser.go:574-584 and internal/string.go:338-361. -/
def stringType : List PV → Option Ty
  | [.val (.str s)] => some (.exact (.str s))
  | [.val (.int lo)] => some (Types.sizedStringType lo.toInt maxInt)
  | [.val (.int lo), .val (.int hi)] => some (Types.sizedStringType lo.toInt hi.toInt)
  | _ => none

/-- `optionalValue`: parser.go:790-800. -/
def optionalValue : PV → PV × Bool
  | .ty (.anyOf _ [.nilT, t]) => (.ty t, true)
  | v => (v, false)

/-- The key of a struct entry by its value: `StructMapEntry` takes the type of a key that is not a type (internal/mapstruct.go:455-465),
`checkExactKeys` panics if it is not exact (mapstruct.go:151-158). -/
def structKey (k : PV) : Except PErr Val :=
  match k.asType (.user 0) with
  | .error e => .error e
  | .ok .nilT => .error .unsupported
  | .ok t => if t.isExact then orPanic t.exactValue else .error .badArgs

/-- The entries that `structType` makes: parser.go:594-600. -/
def structFields (o : Oid) : List (PV × PV) → Except PErr (List (Val × Bool × Ty))
  | [] => .ok []
  | (k, v) :: es =>
    match structKey (optionalValue k).1, v.asType (.part o es.length), structFields o es with
    | .ok a, .ok t, .ok fs => .ok ((a, !(optionalValue k).2, t) :: fs)
    | .error e, _, _ => .error e
    | _, .error e, _ => .error e
    | _, _, .error e => .error e

/-- `structType`: parser.go:586-604. -/
def structType (o : Oid) : List PV → Except PErr Ty
  | [.map es] =>
    match structFields o es with
    | .error e => .error e
    | .ok fs => orPanic (Types.structMapType o false fs)
  | _ => .error .badArgs

/-- `typeType`: parser.go:606-616. -/
def typeType : List PV → Option Ty
  | [.ty t] => some (.metaT t)
  | _ => none

/-- `variantType`: parser.go:618-631. -/
def variantType (o : Oid) (args : List PV) : Option Ty := (allSome PV.type? args).map (Types.anyOfType o)

/-- The built in types -/
inductive Name where
  | any | boolean | falseT | timestamp | trueT | undef
  | array | binary | callable | float | enum | hash | integer | number | notUndef | optional | pattern | regexp | sensitive
  | string | struct | tuple | typeT | variant
  deriving DecidableEq

/-- `identifierToTypeMap` and `identifierToFuncMap`: parser.go:633-666. -/
def names : List (Str × Name) :=
  [(w ['A', 'n', 'y'], .any), (w ['B', 'o', 'o', 'l', 'e', 'a', 'n'], .boolean), (w ['F', 'a', 'l', 's', 'e'], .falseT),
   (w ['T', 'i', 'm', 'e', 's', 't', 'a', 'm', 'p'], .timestamp), (w ['T', 'r', 'u', 'e'], .trueT), (w ['U', 'n', 'd', 'e', 'f'], .undef),
   (w ['A', 'r', 'r', 'a', 'y'], .array), (w ['B', 'i', 'n', 'a', 'r', 'y'], .binary), (w ['C', 'a', 'l', 'l', 'a', 'b', 'l', 'e'], .callable),
   (w ['F', 'l', 'o', 'a', 't'], .float), (w ['E', 'n', 'u', 'm'], .enum), (w ['H', 'a', 's', 'h'], .hash),
   (w ['I', 'n', 't', 'e', 'g', 'e', 'r'], .integer), (w ['N', 'u', 'm', 'b', 'e', 'r'], .number),
   (w ['N', 'o', 't', 'U', 'n', 'd', 'e', 'f'], .notUndef), (w ['O', 'p', 't', 'i', 'o', 'n', 'a', 'l'], .optional),
   (w ['P', 'a', 't', 't', 'e', 'r', 'n'], .pattern), (w ['R', 'e', 'g', 'e', 'x', 'p'], .regexp),
   (w ['S', 'e', 'n', 's', 'i', 't', 'i', 'v', 'e'], .sensitive), (w ['S', 't', 'r', 'i', 'n', 'g'], .string),
   (w ['S', 't', 'r', 'u', 'c', 't'], .struct), (w ['T', 'u', 'p', 'l', 'e'], .tuple), (w ['T', 'y', 'p', 'e'], .typeT),
   (w ['V', 'a', 'r', 'i', 'a', 'n', 't'], .variant)]

/-- The types that take no arguments: parser.go:633-640. -/
def plainType : Name → Option Ty
  | .any => some .any
  | .boolean => some .boolT
  | .falseT => some (.exact (.bool false))
  | .timestamp => some .timeT
  | .trueT => some (.exact (.bool true))
  | .undef => some .nilT
  | _ => none

/-- A type without arguments: the last statements of the functions in parser.go:253-631. -/
def bareType (E : Env) (o : Oid) : Name → Except PErr Ty
  | .array => .ok .arrT
  | .binary => .ok (.bin 0 maxInt)
  | .float => .ok .floatT
  | .enum => .ok .strT
  | .hash => .ok .mapT
  | .integer => .ok .intT
  | .number => orPanic (numberType E o .floatT)
  | .notUndef => .ok (Types.notType .nilT)
  | .optional => .ok .any
  | .pattern => .ok .strT
  | .regexp => .ok .regexpT
  | .sensitive => .ok (.sens o .any)
  | .string => .ok .strT
  | .struct => orPanic (Types.structMapType o true [])
  | .tuple => .ok (.tuple o [.any] true)
  | .typeT => .ok (.metaT .any)
  | .variant => .ok (.anyOf o [])
  | _ => .error .unsupported

/-- A type with arguments -/
def argsType (E : Env) (o : Oid) (args : List PV) : Name → Except PErr Ty
  | .array => orPanic (arrayType o args)
  | .binary => orPanic (binaryType args)
  | .float => orPanic (floatType E args)
  | .enum => orPanic (enumType E o args)
  | .hash => orPanic (hashType o args)
  | .integer => orPanic (integerType args)
  | .number => orPanic ((floatType E args).bind (numberType E o))
  | .notUndef => orPanic (notUndefType E o args)
  | .optional => orPanic (optionalType E o args)
  | .pattern => orPanic (patternType E o args)
  | .regexp => orPanic (regexpType E args)
  | .sensitive => orPanic (sensitiveType o args)
  | .string => orPanic (stringType args)
  | .struct => structType o args
  | .tuple => orPanic (tupleFromArgs o args)
  | .typeT => orPanic (typeType args)
  | .variant => orPanic (variantType o args)
  | _ => .error .unsupported

/-! ## Lists and hashes -/

/-- `element`, what the functions below call -/
abbrev Sub := Token → List Token → R PV

/-- The loop of `list`: parser.go:116-143.  `lhs` is `rockLHS`.  The fuel is the number of tokens. -/
def listLoop (sub : Sub) (et : Nat) : Nat → Option PV → List Token → R (List Elem)
  | 0, _, _ => .error .fuel
  | n + 1, lhs, ts =>
    if lhs.isNone ∧ (peekTok ts).type = et then .ok ([], ts.tail)
    else
      match sub (peekTok ts) ts.tail with
      | .error e => .error e
      | .ok (v, ts) =>
        let e := match lhs with
          | none => .one v
          | some k => Elem.entry k v
        let tk := peekTok ts
        if tk.type = et then .ok ([e], ts.tail)
        else if tk.type = 44 then (listLoop sub et n none ts.tail).map fun x => (e :: x.1, x.2)
        else if tk.type = tRocket then
          match lhs with
          | none => listLoop sub et n (some v) ts.tail
          | some _ => .error .unsupported
        else .error (.syntax tk)

/-- Are two keys equal?  `none`: not modelled. -/
def sameKey : PV → PV → Option Bool
  | .val a, .val b => some (Value.eq a b)
  | .val _, _ | _, .val _ => some false
  | _, _ => none

/-- `Put` in `convertMapEntries` -/
def putEntry (k v : PV) : List (PV × PV) → Except PErr (List (PV × PV))
  | [] => .ok [(k, v)]
  | (k', v') :: es =>
    match sameKey k k' with
    | none => .error .unsupported
    | some true => .ok ((k', v) :: es)
    | some false => (putEntry k v es).map ((k', v') :: ·)

/-- `convertMapEntries`: parser.go:723-746; `en` are the entries of the open map. -/
def convert : Option (List (PV × PV)) → List Elem → Except PErr (List PV)
  | none, [] => .ok []
  | some en, [] => .ok [.map en]
  | none, .entry k v :: r => convert (some [(k, v)]) r
  | some en, .entry k v :: r =>
    match putEntry k v en with
    | .error e => .error e
    | .ok en => convert (some en) r
  | none, .one v :: r => (convert none r).map (v :: ·)
  | some en, .one v :: r => (convert none r).map (.map en :: v :: ·)

/-- `list`: parser.go:112-152. -/
def pList (sub : Sub) (et : Nat) (ts : List Token) : R (List PV) :=
  match listLoop sub et (ts.length + 1) none ts with
  | .error e => .error e
  | .ok (es, ts) => (convert none es).map fun vs => (vs, ts)

/-- The loop of `hash`: parser.go:156-183. -/
def hashLoop (sub : Sub) : Nat → List Token → R (List (PV × PV))
  | 0, _ => .error .fuel
  | n + 1, ts =>
    if (peekTok ts).type = 125 then .ok ([], ts.tail)
    else
      match sub (peekTok ts) ts.tail with
      | .error e => .error e
      | .ok (k, ts) =>
        if (peekTok ts).type ≠ tRocket then .error (.syntax (peekTok ts))
        else
          let ts := ts.tail
          match sub (peekTok ts) ts.tail with
          | .error e => .error e
          | .ok (v, ts) =>
            let tk := peekTok ts
            if tk.type = 125 then .ok ([(k, v)], ts.tail)
            else if tk.type = 44 then (hashLoop sub n ts.tail).map fun x => ((k, v) :: x.1, x.2)
            else .error (.syntax tk)

/-! ## Elements -/

/-- `knownType`: parser.go:668-678 and the tests for a bracket at the start of the functions parser.go:253-631. -/
def knownType (E : Env) (sub : Sub) (nm : Name) (ts : List Token) : R PV :=
  match plainType nm with
  | some t => .ok (.ty t, ts)
  | none =>
    if (peekTok ts).type = 91 then
      match pList sub 93 ts.tail with
      | .error e => .error e
      | .ok (args, ts) => (argsType E (.user ts.length) args nm).map fun t => (.ty t, ts)
    else (bareType E (.user ts.length) nm).map fun t => (.ty t, ts)

/-- `name`: parser.go:680-692. -/
def pName (E : Env) (sub : Sub) (t : Token) (ts : List Token) : R PV :=
  match names.find? fun x => x.1 == t.value with
  | none => .error .unsupported
  | some (_, nm) =>
    match knownType E sub nm ts with
    | .error e => .error e
    | .ok (v, ts) => if (peekTok ts).type = 40 then .error .unsupported else .ok (v, ts)

/-- `identifier`: parser.go:229-251. -/
def pIdentifier (t : Token) (ts : List Token) : R PV :=
  if t.value = w ['t', 'r', 'u', 'e'] then .ok (.val (.bool true), ts)
  else if t.value = w ['f', 'a', 'l', 's', 'e'] then .ok (.val (.bool false), ts)
  else if t.value = w ['u', 'n', 'd', 'e', 'f'] then .ok (.val .nil, ts)
  else if t.value = w ['t', 'y', 'p', 'e'] ∧ (peekTok ts).type = tName then .error .unsupported
  else .ok (.val (.str t.value), ts)

/-- `element`: parser.go:204-227. -/
def element (E : Env) : Nat → Token → List Token → R PV
  | 0, _, _ => .error .fuel
  | n + 1, t, ts =>
    let sub := element E n
    if t.type = 123 then (hashLoop sub (ts.length + 1) ts).map fun x => (.map x.1, x.2)
    else if t.type = 91 then (pList sub 93 ts).map fun x => (.arr x.1, x.2)
    else if t.type = tInteger then .ok (.val (.int (tokenInt t)), ts)
    else if t.type = tFloat then .ok (.val (.float (E.parseFloat t.value)), ts)
    else if t.type = tIdentifier then pIdentifier t ts
    else if t.type = tString then .ok (.val (.str t.value), ts)
    else if t.type = tRegexp then if E.compiles t.value then .ok (.val (.regexp t.value), ts) else .error .badArgs
    else if t.type = tName then pName E sub t ts
    else .error (.syntax t)

/-- `Parse` of tokens: parser.go:87-102.  The fuel is the number of tokens. -/
def parseTokens (E : Env) (ts : List Token) : Except PErr PV :=
  match element E (ts.length + 1) (peekTok ts) ts.tail with
  | .error e => .error e
  | .ok (v, ts) =>
    if (peekTok ts).type = tRocket then
      let ts := ts.tail
      match element E (ts.length + 1) (peekTok ts) ts.tail with
      | .error e => .error e
      | .ok (v', ts) => if (peekTok ts).type ≠ tEnd then .error (.syntax (peekTok ts)) else .ok (.map [(v, v')])
    else if (peekTok ts).type ≠ tEnd then .error (.syntax (peekTok ts)) else .ok v

/-- `Parse`: parser.go:65-81. -/
def parse (E : Env) (text : Str) : Except PErr PV :=
  match tokens (runes text) with
  | .error e => .error (.lex e)
  | .ok ts => parseTokens E ts

/-- `ParseType`: parser.go:73-75. -/
def parseType (E : Env) (text : Str) : Except PErr Ty :=
  match parse E text with
  | .error e => .error e
  | .ok v => v.asType (.user 0)

end Verif.Pcore
