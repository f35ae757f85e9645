import Verif.Pcore.Parser
import Verif.Text.Domain
/-!
# What a pcore type expression says

The type expressions as a tree, how they are written, and which values they describe.  Nothing here refers to the parser; the
environment is used for the functions that the model leaves open (`regexp.MatchString`, `strings.EqualFold`, `float64(i)`).
-/
set_option autoImplicit false
namespace Verif.Pcore
open Verif.Value (Str Val F64)
open Verif.Text (SEnv PEnv formatInt quote slashQuote w FloatOk StrOk RxOk Readable textOf)

/-- The limits in `X[…]`: none, a lower one, or both; `none` is written `default`. -/
inductive Lim where
  | all
  | low (lo : Option (BitVec 64))
  | both (lo hi : Option (BitVec 64))

/-- A limit of a float: an integer or a float -/
inductive FB where
  | int (i : BitVec 64)
  | float (f : F64)

/-- Type expressions -/
inductive Pt where
  | any | undef | boolean | trueT | falseT | timestamp
  | integer (l : Lim)
  | floatAny
  | floatLow (lo : FB)
  | float (lo hi : FB)
  | numberAny
  | number (lo hi : BitVec 64)
  | stringAny
  | stringLow (lo : BitVec 64)
  | string (lo hi : BitVec 64)
  | stringVal (s : Str)
  | binary (l : Lim)
  | enumAny
  /-- the strings, and whether case matters, if that is given: `Enum['a', true]` -/
  | enum (ss : List Str) (ci : Option Bool)
  | patternAny
  | pattern (rs : List Str)
  | regexpAny
  | regexp (r : Str)
  | arrayAny (l : Lim)
  | array (e : Pt) (l : Lim)
  | hashAny (l : Lim)
  | hash (k v : Pt) (l : Lim)
  | tupleAny
  | tuple (ts : List Pt)
  | structAny
  /-- key, is it optional, type -/
  | struct (fs : List (Str × Bool × Pt))
  | variantAny
  | variant (ts : List Pt)
  | optionalAny
  | optional (t : Pt)
  | optionalVal (s : Str)
  | notUndefAny
  | notUndef (t : Pt)
  | sensitiveAny
  | sensitive (t : Pt)
  | typeAny
  | type (t : Pt)

/-! ## How they are written -/

/-- The names of the types -/
def Name.text : Name → Str
  | .any => w ['A', 'n', 'y']
  | .boolean => w ['B', 'o', 'o', 'l', 'e', 'a', 'n']
  | .falseT => w ['F', 'a', 'l', 's', 'e']
  | .timestamp => w ['T', 'i', 'm', 'e', 's', 't', 'a', 'm', 'p']
  | .trueT => w ['T', 'r', 'u', 'e']
  | .undef => w ['U', 'n', 'd', 'e', 'f']
  | .array => w ['A', 'r', 'r', 'a', 'y']
  | .binary => w ['B', 'i', 'n', 'a', 'r', 'y']
  | .callable => w ['C', 'a', 'l', 'l', 'a', 'b', 'l', 'e']
  | .float => w ['F', 'l', 'o', 'a', 't']
  | .enum => w ['E', 'n', 'u', 'm']
  | .hash => w ['H', 'a', 's', 'h']
  | .integer => w ['I', 'n', 't', 'e', 'g', 'e', 'r']
  | .number => w ['N', 'u', 'm', 'b', 'e', 'r']
  | .notUndef => w ['N', 'o', 't', 'U', 'n', 'd', 'e', 'f']
  | .optional => w ['O', 'p', 't', 'i', 'o', 'n', 'a', 'l']
  | .pattern => w ['P', 'a', 't', 't', 'e', 'r', 'n']
  | .regexp => w ['R', 'e', 'g', 'e', 'x', 'p']
  | .sensitive => w ['S', 'e', 'n', 's', 'i', 't', 'i', 'v', 'e']
  | .string => w ['S', 't', 'r', 'i', 'n', 'g']
  | .struct => w ['S', 't', 'r', 'u', 'c', 't']
  | .tuple => w ['T', 'u', 'p', 'l', 'e']
  | .typeT => w ['T', 'y', 'p', 'e']
  | .variant => w ['V', 'a', 'r', 'i', 'a', 'n', 't']

/-- The pieces of the text -/
inductive Pc where
  | name (n : Name)
  /-- `default` -/
  | dflt
  | undef
  | bool (b : Bool)
  | int (i : BitVec 64)
  | float (f : F64)
  | str (s : Str)
  | rx (s : Str)
  | comma | open_ | close | openB | closeB | rocket

def Pc.text (S : SEnv) : Pc → Str
  | .name n => n.text
  | .dflt => w ['d', 'e', 'f', 'a', 'u', 'l', 't']
  | .undef => w ['u', 'n', 'd', 'e', 'f']
  | .bool true => w ['t', 'r', 'u', 'e']
  | .bool false => w ['f', 'a', 'l', 's', 'e']
  | .int i => formatInt i.toInt
  | .float f => S.ftoa f
  | .str s => quote S.isPrint s
  | .rx s => slashQuote s
  | .comma => w [',']
  | .open_ => w ['[']
  | .close => w [']']
  | .openB => w ['{']
  | .closeB => w ['}']
  | .rocket => w ['=', '>']

/-- The text of pieces, with any blanks and comments before, between and after them.  A string without quotes and control characters
may be in single quotes. -/
inductive Written (S : SEnv) : List Pc → Str → Prop where
  | nil : Written S [] []
  | blank {ps : List Pc} {t : Str} (c : UInt8) : c = 32 ∨ c = 9 ∨ c = 10 → Written S ps t → Written S ps (c :: t)
  | comment {ps : List Pc} {t : Str} (cs : List Nat) : (∀ c ∈ cs, Readable c ∧ c ≠ 0 ∧ c ≠ 10) → Written S ps t →
      Written S ps (35 :: (textOf cs ++ 10 :: t))
  | piece {ps : List Pc} {t : Str} (p : Pc) : Written S ps t → Written S (p :: ps) (p.text S ++ t)
  | single {ps : List Pc} {t : Str} (cs : List Nat) : (∀ c ∈ cs, Readable c ∧ 32 ≤ c ∧ c ≠ 39 ∧ c ≠ 92) → Written S ps t →
      Written S (.str (textOf cs) :: ps) (39 :: (textOf cs ++ 39 :: t))

/-- With commas in between -/
def commas : List (List Pc) → List Pc
  | [] => []
  | [a] => a
  | a :: as => a ++ .comma :: commas as

/-- `[…]` -/
def inBrackets (as : List (List Pc)) : List Pc := .open_ :: (commas as ++ [.close])

/-- `[…]` if there are arguments -/
def args : List (List Pc) → List Pc
  | [] => []
  | as => inBrackets as

def limPc : Option (BitVec 64) → Pc
  | none => .dflt
  | some i => .int i

def Lim.args : Lim → List (List Pc)
  | .all => []
  | .low lo => [[limPc lo]]
  | .both lo hi => [[limPc lo], [limPc hi]]

def FB.pc : FB → Pc
  | .int i => .int i
  | .float f => .float f

/-- The key of a struct -/
def keyPieces (k : Str) (optional : Bool) : List Pc :=
  if optional then .name .optional :: inBrackets [[.str k]] else [.str k]

mutual
/-- The pieces of a type expression -/
def Pt.pieces : Pt → List Pc
  | .any => [.name .any]
  | .undef => [.name .undef]
  | .boolean => [.name .boolean]
  | .trueT => [.name .trueT]
  | .falseT => [.name .falseT]
  | .timestamp => [.name .timestamp]
  | .integer l => .name .integer :: args l.args
  | .floatAny => [.name .float]
  | .floatLow lo => .name .float :: inBrackets [[lo.pc]]
  | .float lo hi => .name .float :: inBrackets [[lo.pc], [hi.pc]]
  | .numberAny => [.name .number]
  | .number lo hi => .name .number :: inBrackets [[.int lo], [.int hi]]
  | .stringAny => [.name .string]
  | .stringLow lo => .name .string :: inBrackets [[.int lo]]
  | .string lo hi => .name .string :: inBrackets [[.int lo], [.int hi]]
  | .stringVal s => .name .string :: inBrackets [[.str s]]
  | .binary l => .name .binary :: args l.args
  | .enumAny => [.name .enum]
  | .enum ss none => .name .enum :: inBrackets (ss.map fun s => [.str s])
  | .enum ss (some ci) => .name .enum :: inBrackets ((ss.map fun s => [.str s]) ++ [[.bool ci]])
  | .patternAny => [.name .pattern]
  | .pattern rs => .name .pattern :: inBrackets (rs.map fun r => [.rx r])
  | .regexpAny => [.name .regexp]
  | .regexp r => .name .regexp :: inBrackets [[.rx r]]
  | .arrayAny l => .name .array :: args l.args
  | .array e l => .name .array :: inBrackets (e.pieces :: l.args)
  | .hashAny l => .name .hash :: args l.args
  | .hash k v l => .name .hash :: inBrackets (k.pieces :: v.pieces :: l.args)
  | .tupleAny => [.name .tuple]
  | .tuple ts => .name .tuple :: inBrackets (piecesList ts)
  | .structAny => [.name .struct]
  | .struct fs => .name .struct :: .open_ :: .openB :: (commas (piecesFields fs) ++ [.closeB, .close])
  | .variantAny => [.name .variant]
  | .variant ts => .name .variant :: inBrackets (piecesList ts)
  | .optionalAny => [.name .optional]
  | .optional t => .name .optional :: inBrackets [t.pieces]
  | .optionalVal s => .name .optional :: inBrackets [[.str s]]
  | .notUndefAny => [.name .notUndef]
  | .notUndef t => .name .notUndef :: inBrackets [t.pieces]
  | .sensitiveAny => [.name .sensitive]
  | .sensitive t => .name .sensitive :: inBrackets [t.pieces]
  | .typeAny => [.name .typeT]
  | .type t => .name .typeT :: inBrackets [t.pieces]

def piecesList : List Pt → List (List Pc)
  | [] => []
  | t :: ts => t.pieces :: piecesList ts

def piecesFields : List (Str × Bool × Pt) → List (List Pc)
  | [] => []
  | (k, opt, t) :: fs => (keyPieces k opt ++ .rocket :: t.pieces) :: piecesFields fs
end

mutual
/-- The pieces of a value without types, in arrays `[…]` and hashes `{… => …}` -/
def valPieces : Val → List Pc
  | .nil => [.undef]
  | .bool b => [.bool b]
  | .int i => [.int i]
  | .float f => [.float f]
  | .str s => [.str s]
  | .regexp s => [.rx s]
  | .arr vs => inBrackets (valsPieces vs)
  | .map es => .openB :: (commas (entriesPieces es) ++ [.closeB])
  | _ => []
def valsPieces : List Val → List (List Pc)
  | [] => []
  | v :: vs => valPieces v :: valsPieces vs
def entriesPieces : List (Val × Val) → List (List Pc)
  | [] => []
  | (k, v) :: es => (valPieces k ++ .rocket :: valPieces v) :: entriesPieces es
end

mutual
/-- The values that have a literal, and whose regular expressions compile -/
def Literal (E : Env) : Val → Prop
  | .nil | .bool _ | .int _ | .float _ | .str _ => True
  | .regexp s => E.compiles s = true
  | .arr vs => Literals E vs
  | .map es => LiteralEntries E es
  | _ => False
def Literals (E : Env) : List Val → Prop
  | [] => True
  | v :: vs => Literal E v ∧ Literals E vs
def LiteralEntries (E : Env) : List (Val × Val) → Prop
  | [] => True
  | (k, v) :: es => Literal E k ∧ Literal E v ∧ LiteralEntries E es
end

/-! ## What they describe -/

def above : Option (BitVec 64) → Int → Prop
  | none, _ => True
  | some lo, n => lo.toInt ≤ n
def below : Option (BitVec 64) → Int → Prop
  | none, _ => True
  | some hi, n => n ≤ hi.toInt

/-- The number is within the limits. -/
def Lim.holds : Lim → Int → Prop
  | .all, _ => True
  | .low lo, n => above lo n
  | .both lo hi, n => above lo n ∧ below hi n

def FB.val (E : Env) : FB → F64
  | .int i => E.ofInt i
  | .float f => f

/-- `math.MaxFloat64` -/
def maxFloat : F64 := 0x7fefffffffffffff

/-- Go `a <= b` -/
def fle (a b : F64) : Prop := Value.F64.lt a b = true ∨ Value.F64.eq a b = true

mutual
/-- The expression describes the value.  Types are not among the values of the model, so `Type` describes none.  A missing upper
limit of a float is the largest finite number, as in the code (see `C62_float_violated`); sizes of strings are in bytes. -/
def Den (E : Env) : Pt → Val → Prop
  | .any, _ | .optionalAny, _ => True
  | .undef, v => v = .nil
  | .boolean, v => ∃ b, v = .bool b
  | .trueT, v => v = .bool true
  | .falseT, v => v = .bool false
  | .timestamp, v => ∃ t, v = .time t
  | .integer l, v => ∃ i : BitVec 64, v = .int i ∧ l.holds i.toInt
  | .floatAny, v => ∃ f, v = .float f
  | .floatLow lo, v => ∃ f, v = .float f ∧ fle (lo.val E) f ∧ fle f maxFloat
  | .float lo hi, v => ∃ f, v = .float f ∧ fle (lo.val E) f ∧ fle f (hi.val E)
  | .numberAny, v => (∃ i, v = .int i) ∨ ∃ f, v = .float f
  | .number lo hi, v => (∃ i : BitVec 64, v = .int i ∧ lo.toInt ≤ i.toInt ∧ i.toInt ≤ hi.toInt) ∨
      ∃ f, v = .float f ∧ fle (E.ofInt lo) f ∧ fle f (E.ofInt hi)
  | .stringAny, v | .enumAny, v | .patternAny, v => ∃ s, v = .str s
  | .stringLow lo, v => ∃ s : Str, v = .str s ∧ lo.toInt ≤ s.length
  | .string lo hi, v => ∃ s : Str, v = .str s ∧ lo.toInt ≤ s.length ∧ s.length ≤ hi.toInt
  | .stringVal s, v => v = .str s
  | .binary l, v => ∃ b, v = .bin b ∧ l.holds b.length
  | .enum ss ci, v => ∃ s, v = .str s ∧ if ci = some true then ∃ x ∈ ss, E.types.fold x s = true else s ∈ ss
  | .pattern rs, v => ∃ s, v = .str s ∧ ∃ r ∈ rs, E.types.rx r s = true
  | .regexpAny, v => ∃ r, v = .regexp r
  | .regexp r, v => v = .regexp r
  | .arrayAny l, v => ∃ vs, v = .arr vs ∧ l.holds vs.length
  | .array e l, v => ∃ vs, v = .arr vs ∧ l.holds vs.length ∧ ∀ x ∈ vs, Den E e x
  | .hashAny l, v => ∃ es, v = .map es ∧ l.holds es.length
  | .hash k t l, v => ∃ es, v = .map es ∧ l.holds es.length ∧ ∀ x ∈ es, Den E k x.1 ∧ Den E t x.2
  | .tupleAny, v => ∃ vs, v = .arr vs
  | .tuple ts, v => ∃ vs, v = .arr vs ∧ DenEach E ts vs
  | .structAny, v => ∃ es, v = .map es
  | .struct fs, v => ∃ es, v = .map es ∧ DenFields E fs es ∧ ∀ e ∈ es, ∃ k, e.1 = .str k ∧ k ∈ fs.map (·.1)
  | .variantAny, _ => False
  | .variant ts, v => DenAny E ts v
  | .optional t, v => v = .nil ∨ Den E t v
  | .optionalVal s, v => v = .nil ∨ v = .str s
  | .notUndefAny, v => v ≠ .nil
  | .notUndef t, v => v ≠ .nil ∧ Den E t v
  | .sensitiveAny, v => ∃ x, v = .sens x
  | .sensitive t, v => ∃ x, v = .sens x ∧ Den E t x
  | .typeAny, _ | .type _, _ => False

/-- Each of the values is described by the expression at its place, and there are as many. -/
def DenEach (E : Env) : List Pt → List Val → Prop
  | [], vs => vs = []
  | t :: ts, vs => ∃ x r, vs = x :: r ∧ Den E t x ∧ DenEach E ts r

/-- One of the expressions describes the value. -/
def DenAny (E : Env) : List Pt → Val → Prop
  | [], _ => False
  | t :: ts, v => Den E t v ∨ DenAny E ts v

/-- Each key is there or optional, and its value, if it is there, is described by its expression. -/
def DenFields (E : Env) : List (Str × Bool × Pt) → List (Val × Val) → Prop
  | [], _ => True
  | (k, opt, t) :: fs, es => ((opt = true ∧ ¬ ∃ x, (.str k, x) ∈ es) ∨ ∃ x, (.str k, x) ∈ es) ∧ (∀ x, (.str k, x) ∈ es → Den E t x) ∧ DenFields E fs es
end

/-! ## Which of them are considered -/

/-- No limit is negative and the lower one is not above the upper one. -/
def Lim.size : Lim → Prop
  | .all => True
  | .low lo => ∀ a, lo = some a → 0 ≤ a.toInt
  | .both lo hi => (∀ a, lo = some a → 0 ≤ a.toInt) ∧ (∀ b, hi = some b → 0 ≤ b.toInt) ∧ ∀ a b, lo = some a → hi = some b → a.toInt ≤ b.toInt

def Lim.ordered : Lim → Prop
  | .both (some a) (some b) => a.toInt ≤ b.toInt
  | _ => True

/-- Always the type of nil: the constructors of arrays, tuples and structs may panic on those (`C62_undef_violated`). -/
def Pt.onlyUndef : Pt → Bool
  | .undef => true
  | .optional t => t.onlyUndef
  | .variant [t] => t.onlyUndef
  | _ => false

/-- The integer is a float and back -/
def exactInt (E : Env) (i : BitVec 64) : Prop := E.trunc (E.ofInt i) = i ∧ (E.ofInt i).isNaN = false

mutual
/-- The expressions that mean what `Den` says: limits are in order; `Number` has limits that are exact as floats; regular
expressions compile; case folding does not tell a string from its lower case; keys of a struct differ; no `Undef` directly in an
array, tuple or struct; a `Tuple`, `Enum` or `Pattern` with brackets has something in them. -/
def Pt.Ok (E : Env) : Pt → Prop
  | .integer l => l.ordered
  | .floatLow lo => fle (lo.val E) maxFloat ∧ Value.F64.eq (lo.val E) Types.F64.min = false
  | .float lo hi => fle (lo.val E) (hi.val E) ∧ ¬ (Value.F64.eq (lo.val E) Types.F64.min = true ∧ Value.F64.eq (hi.val E) maxFloat = true)
  | .numberAny => E.trunc Types.F64.min = Types.minI64
  | .number lo hi => lo.toInt ≤ hi.toInt ∧ exactInt E lo ∧ exactInt E hi ∧ (lo = hi ∨ Value.F64.lt (E.ofInt lo) (E.ofInt hi) = true) ∧
      Value.F64.eq (E.ofInt lo) Types.F64.min = false ∧ Value.F64.eq (E.ofInt hi) maxFloat = false
  | .stringLow lo => 0 ≤ lo.toInt
  | .string lo hi => 0 ≤ lo.toInt ∧ lo.toInt ≤ hi.toInt
  | .binary l | .arrayAny l | .hashAny l => l.size
  | .enum ss ci => (ss ≠ [] ∨ ci ≠ none) ∧ ∀ x ∈ ss, ∀ s, E.types.fold (E.lower x) s = E.types.fold x s
  | .pattern rs => rs ≠ [] ∧ ∀ r ∈ rs, E.compiles r = true
  | .regexp r => E.compiles r = true
  | .array e l => l.size ∧ e.onlyUndef = false ∧ e.Ok E
  | .hash k v l => l.size ∧ k.Ok E ∧ v.Ok E
  | .tuple ts => ts ≠ [] ∧ (∀ t ∈ ts, t.onlyUndef = false) ∧ OkAll E ts
  | .struct fs => (fs.map (·.1)).Nodup ∧ (∀ f ∈ fs, f.2.2.onlyUndef = false) ∧ OkFields E fs
  | .variant ts => OkAll E ts
  | .optional t | .notUndef t | .sensitive t | .type t => t.Ok E
  | _ => True
def OkAll (E : Env) : List Pt → Prop
  | [] => True
  | t :: ts => t.Ok E ∧ OkAll E ts
def OkFields (E : Env) : List (Str × Bool × Pt) → Prop
  | [] => True
  | (_, _, t) :: fs => t.Ok E ∧ OkFields E fs
end

/-- A piece whose text is read as what it stands for: `Quotable` strings (see `C36_partial`), regular expressions without a
backslash and control characters (see `C37_partial`), floats whose text is one with a point or exponent and is read as that float. -/
def Pc.Fine (S : SEnv) (E : Env) : Pc → Prop
  | .float f => FloatOk S E.toPEnv f
  | .str s => StrOk S s
  | .rx s => RxOk s
  | _ => True

end Verif.Pcore
