import Verif.Text.Reparse
import Verif.Text.Literal
/-!
# Which types are read back
-/
set_option autoImplicit false
set_option linter.unusedVariables false
namespace Verif.Text
open Verif.Value (Str Val F64)
open Verif.Types (Ty Oid maxInt)

mutual
/-- The type without the identities of its parts -/
def strip : Ty → Ty
  | .exactD _ v => .exactD O v
  | .sizedArr _ e min max => .sizedArr O (strip e) min max
  | .tuple _ ts v => .tuple O (strips ts) v
  | .sizedMap _ k v min max => .sizedMap O (strip k) (strip v) min max
  | .struct _ a fs => .struct O a (stripFields fs)
  | .allOf _ ts => .allOf O (strips ts)
  | .allOfVal _ vs => .allOfVal O vs
  | .anyOf _ ts => .anyOf O (strips ts)
  | .oneOf _ ts => .oneOf O (strips ts)
  | .not t => .not (strip t)
  | .sens _ t => .sens O (strip t)
  | .metaT t => .metaT (strip t)
  | t => t
def strips : List Ty → List Ty
  | [] => []
  | t :: ts => strip t :: strips ts
def stripFields : List (Val × Bool × Ty) → List (Val × Bool × Ty)
  | [] => []
  | (k, rq, t) :: fs => (k, rq, strip t) :: stripFields fs
end

/-- Digits, at least one -/
def Digits (ds : Str) : Prop := ds ≠ [] ∧ ∀ b ∈ ds, 48 ≤ b.toNat ∧ b.toNat ≤ 57

/-- A number with a decimal point: `-?[0-9]+\.[0-9]+` -/
def PlainFloat (s : Str) : Prop := ∃ sg ds fs, (sg = [] ∨ sg = [45]) ∧ Digits ds ∧ Digits fs ∧ s = sg ++ ds ++ [46] ++ fs

/-- A number with an exponent: `-?[0-9]+(\.[0-9]+)?E[+-]?[0-9]+` -/
def ExpFloat (s : Str) : Prop := ∃ sg ds frac es xs, (sg = [] ∨ sg = [45]) ∧ Digits ds ∧
  (frac = [] ∨ ∃ fs, Digits fs ∧ frac = [46] ++ fs) ∧ (es = [] ∨ es = [43] ∨ es = [45]) ∧ Digits xs ∧ s = sg ++ ds ++ frac ++ [69] ++ es ++ xs

/-- The text of a float is a number that denotes the float. -/
def FloatOk (S : SEnv) (E : PEnv) (f : F64) : Prop := (PlainFloat (S.ftoa f) ∨ ExpFloat (S.ftoa f)) ∧ E.parseFloat (S.ftoa f) = f

/-- Printable characters and those for which both `strconv.Quote` and the lexer have an escape: see `C36_partial` -/
def StrOk (S : SEnv) (s : Str) : Prop := ∃ cs, (∀ c ∈ cs, Quotable S.isPrint c) ∧ s = textOf cs

/-- No backslash and no control character: see `C37_partial` -/
def RxOk (s : Str) : Prop := ∃ cs, (∀ c ∈ cs, Scalar c ∧ 32 ≤ c ∧ c ≠ 92 ∧ c ≠ 0xfffd) ∧ s = textOf cs

def scalar : Val → Bool
  | .bool _ | .int _ | .float _ | .str _ => true
  | _ => false

mutual
/-- Values whose type is read back: booleans, integers, floats, strings, arrays that are not empty, and maps whose keys are no
booleans -/
def RtVal (S : SEnv) (E : PEnv) : Val → Prop
  | .bool _ | .int _ => True
  | .float f => FloatOk S E f
  | .str s => StrOk S s
  | .arr vs => vs ≠ [] ∧ RtVals S E vs
  | .map es => RtEntries S E es ∧ es.Pairwise fun a b => Value.eq a.1 b.1 = false ∧ Value.eq b.1 a.1 = false
  | _ => False
def RtVals (S : SEnv) (E : PEnv) : List Val → Prop
  | [] => True
  | v :: vs => RtVal S E v ∧ RtVals S E vs
def RtEntries (S : SEnv) (E : PEnv) : List (Val × Val) → Prop
  | [] => True
  | (k, v) :: es => RtVal S E k ∧ (∀ b, k ≠ .bool b) ∧ RtVal S E v ∧ RtEntries S E es
end

/-- A type that is not a negation and not a case insensitive string: what may be the element of an array or the value of a map -/
def plain : Ty → Bool
  | .not _ | .ciStr _ => false
  | _ => true

def ternaryTy : Ty → Bool
  | .allOf .. | .anyOf .. | .oneOf .. => true
  | _ => false

/-- A range that has no lower bound and excludes its upper bound; it is printed with `...` in front -/
def openRange : Ty → Bool
  | .intRange min _ inclusive => min == Types.minI64 && !inclusive
  | .floatRange min _ inclusive => Value.F64.eq min Types.F64.min && !inclusive
  | _ => false

/-- An open range or operands the first of which is one: what is not read back as an element of a tuple -/
def startsOpen : Ty → Bool
  | .allOf _ (t :: _) | .anyOf _ (t :: _) | .oneOf _ (t :: _) => openRange t
  | t => openRange t

/-- Sizes as they are after clamping and ordering -/
def SizesOk (min max : Int) : Prop := 0 ≤ min ∧ min ≤ max ∧ max ≤ maxInt

/-- Can it be the key of an entry that is required (or not)? -/
def keyOk (rq : Bool) : Val → Bool
  | .bool _ => false
  | .int _ | .float _ => rq
  | _ => true

mutual
/-- Types that are read back.  What the constructors of types never make is left out (a range with the bounds swapped, sizes that
are negative, `[]any` as a sized array type, operators with less than two operands …); and what is not read back, see DESIGN.md. -/
def RtTy (S : SEnv) (E : PEnv) : Ty → Prop
  | .any | .nilT | .boolT | .intT | .floatT | .strT | .arrT | .mapT => True
  | .exact v => scalar v = true ∧ RtVal S E v
  | .intRange min max _ => min.slt max = true ∧ ¬ (min = Types.minI64 ∧ max = Types.maxI64)
  | .floatRange min max _ => Value.F64.lt min max = true ∧
      (min = Types.F64.min ∨ (Value.F64.eq min Types.F64.min = false ∧ PlainFloat (S.ftoa min) ∧ E.parseFloat (S.ftoa min) = min)) ∧
      Value.F64.eq max Types.F64.max = false ∧ FloatOk S E max
  | .sizedStr min max => SizesOk min max ∧ ¬ (min = 0 ∧ max = maxInt)
  | .ciStr s => E.lower s = s ∧ StrOk S s
  | .pattern rx => RxOk rx ∧ E.compiles rx = true
  | .bin min max => min = 0 ∧ max = maxInt
  | .exactD _ v => scalar v = false ∧ RtVal S E v
  | .sizedArr _ e min max => RtTy S E e ∧ plain e = true ∧ SizesOk min max ∧ ¬ (min = 0 ∧ max = maxInt ∧ e.isAny = true) ∧
      ¬ (min = 1 ∧ max = 1 ∧ e.isExact = true)
  | .tuple _ ts variadic => RtTys S E ts ∧ ts ≠ [] ∧
      if variadic then ∀ t ∈ ts.dropLast, startsOpen t = false
      else (∀ t ∈ ts, startsOpen t = false) ∧ ¬ ts.all Ty.isExact = true
  | .sizedMap _ k v min max => RtTy S E k ∧ RtTy S E v ∧ plain v = true ∧ SizesOk min max ∧
      ¬ (min = 0 ∧ max = maxInt ∧ k.isAny = true ∧ v.isAny = true)
  | .struct _ additional fs => RtFields S E fs ∧ (additional = false → ¬ fs.all (fun f => f.2.1 && f.2.2.isExact) = true)
  | .allOf _ ts | .anyOf _ ts | .oneOf _ ts => RtTys S E ts ∧ 2 ≤ ts.length
  | .not t => RtTy S E t ∧ ∀ u, t ≠ .not u
  | .sens _ t => RtTy S E t ∧ t ≠ .nilT ∧ ∀ v, t ≠ .exact v
  | .metaT t => RtTy S E t
  | _ => False
def RtTys (S : SEnv) (E : PEnv) : List Ty → Prop
  | [] => True
  | t :: ts => RtTy S E t ∧ RtTys S E ts
def RtFields (S : SEnv) (E : PEnv) : List (Val × Bool × Ty) → Prop
  | [] => True
  | (k, rq, t) :: fs => (RtVal S E k ∧ keyOk rq k = true ∧ RtTy S E t) ∧ RtFields S E fs
end

/-- The token of a piece -/
def Piece.tok (S : SEnv) : Piece → Token
  | .word s => ⟨s, tIdentifier⟩
  | .int v => ⟨formatInt v, tInteger⟩
  | .float f => ⟨S.ftoa f, tFloat⟩
  | .str s => ⟨s, tString⟩
  | .rx s => ⟨s, tRegexp⟩
  | .ch c => ⟨[], c.toNat⟩
  | .dots2 => ⟨[46, 46], tDotdot⟩
  | .dots3 => ⟨[46, 46, 46], tDotdotdot⟩

def toks (S : SEnv) (ps : List Piece) : List Token := ps.map (Piece.tok S)

/-- What the parser makes of a value: a value for a scalar, else a type -/
def pvVal : Val → PV
  | .arr vs => .ty (.exactD O (.arr vs))
  | .map es => .ty (.exactD O (.map es))
  | v => .val v

/-- What the parser makes of a type -/
def pvOf : Ty → PV
  | .nilT => .val .nil
  | .exact v => .val v
  | t => .ty (strip t)

end Verif.Text
