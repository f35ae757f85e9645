import Verif.Text.TokenSpec
import Verif.Pcore.Lexer
/-!
# How the tokens of pcore expressions are written: specification

Numbers, what is between quotes, and regexps are written as in the language of types (Text/TokenSpec.lean).
-/
set_option autoImplicit false
namespace Verif.Pcore
open Verif.Text

/-- What is between tokens: blanks, and comments from `#` to the end of the line (or a character 0) -/
inductive Gap : List Nat → Prop
  | nil : Gap []
  | blank {c : Nat} {s : List Nat} (h : Blank c) (hs : Gap s) : Gap (c :: s)
  | comment {cs s : List Nat} {e : Nat} (h : ∀ c ∈ cs, c ≠ 0 ∧ c ≠ 10) (he : e = 10 ∨ e = 0) (hs : Gap s) : Gap (35 :: cs ++ e :: s)

/-- Characters inside of names -/
def NameChar (c : Nat) : Prop := c = 95 ∨ isLetter c = true ∨ isDigit c = true

/-- A name after its first character, where `first` tells which characters follow `::` -/
inductive NameTail (first : Nat → Prop) : List Nat → Prop
  | nil : NameTail first []
  | char {c : Nat} {s : List Nat} (h : NameChar c) (hs : NameTail first s) : NameTail first (c :: s)
  | segment {c : Nat} {s : List Nat} (h : first c) (hs : NameTail first s) : NameTail first (58 :: 58 :: c :: s)

/-- What ends a name -/
def NameEnd (c : Nat) (_ : In) : Prop := ¬ NameChar c ∧ c ≠ 58

/-- The token `t` is written `src`, if `i` follows. -/
inductive PLexeme : Token → List Nat → In → Prop
  | end : PLexeme ⟨[], tEnd⟩ [] []
  | nul {i : In} : PLexeme ⟨[], tEnd⟩ [0] i
  /-- a comment that the text ends with -/
  | comment {cs : List Nat} (h : ∀ c ∈ cs, c ≠ 0 ∧ c ≠ 10) : PLexeme ⟨[], tEnd⟩ (35 :: cs) []
  | string {q : Nat} {s cs : List Nat} {i : In} (hq : q = 34 ∨ q = 39) (h : Quoted q s cs) : PLexeme ⟨textOf cs, tString⟩ (q :: s ++ [q]) i
  | regexp {s cs : List Nat} {i : In} (h : Slashed s cs) : PLexeme ⟨textOf cs, tRegexp⟩ (47 :: s ++ [47]) i
  | rocket {i : In} : PLexeme ⟨[61, 62], tRocket⟩ [61, 62] i
  | equals {i : In} (h : Then (fun c _ => c ≠ 62) i) : PLexeme ⟨[], 61⟩ [61] i
  | number {ty : Nat} {s : List Nat} {p : Nat → In → Prop} {i : In} (h : Number ty s p) (hi : Then p i) : PLexeme ⟨textOf s, ty⟩ s i
  | signed {c ty : Nat} {s : List Nat} {p : Nat → In → Prop} {i : In} (hc : c = 43 ∨ c = 45) (h : Number ty s p) (hi : Then p i) : PLexeme ⟨c.toUInt8 :: textOf s, ty⟩ (c :: s) i
  | name {c : Nat} {cs : List Nat} {i : In} (h : isUpper c = true) (hs : NameTail (fun c => isUpper c = true) cs) (hi : Then NameEnd i) :
      PLexeme ⟨textOf (c :: cs), tName⟩ (c :: cs) i
  | identifier {c : Nat} {cs : List Nat} {i : In} (h : isLower c = true) (hs : NameTail (fun c => c = 95 ∨ isLower c = true) cs) (hi : Then NameEnd i) :
      PLexeme ⟨textOf (c :: cs), tIdentifier⟩ (c :: cs) i
  | char {c : Nat} {i : In} (h : isLetter c = false ∧ isDigit c = false) (h' : c ∉ [0, 9, 10, 32, 34, 35, 39, 43, 45, 47, 61]) : PLexeme ⟨[], c⟩ [c] i

end Verif.Pcore
