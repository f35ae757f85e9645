import Verif.Text.Lexer
/-!
# How the tokens are written: specification

A grammar, of the characters that a token is written with (`src`) and of what follows it.  It does not say how they are read.
-/
set_option autoImplicit false
namespace Verif.Text
open Verif.Value (Str)

/-- Characters between tokens -/
def Blank (c : Nat) : Prop := c = 32 ∨ c = 9 ∨ c = 10

/-- What is between the quotes `q` of a string: how it is written, and the characters that it has -/
inductive Quoted (q : Nat) : List Nat → List Nat → Prop
  | nil : Quoted q [] []
  | plain {c : Nat} {s cs : List Nat} (h : c ≠ q ∧ c ≠ 92 ∧ c ≠ 10 ∧ c ≠ 0) (hs : Quoted q s cs) : Quoted q (c :: s) (c :: cs)
  | newline {s cs : List Nat} (hs : Quoted q s cs) : Quoted q (92 :: 110 :: s) (10 :: cs)
  | return {s cs : List Nat} (hs : Quoted q s cs) : Quoted q (92 :: 114 :: s) (13 :: cs)
  | tab {s cs : List Nat} (hs : Quoted q s cs) : Quoted q (92 :: 116 :: s) (9 :: cs)
  | backslash {s cs : List Nat} (hs : Quoted q s cs) : Quoted q (92 :: 92 :: s) (92 :: cs)
  | quote {s cs : List Nat} (hs : Quoted q s cs) : Quoted q (92 :: q :: s) (q :: cs)

/-- What is between the slashes of a regexp `/…/`: a slash is escaped, and no other character -/
inductive Slashed : List Nat → List Nat → Prop
  | nil : Slashed [] []
  | plain {c : Nat} {s cs : List Nat} (h : c ≠ 47 ∧ c ≠ 92 ∧ c ≠ 10 ∧ c ≠ 0) (hs : Slashed s cs) : Slashed (c :: s) (c :: cs)
  | slash {s cs : List Nat} (hs : Slashed s cs) : Slashed (92 :: 47 :: s) (47 :: cs)
  | other {c : Nat} {s cs : List Nat} (h : c ≠ 47 ∧ c ≠ 0) (hs : Slashed s cs) : Slashed (92 :: c :: s) (92 :: c :: cs)

/-- One digit, or more -/
def DigitSeq (ds : List Nat) : Prop := ds ≠ [] ∧ ∀ d ∈ ds, isDigit d = true

/-- The exponent of a float -/
def Exponent (s : List Nat) : Prop := ∃ e sign ds, s = e :: sign ++ ds ∧ (e = 101 ∨ e = 69) ∧ (sign = [] ∨ sign = [43] ∨ sign = [45]) ∧ DigitSeq ds

/-- A number without a sign: its type, how it is written, and what can follow: `p c more` for the character that follows and what is after that -/
inductive Number : Nat → List Nat → (Nat → In → Prop) → Prop
  | integer {ds : List Nat} (h : DigitSeq ds) :
      Number tInteger ds fun c more => isDigit c = false ∧ c ≠ 101 ∧ c ≠ 69 ∧ c ≠ 120 ∧ c ≠ 88 ∧ (c = 46 → more.head? = some (some 46))
  | hex {ds hs : List Nat} {x : Nat} (hx : x = 120 ∨ x = 88) (h : ∀ d ∈ ds, isDigit d = true) (h0 : hs ≠ []) (hh : ∀ d ∈ hs, isHex d = true) :
      Number tInteger (48 :: ds ++ x :: hs) fun c _ => isHex c = false
  | fraction {ds fs : List Nat} (h : DigitSeq ds) (h' : DigitSeq fs) :
      Number tFloat (ds ++ 46 :: fs) fun c more => isDigit c = false ∧ c ≠ 101 ∧ c ≠ 69 ∧ c ≠ 120 ∧ c ≠ 88 ∧ (c = 46 → more.head? = some (some 46))
  | exponent {ds es : List Nat} (h : DigitSeq ds) (he : Exponent es) : Number tFloat (ds ++ es) fun c _ => isDigit c = false ∧ isLetter c = false ∧ c ≠ 46
  | both {ds fs es : List Nat} (h : DigitSeq ds) (h' : DigitSeq fs) (he : Exponent es) :
      Number tFloat (ds ++ 46 :: fs ++ es) fun c _ => isDigit c = false ∧ isLetter c = false ∧ c ≠ 46

/-- The input is at its end, or goes on with a character and more input of which `p` holds. -/
def Then (p : Nat → In → Prop) (i : In) : Prop := i = [] ∨ ∃ c more, i = some c :: more ∧ p c more

/-- The token `t` is written `src`, if `i` follows. -/
inductive Lexeme : Token → List Nat → In → Prop
  | end : Lexeme ⟨[], tEnd⟩ [] []
  | nul {i : In} : Lexeme ⟨[], tEnd⟩ [0] i
  | raw {cs : List Nat} {i : In} (h : ∀ c ∈ cs, c ≠ 96 ∧ c ≠ 0) : Lexeme ⟨textOf cs, tString⟩ (96 :: cs ++ [96]) i
  | string {s cs : List Nat} {i : In} (h : Quoted 34 s cs) : Lexeme ⟨textOf cs, tString⟩ (34 :: s ++ [34]) i
  | regexp {s cs : List Nat} {i : In} (h : Slashed s cs) : Lexeme ⟨textOf cs, tRegexp⟩ (47 :: s ++ [47]) i
  | dot {i : In} (h : Then (fun c _ => c ≠ 46) i) : Lexeme ⟨[], 46⟩ [46] i
  | dotdot {i : In} (h : Then (fun c _ => c ≠ 46) i) : Lexeme ⟨[46, 46], tDotdot⟩ [46, 46] i
  | dotdotdot {i : In} : Lexeme ⟨[46, 46, 46], tDotdotdot⟩ [46, 46, 46] i
  | number {ty : Nat} {s : List Nat} {p : Nat → In → Prop} {i : In} (h : Number ty s p) (hi : Then p i) : Lexeme ⟨textOf s, ty⟩ s i
  | plus {ty : Nat} {s : List Nat} {p : Nat → In → Prop} {i : In} (h : Number ty s p) (hi : Then p i) : Lexeme ⟨textOf s, ty⟩ (43 :: s) i
  | minus {ty : Nat} {s : List Nat} {p : Nat → In → Prop} {i : In} (h : Number ty s p) (hi : Then p i) : Lexeme ⟨45 :: textOf s, ty⟩ (45 :: s) i
  | identifier {c : Nat} {cs : List Nat} {i : In} (h : isIdStart c = true) (hs : ∀ c ∈ cs, isId c = true) (hi : Then (fun c _ => isId c = false) i) :
      Lexeme ⟨textOf (c :: cs), tIdentifier⟩ (c :: cs) i
  | char {c : Nat} {i : In} (h : isId c = false) (h' : c ∉ [0, 9, 10, 32, 34, 43, 45, 46, 47, 96]) : Lexeme ⟨[], c⟩ [c] i

end Verif.Text
