import Verif.Text.Lexer
/-!
# Printing of literals
-/
set_option autoImplicit false
set_option linter.unusedVariables false
namespace Verif.Text
open Verif.Value (Str runeLen)

/-- A lowercase hexadecimal digit -/
def hexDigit (n : Nat) : UInt8 := if n < 10 then UInt8.ofNat (48 + n) else UInt8.ofNat (97 + (n - 10))

/-- `n` hexadecimal digits of `c` -/
def hexDigits : Nat → Nat → Str
  | 0, _ => []
  | n + 1, c => hexDigits n (c / 16) ++ [hexDigit (c % 16)]

/-- `strconv.appendEscapedRune` with the quote `"`, `ASCIIonly` and `graphicOnly` false.  `isPrint` is `strconv.IsPrint`
(`unicode.IsPrint`), a table.  (Since Go 1.16 U+007F is written `\\x7f`, before that `\\u007f`; the parser rejects both.) -/
def escapeRune (isPrint : Nat → Bool) (r : Nat) : Str :=
  if r = 34 ∨ r = 92 then [92] ++ encode r
  else if isPrint r then encode r
  else if r = 7 then [92, 97]
  else if r = 8 then [92, 98]
  else if r = 12 then [92, 102]
  else if r = 10 then [92, 110]
  else if r = 13 then [92, 114]
  else if r = 9 then [92, 116]
  else if r = 11 then [92, 118]
  else if r < 32 then [92, 120] ++ hexDigits 2 r
  else if r < 0x10000 then [92, 117] ++ hexDigits 4 r
  else [92, 85] ++ hexDigits 8 r

/-- The loop of `strconv.appendQuotedWith` -/
def quoteLoop (isPrint : Nat → Bool) (s : Str) : Str :=
  match s with
  | [] => []
  | b :: t =>
    (if runeLen (b :: t) = 1 ∧ decode (b :: t) = runeError then [92, 120] ++ hexDigits 2 b.toNat
     else escapeRune isPrint (decode (b :: t))) ++ quoteLoop isPrint ((b :: t).drop (runeLen (b :: t)))
termination_by s.length
decreasing_by
  simp only [List.length_drop]
  have := runeLen_cons b t
  simp at *; omega

/-- `strconv.Quote`, which `typeBuilder.stringExact` prints a string with: stringer/typestring.go:173-175 (and internal/string.go:543). -/
def quote (isPrint : Nat → Bool) (s : Str) : Str := [34] ++ quoteLoop isPrint s ++ [34]

/-- An uppercase hexadecimal digit -/
def hexDigitU (n : Nat) : UInt8 := if n < 10 then UInt8.ofNat (48 + n) else UInt8.ofNat (65 + (n - 10))

/-- `%X` of a number below 32 -/
def hexUpper (c : Nat) : Str := if c < 16 then [hexDigitU c] else [hexDigitU (c / 16), hexDigitU (c % 16)]

/-- What `RegexpSlashQuote` writes for one character: internal/regexp.go:141-158. -/
def slashRune (c : Nat) : Str :=
  if c = 9 then [92, 116]
  else if c = 10 then [92, 110]
  else if c = 13 then [92, 114]
  else if c = 47 then [92, 47]
  else if c = 92 then [92, 92]
  else if c < 32 then [92, 117, 123] ++ hexUpper c ++ [125]
  else encode c

/-- `for _, c := range str`: internal/regexp.go:140. -/
def slashLoop (s : Str) : Str :=
  match s with
  | [] => []
  | b :: t => slashRune (decode (b :: t)) ++ slashLoop ((b :: t).drop (runeLen (b :: t)))
termination_by s.length
decreasing_by
  simp only [List.length_drop]
  have := runeLen_cons b t
  simp at *; omega

/-- `RegexpSlashQuote`: internal/regexp.go:138-161. -/
def slashQuote (s : Str) : Str := [47] ++ slashLoop s ++ [47]

/-- The decimal digits of a number -/
def digits (n : Nat) : Str := if n < 10 then [UInt8.ofNat (48 + n)] else digits (n / 10) ++ [UInt8.ofNat (48 + n % 10)]
termination_by n

/-- `strconv.FormatInt(v, 10)` -/
def formatInt (v : Int) : Str := if v < 0 then [45] ++ digits v.natAbs else digits v.natAbs

/-- The value of digits in a base (10, 8, 16 or 2); `none`: a character is not a digit of that base -/
def digitVal (b : UInt8) : Option Nat :=
  let n := b.toNat
  if 48 ≤ n ∧ n ≤ 57 then some (n - 48)
  else if 97 ≤ n ∧ n ≤ 122 then some (n - 97 + 10)
  else if 65 ≤ n ∧ n ≤ 90 then some (n - 65 + 10)
  else none

def parseDigits (base acc : Nat) : Str → Option Nat
  | [] => some acc
  | b :: t =>
    match digitVal b with
    | some d => if d < base then parseDigits base (acc * base + d) t else none
    | none => none

/-- `strconv.ParseUint(s, 0, 64)` without the overflow check, which is in `parseInt`.  Underscores, which Go allows in base 0, are
left out: the lexer has none in numbers. -/
def parseUint (s : Str) : Option Nat :=
  match s with
  | [] => none
  | 48 :: c :: d :: t =>
    if c = 120 ∨ c = 88 then parseDigits 16 0 (d :: t)
    else if c = 98 ∨ c = 66 then parseDigits 2 0 (d :: t)
    else if c = 111 ∨ c = 79 then parseDigits 8 0 (d :: t)
    else parseDigits 8 0 (c :: d :: t)
  | 48 :: t => parseDigits 8 0 t
  | _ => parseDigits 10 0 s

/-- `strconv.ParseInt(s, 0, 64)`; a syntax error gives 0 and a number out of range the nearest one, and `tokenInt`
(parser/parser.go:791-794) ignores the error. -/
def parseInt (s : Str) : Int :=
  match s with
  | 45 :: t =>
    match parseUint t with
    | some n => if n ≤ 2 ^ 63 then - (n : Int) else - 2 ^ 63
    | none => 0
  | 43 :: t =>
    match parseUint t with
    | some n => if n < 2 ^ 63 then n else 2 ^ 63 - 1
    | none => 0
  | _ =>
    match parseUint s with
    | some n => if n < 2 ^ 63 then n else 2 ^ 63 - 1
    | none => 0

end Verif.Text
