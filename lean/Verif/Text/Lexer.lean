import Verif.Text.Reader
/-!
# The lexer

The functions read from the runes that are left, `In`, instead of a `StringReader`; `next_left`, `peek_left` and `peek2_left`
(Text/Reader.lean) say that this is the same.  A function that reads and writes returns what is left and what was written.
-/
set_option autoImplicit false
set_option linter.unusedVariables false
namespace Verif.Text
open Verif.Value (Str)

/-- The panics of the lexer -/
inductive Err where
  /-- `badToken(r)` for a character: parser/lexer.go:95 -/
  | unexpected (r : Nat)
  /-- "unexpected end": lexer.go:93, 222 -/
  | unexpectedEnd
  | unterminatedString
  | unterminatedRegexp
  | illegalEscape (r : Nat)
  /-- "unicode error": util/reader.go:43 -/
  | unicode
  deriving DecidableEq, Repr

/-- `badToken`: lexer.go:91-96. -/
def badToken (r : Nat) : Err := if r = 0 then .unexpectedEnd else .unexpected r

/-! ## Characters: lexer.go:27-62 and 173-215.  The table `charTypes` is written as ranges. -/

def isDigit (r : Nat) : Bool := 48 ≤ r && r ≤ 57
def isUpper (r : Nat) : Bool := 65 ≤ r && r ≤ 90
def isLower (r : Nat) : Bool := 97 ≤ r && r ≤ 122
def isLetter (r : Nat) : Bool := isUpper r || isLower r
def isHex (r : Nat) : Bool := isDigit r || (65 ≤ r && r ≤ 70) || (97 ≤ r && r ≤ 102)
/-- `$` and `_` -/
def isIdStart (r : Nat) : Bool := isLetter r || r == 36 || r == 95
def isId (r : Nat) : Bool := isIdStart r || isDigit r

/-! ## Tokens -/

/-- `Token.Type` is an int: one of the constants lexer.go:16-25, or the code of a character. -/
structure Token where
  value : Str
  type : Nat
  deriving DecidableEq, Repr

def tEnd : Nat := 0
def tInteger : Nat := 1
def tFloat : Nat := 2
def tString : Nat := 3
def tRegexp : Nat := 4
def tIdentifier : Nat := 5
def tDotdot : Nat := 6
def tDotdotdot : Nat := 7

abbrev Lex (α : Type) := Except Err α

/-- `consumeUnsignedInteger`: lexer.go:158-171. -/
def consumeUnsigned (buf : Str) : In → Lex (In × Str)
  | [] => .ok ([], buf)
  | none :: _ => .error .unicode
  | some r :: t =>
    if r = 46 ∨ isLetter r then .error (badToken r)
    else if isDigit r then consumeUnsigned (buf ++ encode r) t
    else .ok (some r :: t, buf)

/-- The `default` case of `consumeExponent`: lexer.go:227-233. -/
def exponentDigits (buf : Str) : In → Lex (In × Str)
  | [] => .error (badToken 0)
  | none :: _ => .error .unicode
  | some r :: t => if isDigit r then consumeUnsigned (buf ++ encode r) t else .error (badToken r)

/-- `consumeExponent`: lexer.go:217-236. -/
def consumeExponent (buf : Str) : In → Lex (In × Str)
  | [] => .error .unexpectedEnd
  | none :: _ => .error .unicode
  | some r :: t =>
    if r = 0 then .error .unexpectedEnd
    else if r = 43 ∨ r = 45 then exponentDigits (buf ++ encode r) t
    else exponentDigits buf (some r :: t)

/-- `consumeHexInteger`: lexer.go:238-242. -/
def consumeHex (buf : Str) : In → Lex (In × Str)
  | [] => .ok ([], buf)
  | none :: _ => .error .unicode
  | some r :: t => if isHex r then consumeHex (buf ++ encode r) t else .ok (some r :: t, buf)

/-- `r = sr.Next(); if IsHex(r) { … }; panic(badToken(r))`: lexer.go:262-269. -/
def hexStart (buf : Str) : In → Lex (In × Str)
  | [] => .error (badToken 0)
  | none :: _ => .error .unicode
  | some r :: t => if isHex r then consumeHex (buf ++ encode r) t else .error (badToken r)

/-- The loop of `ConsumeNumber`: lexer.go:249-292; `start` has been written by the caller, see `consumeNumber`. -/
def numberLoop (firstZero : Bool) (ty : Nat) (buf : Str) : In → Lex (Nat × In × Str)
  | [] => .ok (ty, [], buf)
  | none :: _ => .error .unicode
  | some r :: t =>
    if r = 0 then .ok (ty, some r :: t, buf)
    else if r = 48 then numberLoop firstZero ty (buf ++ encode r) t
    else if r = 101 ∨ r = 69 then (consumeExponent (buf ++ encode r) t).map fun (i, b) => (tFloat, i, b)
    else if r = 120 ∨ r = 88 then
      if firstZero then (hexStart (buf ++ encode r) t).map fun (i, b) => (ty, i, b)
      else .error (badToken r)
    else if r = 46 then
      match t with
      | none :: _ => .error .unicode
      | [] => if ty ≠ tFloat then .error (badToken 0) else .error (badToken r)
      | some r2 :: t2 =>
        if r2 = 46 then .ok (ty, some r :: some r2 :: t2, buf)
        else if ty ≠ tFloat then
          -- `return ConsumeNumber(sr, r, buf, float)`
          if isDigit r2 then numberLoop false tFloat (buf ++ encode r ++ encode r2) t2 else .error (badToken r2)
        else .error (badToken r)
    else if isDigit r then numberLoop firstZero ty (buf ++ encode r) t
    else .ok (ty, some r :: t, buf)

/-- `ConsumeNumber`: lexer.go:245-293. -/
def consumeNumber (start : Nat) (buf : Str) (ty : Nat) (i : In) : Lex (Nat × In × Str) :=
  numberLoop (ty != tFloat && start == 48) ty (buf ++ encode start) i

/-- `ConsumeRegexp`: lexer.go:297-320. -/
def consumeRegexp (buf : Str) : In → Lex (In × Str)
  | [] => .error .unterminatedRegexp
  | none :: _ => .error .unicode
  | some r :: t =>
    if r = 47 then .ok (t, buf)
    else if r = 92 then
      match t with
      | [] => .error .unterminatedRegexp
      | none :: _ => .error .unicode
      | some r2 :: t2 =>
        if r2 = 0 then .error .unterminatedRegexp
        else if r2 = 47 then consumeRegexp (buf ++ encode r2) t2
        else consumeRegexp (buf ++ encode 92 ++ encode r2) t2
    else if r = 0 ∨ r = 10 then .error .unterminatedRegexp
    else consumeRegexp (buf ++ encode r) t

/-- `consumeEscape`: lexer.go:344-361; the character that is written. -/
def escape (r quote : Nat) : Lex Nat :=
  if r = 0 then .error .unterminatedString
  else if r = 110 then .ok 10
  else if r = 114 then .ok 13
  else if r = 116 then .ok 9
  else if r = 92 then .ok r
  else if r ≠ quote then .error (.illegalEscape r)
  else .ok r

/-- `ConsumeString`: lexer.go:324-342. -/
def consumeString (quote : Nat) (buf : Str) : In → Lex (In × Str)
  | [] => if quote = 0 then .ok ([], buf) else .error .unterminatedString
  | none :: _ => .error .unicode
  | some r :: t =>
    if r = quote then .ok (t, buf)
    else if r = 0 then .error .unterminatedString
    else if r = 92 then
      match t with
      | [] => .error .unterminatedString
      | none :: _ => .error .unicode
      | some r2 :: t2 =>
        match escape r2 quote with
        | .error e => .error e
        | .ok c => consumeString quote (buf ++ encode c) t2
    else if r = 10 then .error .unterminatedString
    else consumeString quote (buf ++ encode r) t

/-- `consumeRawString`: lexer.go:363-375. -/
def consumeRaw (buf : Str) : In → Lex (In × Str)
  | [] => .error .unterminatedString
  | none :: _ => .error .unicode
  | some r :: t =>
    if r = 96 then .ok (t, buf)
    else if r = 0 then .error .unterminatedString
    else consumeRaw (buf ++ encode r) t

/-- The loop of `consumeIdentifier`: lexer.go:377-382. -/
def identifierLoop (buf : Str) : In → Lex (In × Str)
  | [] => .ok ([], buf)
  | none :: _ => .error .unicode
  | some r :: t => if isId r then identifierLoop (buf ++ encode r) t else .ok (some r :: t, buf)

/-- `buildToken`: lexer.go:143-156. -/
def buildToken (r : Nat) (t : In) : Lex (Token × In) :=
  if isDigit r then (consumeNumber r [] tInteger t).map fun (ty, i, b) => (⟨b, ty⟩, i)
  else if isIdStart r then (identifierLoop (encode r) t).map fun (i, b) => (⟨b, tIdentifier⟩, i)
  else .ok (⟨[], r⟩, t)

/-- The case of a dot: lexer.go:113-124. -/
def dots (t : In) : Lex (Token × In) :=
  match t with
  | [] => .ok (⟨[], 46⟩, t)
  | none :: _ => .error .unicode
  | some r2 :: t2 =>
    if r2 = 46 then
      match t2 with
      | [] => .ok (⟨[46, 46], tDotdot⟩, t2)
      | none :: _ => .error .unicode
      | some r3 :: t3 => if r3 = 46 then .ok (⟨[46, 46, 46], tDotdotdot⟩, t3) else .ok (⟨[46, 46], tDotdot⟩, t2)
    else .ok (⟨[], 46⟩, t)

/-- The case of a sign: lexer.go:125-135. -/
def signed (r : Nat) (t : In) : Lex (Token × In) :=
  match t with
  | [] => .error (badToken 0)
  | none :: _ => .error .unicode
  | some n :: t2 =>
    if isDigit n then (consumeNumber n (if r = 45 then [45] else []) tInteger t2).map fun (ty, i, b) => (⟨b, ty⟩, i)
    else .error (badToken n)

/-- `nextToken`: lexer.go:98-141. -/
def nextToken : In → Lex (Token × In)
  | [] => .ok (⟨[], tEnd⟩, [])
  | none :: _ => .error .unicode
  | some r :: t =>
    if r = 0 then .ok (⟨[], tEnd⟩, t)
    else if r = 32 ∨ r = 9 ∨ r = 10 then nextToken t
    else if r = 96 then (consumeRaw [] t).map fun (i, b) => (⟨b, tString⟩, i)
    else if r = 34 then (consumeString r [] t).map fun (i, b) => (⟨b, tString⟩, i)
    else if r = 47 then (consumeRegexp [] t).map fun (i, b) => (⟨b, tRegexp⟩, i)
    else if r = 46 then dots t
    else if r = 45 ∨ r = 43 then signed r t
    else buildToken r t

end Verif.Text
