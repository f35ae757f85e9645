import Verif.Text.Lexer
/-!
# What the errors of the lexer say: specification
-/
set_option autoImplicit false
namespace Verif.Text
open Verif.Value (Str)

/-- The input can be continued so that the function does not fail. -/
def CanGoOn {α : Type} (f : In → Lex α) (i : In) : Prop := ∃ more x, f (i ++ more) = .ok x

/-- The error stays, whatever the input is continued with. -/
def Stays {α : Type} (f : In → Lex α) (i : In) (e : Err) : Prop := ∀ more, f (i ++ more) = .error e

/-- What an error says of the input:
* an unexpected character, or one that cannot be escaped, is in the input, and no more input helps.  (But if the input ends with a dot, a second dot may.)
* a unicode error: the input is not UTF-8, or has the replacement character; no more input helps.
* an unexpected end, or an unterminated literal: more input helps, or there is a NUL, or a line end in the literal. -/
def Tells {α : Type} (f : In → Lex α) (i : In) : Err → Prop
  | .unexpected r => r ≠ 0 ∧ some r ∈ i ∧ (i.getLast? ≠ some (some 46) → Stays f i (.unexpected r))
  | .illegalEscape r => r ≠ 0 ∧ some r ∈ i ∧ Stays f i (.illegalEscape r)
  | .unicode => none ∈ i ∧ Stays f i .unicode
  | .unexpectedEnd => some 0 ∈ i ∨ CanGoOn f i
  | .unterminatedString => some 0 ∈ i ∨ some 10 ∈ i ∨ CanGoOn f i
  | .unterminatedRegexp => some 0 ∈ i ∨ some 10 ∈ i ∨ CanGoOn f i

end Verif.Text
