import Verif.Text.Domain
import Verif.Text.FloatModel
import Verif.Types.NumSpec
import Mathlib.Algebra.Order.Field.Rat
/-!
# What number a decimal text denotes: specification
-/
set_option autoImplicit false
namespace Verif.Text
open Verif.Value (Str F64)
open Verif.Types (Finite magUnits)

/-- The number that digits are -/
def number (ds : List Nat) : Nat := ds.foldl (fun a d => 10 * a + d) 0

/-- A decimal digit -/
def isDig (b : UInt8) : Bool := decide (48 ≤ b.toNat ∧ b.toNat ≤ 57)

/-- The number that digits are, as characters -/
def numberOf (s : Str) : Nat := number (s.map fun b => b.toNat - 48)

/-- The exponent, `E` with a sign or without -/
def exponentOf : Str → Int
  | 69 :: 43 :: xs => numberOf xs
  | 69 :: 45 :: xs => -(numberOf xs : Int)
  | 69 :: xs => numberOf xs
  | _ => 0

/-- Without the sign -/
def unsignedOf : Str → Str
  | 45 :: s => s
  | s => s

/-- The digits after the decimal point and what follows -/
def fractionOf : Str → Str × Str
  | 46 :: s => (s.takeWhile isDig, s.dropWhile isDig)
  | s => ([], s)

/-- Is the text of a number negative (or that of -0)? -/
def negative : Str → Bool
  | 45 :: _ => true
  | _ => false

/-- The number that is denoted by digits, a fraction or none and an exponent or none; without the sign -/
def magnitude (s : Str) : ℚ :=
  let whole := (unsignedOf s).takeWhile isDig
  let fr := fractionOf ((unsignedOf s).dropWhile isDig)
  numberOf (whole ++ fr.1) * (10 : ℚ) ^ (exponentOf fr.2 - fr.1.length)

/-- The number `0.d₁d₂d₃…·10^dp`, without the sign -/
def Dec.magnitude (d : Dec) : ℚ := number d.ds * (10 : ℚ) ^ (d.dp - d.ds.length)

/-- What the documentation of strconv says about `FormatFloat` and `ParseFloat`, as far as it is used here: the digits are those of a number that is
read as the float, and what is read depends on nothing but the sign and the number that is denoted. -/
structure Strconv (dec : F64 → Dec) (parse : Str → F64) : Prop where
  digit : ∀ f, Finite f → ∀ d ∈ (dec f).ds, d < 10
  lead : ∀ f, Finite f → (dec f).ds.head? ≠ some 0
  zero : ∀ f, Finite f → (dec f).ds = [] → (dec f).dp = 0
  exponent : ∀ f, Finite f → -323 ≤ (dec f).dp ∧ (dec f).dp ≤ 309
  near : ∃ near : Bool → ℚ → F64, (∀ s, PlainFloat s ∨ ExpFloat s → parse s = near (negative s) (magnitude s)) ∧
    ∀ f, Finite f → near (dec f).neg (dec f).magnitude = f

end Verif.Text
