import Verif.Types.NewSpec
/-!
# What number a float is: specification

IEEE 754 binary64.  All finite floats are multiples of 2^-1074, the smallest positive one, so numbers are counted in that unit.
-/
set_option autoImplicit false
namespace Verif.Types
open Verif.Value

/-- The number 1, in units of 2^-1074 -/
@[irreducible] def one : Nat := 2 ^ 1074

/-- The number with these magnitude bits, in units of 2^-1074: a subnormal number if the exponent bits are 0, and otherwise the fraction with a
leading one, shifted by the exponent. -/
def magUnits (m : Nat) : Nat := if m / 2 ^ 52 = 0 then m % 2 ^ 52 else (2 ^ 52 + m % 2 ^ 52) * 2 ^ (m / 2 ^ 52 - 1)

/-- The float is a number: neither infinite nor NaN. -/
def Finite (f : F64) : Prop := f.toNat % 2 ^ 63 < 0x7ff0000000000000

instance (f : F64) : Decidable (Finite f) := by unfold Finite; infer_instance

/-- The number that a finite float is, in units of 2^-1074; the first bit is the sign. -/
def units (f : F64) : Int := if f.toNat ≥ 2 ^ 63 then -(magUnits (f.toNat % 2 ^ 63) : Int) else magUnits (f.toNat % 2 ^ 63)

/-- The types of floats -/
inductive FloatType : Ty → Prop where
  | all : FloatType .floatT
  | range (min max : F64) (inclusive : Bool) : FloatType (.floatRange min max inclusive)
  | exact (f : F64) : FloatType (.exact (.float f))

/-- How far the float is from the integer, in units of 2^-1074 -/
def distance (f : F64) (i : BitVec 64) : Nat := (units f - i.toInt * one).natAbs

/-- `n` is the integer part of the float: what is left of it when the fraction is cut off. -/
def IntegerPart (f : F64) (n : Int) : Prop :=
  n.natAbs * one ≤ (units f).natAbs ∧ (units f).natAbs < (n.natAbs + 1) * one ∧ (0 < n → 0 < units f) ∧ (n < 0 → units f < 0)

end Verif.Types
