import Verif.Types.Model
import Mathlib.Data.List.Forall2
/-!
# Numerals
-/
set_option autoImplicit false
namespace Verif.Types
open Verif.Value

/-- The character stands for the digit: `0` to `9`, then `a` or `A` and so on. -/
def Digit (c : UInt8) (d : Nat) : Prop :=
  (d < 10 ∧ c.toNat = 48 + d) ∨ (10 ≤ d ∧ d < 36 ∧ (c.toNat = 97 + (d - 10) ∨ c.toNat = 65 + (d - 10)))

/-- The number that digits stand for -/
def valueOf (radix : Nat) (ds : List Nat) : Nat := ds.foldl (fun n d => n * radix + d) 0

/-- The text is a numeral of the number: an optional sign, and at least one digit. -/
def Numeral (radix : Nat) (s : Str) (n : Int) : Prop :=
  ∃ cs ds, ds ≠ [] ∧ List.Forall₂ Digit cs ds ∧ (∀ d ∈ ds, d < radix) ∧
    ((s = cs ∨ s = 43 :: cs) ∧ n = valueOf radix ds ∨ s = 45 :: cs ∧ n = -(valueOf radix ds : Int))

/-- A type of integers -/
inductive IntType : Ty → Prop where
  | all : IntType .intT
  | range (min max : BitVec 64) (inclusive : Bool) : IntType (.intRange min max inclusive)
  | exact (i : BitVec 64) : IntType (.exact (.int i))

/-- The lower case of an ASCII character -/
def lower (c : UInt8) : UInt8 := if 65 ≤ c.toNat ∧ c.toNat ≤ 90 then c + 32 else c

/-- ASCII text -/
def Ascii (s : Str) : Prop := ∀ c ∈ s, c.toNat < 128

/-- `strings.EqualFold` of two ASCII texts -/
def FoldsAscii (E : Env) : Prop := ∀ a b, Ascii a → Ascii b → (E.fold a b = true ↔ a.map lower = b.map lower)

/-- The texts `true`, `yes` and `y`; `false`, `no` and `n` -/
def saysTrue : List Str := ["true", "yes", "y"].map fun s => s.toList.map fun c => UInt8.ofNat c.toNat
def saysFalse : List Str := ["false", "no", "n"].map fun s => s.toList.map fun c => UInt8.ofNat c.toNat

/-- The formats of `fmt.Sprintf` for integers, each with the base it prints -/
def formats : List (Str × BitVec 64) :=
  [("%b", 2), ("%o", 8), ("%d", 10), ("%x", 16), ("%X", 16)].map fun f => (f.1.toList.map fun c => UInt8.ofNat c.toNat, f.2)

/-- Keys and values, one after the other -/
def flat (es : List (Val × Val)) : List Val := es.flatMap fun e => [e.1, e.2]

end Verif.Types
