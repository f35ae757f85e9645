import Verif.Text.Printer
/-!
# The texts of floats

util/string.go:9-18 and what it calls.

Simplification, for the whole file: the decimal digits that `strconv.FormatFloat(f, 'G', -1, 64)` computes, the fewest that identify the float, are
a parameter (`Dec`); how it arranges them is modelled, from the documentation and the source of the package strconv (ftoa.go, `formatDigits`,
`fmtE` and `fmtF` for the format `G` and the precision -1).
-/
set_option autoImplicit false
namespace Verif.Text
open Verif.Value (Str F64)

/-- The number `0.d₁d₂d₃…·10^dp`, with a sign.  No digits for zero. -/
structure Dec where
  neg : Bool
  ds : List Nat
  dp : Int
  deriving DecidableEq

/-- a digit as a character -/
def dch (d : Nat) : UInt8 := UInt8.ofNat (48 + d)

/-- The digits of an exponent, two at least: `fmtE` of strconv/ftoa.go -/
def expDigits (e : Nat) : Str :=
  if e < 10 then [48, dch e]
  else if e < 100 then [dch (e / 10), dch (e % 10)]
  else [dch (e / 100), dch (e / 10 % 10), dch (e % 10)]

/-- `fmtE` of strconv/ftoa.go, with as many digits as there are: `d.dddE±dd` -/
def fmtE (d : Dec) : Str :=
  let first := match d.ds with | [] => 48 | x :: _ => dch x
  let more := if d.ds.length > 1 then 46 :: (d.ds.drop 1).map dch else []
  let exp := if d.ds = [] then 0 else d.dp - 1
  (if d.neg then [45] else []) ++ [first] ++ more ++ [69] ++ [if exp < 0 then 45 else 43] ++ expDigits exp.natAbs

/-- `fmtF` of strconv/ftoa.go, with as many digits after the decimal point as are needed: `ddd.ddd`; the default of `getD` is never used. -/
def fmtF (d : Dec) : Str :=
  let whole := if d.dp > 0 then (d.ds.take d.dp.toNat).map dch ++ List.replicate (d.dp.toNat - d.ds.length) 48 else [48]
  let prec := (d.ds.length - d.dp).toNat
  let frac := if prec > 0 then
      46 :: (List.range prec).map fun (i : Nat) => if 0 ≤ d.dp + i then dch (d.ds.getD (d.dp + i).toNat 0) else 48
    else []
  (if d.neg then [45] else []) ++ whole ++ frac

/-- `formatDigits` of strconv/ftoa.go for `G` and the precision -1 -/
def formatG (d : Dec) : Str := if d.dp - 1 < -4 ∨ 6 ≤ d.dp - 1 then fmtE d else fmtF d

/-- The loop and the return of `Ftoa`: util/string.go:12-17 -/
def addPoint (s : Str) : Str := if s.any fun b => b = 101 || b = 69 || b = 46 then s else s ++ [46, 48]

/-- `Ftoa`: util/string.go:11-18.  `FormatFloat` yields `NaN`, `+Inf` and `-Inf` for what is no number. -/
def ftoa (dec : F64 → Dec) (f : F64) : Str :=
  addPoint <|
    if f.toNat % 2 ^ 63 > 0x7ff0000000000000 then [78, 97, 78]
    else if f.toNat % 2 ^ 63 = 0x7ff0000000000000 then (if f.toNat ≥ 2 ^ 63 then 45 else 43) :: [73, 110, 102]
    else formatG (dec f)

end Verif.Text
