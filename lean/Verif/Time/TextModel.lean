import Verif.Time.Model
/-!
# The texts of times

`timeVal.String` is `Format(time.RFC3339Nano)`: internal/time.go:178-180, and `TimeFromString` is `time.Parse(time.RFC3339Nano, …)`:
internal/time.go:128-134, streamer/decoder.go:67.  The two functions of Go's package `time` are modelled for the layout `2006-01-02T15:04:05.999999999Z07:00`.

Texts are lists of bytes.  Left out of `parse`, which refuses these here: hours of one digit and a comma before the fraction.  Which of two zones with one offset
the result is in is left out.
-/
set_option autoImplicit false
namespace Verif.Time

/-- `k` decimal digits of `n` -/
def pad : Nat → Nat → List Nat
  | 0, _ => []
  | k + 1, n => (48 + n / 10 ^ k % 10) :: pad k n

/-- The number of decimal digits, at least four -/
def width (n : Nat) : Nat := if n < 10000 then 4 else 1 + width (n / 10)
termination_by n

/-- `appendInt(b, year, 4)` -/
def formatYear (y : Int) : List Nat := if y < 0 then 45 :: pad (width y.natAbs) y.natAbs else pad (width y.natAbs) y.natAbs

def leap (y : Int) : Bool := y % 4 == 0 && (y % 100 != 0 || y % 400 == 0)

/-- Days before the month (from 0) in a year that is not a leap year -/
def daysBefore (m : Nat) : Nat := [0, 31, 59, 90, 120, 151, 181, 212, 243, 273, 304, 334, 365].getD m 365

/-- Month (from 1) and day (from 1) of the day `d` (from 0) of a year -/
def monthDay (leap : Bool) (d : Nat) : Nat × Nat :=
  if leap && d == 59 then (2, 29)
  else
    let d := if leap && 59 < d then d - 1 else d
    let m := d / 31
    if daysBefore (m + 1) ≤ d then (m + 2, d - daysBefore (m + 1) + 1) else (m + 1, d - daysBefore m + 1)

/-- The day (from 0) of a year -/
def yday (leap : Bool) (m d : Nat) : Nat := daysBefore (m - 1) + (if leap && 3 ≤ m then 1 else 0) + d - 1

/-- The text without zeros at the end -/
def trim : List Nat → List Nat
  | [] => []
  | c :: s => if trim s = [] ∧ c = 48 then [] else c :: trim s

/-- The fraction of a second: `.999999999` -/
def formatNano (n : Int) : List Nat := if n = 0 then [] else 46 :: trim (pad 9 n.toNat)

/-- The zone: `Z07:00`; seconds of the offset are not shown. -/
def formatZone (off : Int) : List Nat :=
  if off = 0 then [90]
  else
    let z := off.tdiv 60
    (if z < 0 then 45 else 43) :: (pad 2 (z.natAbs / 60) ++ 58 :: pad 2 (z.natAbs % 60))

/-- `String`: internal/time.go:178-180. -/
def format (t : T) : List Nat :=
  let s := t.sec + t.off
  let y := year s
  let d := ((s - yearStart y) / 86400).toNat
  let r := (s % 86400).toNat
  let md := monthDay (leap y) d
  formatYear y ++ 45 :: (pad 2 md.1 ++ 45 :: (pad 2 md.2 ++ 84 :: (pad 2 (r / 3600) ++ 58 :: (pad 2 (r / 60 % 60) ++ 58 :: (pad 2 (r % 60) ++
    (formatNano t.nsec ++ formatZone t.off))))))

def isDigit (c : Nat) : Bool := 48 ≤ c && c ≤ 57

/-- `k` digits after `acc` -/
def readN : Nat → Nat → List Nat → Option (Nat × List Nat)
  | 0, acc, s => some (acc, s)
  | k + 1, acc, c :: s => if isDigit c then readN k (acc * 10 + (c - 48)) s else none
  | _ + 1, _, [] => none

/-- This character -/
def expect (c : Nat) : List Nat → Option (List Nat)
  | [] => none
  | c' :: s => if c' = c then some s else none

def valueOf (s : List Nat) : Nat := s.foldl (fun a c => a * 10 + (c - 48)) 0

/-- The fraction, which may be missing; digits after the ninth are dropped. -/
def readNano : List Nat → Nat × List Nat
  | 46 :: c :: s =>
    if isDigit c then
      let ds := (c :: s.takeWhile isDigit).take 9
      (valueOf ds * 10 ^ (9 - ds.length), s.dropWhile isDigit)
    else (0, 46 :: c :: s)
  | s => (0, s)

/-- The zone, and the end of the text -/
def readZone : List Nat → Option Int
  | [90] => some 0
  | c :: s =>
    if c = 43 ∨ c = 45 then
      (readN 2 0 s).bind fun h => (expect 58 h.2).bind fun s => (readN 2 0 s).bind fun m =>
        if m.2 = [] ∧ h.1 ≤ 24 ∧ m.1 ≤ 60 then some ((if c = 45 then -1 else 1) * (((h.1 * 60 + m.1) * 60 : Nat) : Int)) else none
    else none
  | [] => none

/-- The days of a month -/
def daysIn (leap : Bool) (m : Nat) : Nat := if leap && m == 2 then 29 else daysBefore m - daysBefore (m - 1)

/-- `TimeFromString`: internal/time.go:128-134; `none`: it panics. -/
def parse (s : List Nat) : Option T :=
  (readN 4 0 s).bind fun y => (expect 45 y.2).bind fun s => (readN 2 0 s).bind fun mo => (expect 45 mo.2).bind fun s => (readN 2 0 s).bind fun d =>
    (expect 84 d.2).bind fun s => (readN 2 0 s).bind fun h => (expect 58 h.2).bind fun s => (readN 2 0 s).bind fun mi => (expect 58 mi.2).bind fun s =>
      (readN 2 0 s).bind fun se =>
        let n := readNano se.2
        (readZone n.2).bind fun off =>
          if 1 ≤ mo.1 ∧ mo.1 ≤ 12 ∧ 1 ≤ d.1 ∧ d.1 ≤ daysIn (leap y.1) mo.1 ∧ h.1 < 24 ∧ mi.1 < 60 ∧ se.1 < 60 then
            some ⟨yearStart y.1 + (yday (leap y.1) mo.1 d.1 * 86400 + h.1 * 3600 + mi.1 * 60 + se.1 : Nat) - off, n.1, off⟩
          else none

end Verif.Time
