import Mathlib.Data.Rat.Floor
/-!
# Times and their seconds

`timeVal.SecondsWithFraction`: internal/time.go:148-159, and the conversions between times, floats and integers: internal/time.go:95-118,
internal/float.go:355, internal/integer.go:439-440.

A `time.Time` is its Unix seconds, its nanoseconds and the offset of its zone.  Arithmetic of `int64` wraps.  A `float64` is the rational number that it is;
every operation on floats is the exact operation followed by a rounding `fl`, of which all that is assumed is that it gives a nearest number with 53
significant bits (`Nearest`, in `Verif/Time/Float`): so the results are for every rule for ties.  Infinities, NaN and numbers too small for 53 bits do not
occur here.
-/
set_option autoImplicit false
namespace Verif.Time

/-- `time.Time` -/
structure T where
  /-- seconds since 1970-01-01T00:00:00Z -/
  sec : Int
  nsec : Int
  /-- seconds east of Greenwich -/
  off : Int

/-- What the package `time` guarantees; the bounds on the seconds are far beyond its own. -/
structure T.WF (t : T) : Prop where
  nonneg : 0 ≤ t.nsec
  lt : t.nsec < 1000000000

/-- The instant, in nanoseconds -/
def T.nanos (t : T) : Int := t.sec * 1000000000 + t.nsec

/-- The seconds that the claim speaks of -/
def T.exact (t : T) : ℚ := t.sec + t.nsec / 1000000000

/-- Seconds from 1970 to the beginning of the year `y` of the Gregorian calendar -/
def yearStart (y : Int) : Int := 86400 * (365 * (y - 1970) + ((y - 1) / 4 - 492) - ((y - 1) / 100 - 19) + ((y - 1) / 400 - 4))

/-- The year of a number of seconds from 1970 -/
def year (s : Int) : Int :=
  let y := s / 31556952 + 1970
  if s < yearStart y then y - 1 else if yearStart (y + 1) ≤ s then y + 1 else y

/-- `int64` -/
def wrap (n : Int) : Int := (n + 9223372036854775808) % 18446744073709551616 - 9223372036854775808

/-- What is divided by what in `SecondsWithFraction`: internal/time.go:149-158; the year is the year in the zone of the time. -/
def fraction (t : T) : Int × Int :=
  if 1678 < year (t.sec + t.off) ∧ year (t.sec + t.off) < 2262 then (wrap (t.sec * 1000000000 + t.nsec), 1000000000)
  else (wrap (wrap (t.sec * 1000000) + t.nsec / 1000), 1000000)

/-- `SecondsWithFraction`: internal/time.go:148-159, and `vf.New(typ.Float, t)`: internal/float.go:355. -/
def seconds (fl : ℚ → ℚ) (t : T) : ℚ := fl (fl (fraction t).1 / (fraction t).2)

/-- `int64` of a float, and the first result of `math.Modf` -/
def trunc (q : ℚ) : Int := if 0 ≤ q then ⌊q⌋ else ⌈q⌉

/-- `time.Unix`; the zone is the local one. -/
def unix (zone s n : Int) : T := ⟨s + n / 1000000000, n % 1000000000, zone⟩

/-- `vf.New(typ.Time, f)` for a float: internal/time.go:107-109. -/
def timeOfFloat (fl : ℚ → ℚ) (zone : Int) (q : ℚ) : T := unix zone (trunc q) (trunc (fl ((q - trunc q) * 1000000000)))

/-- `vf.New(typ.Time, i)` for an integer: internal/time.go:105-106. -/
def timeOfInt (zone i : Int) : T := unix zone i 0

/-- `vf.New(typ.Integer, t)`: internal/integer.go:439-440. -/
def intOfTime (t : T) : Int := t.sec

/-- `vf.New(typ.Integer, f)`: internal/integer.go:437-438. -/
def intOfFloat (q : ℚ) : Int := trunc q

/-- `Equals`: internal/time.go:136-146; `time.Time.Equal` compares instants. -/
def T.equals (t u : T) : Bool := t.sec == u.sec && t.nsec == u.nsec

end Verif.Time
