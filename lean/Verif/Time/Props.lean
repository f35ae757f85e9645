import Verif.Time.Lemmas
/-!
# C118: the seconds of a time

"`SecondsWithFraction` is the number of seconds since 1970 of the time, with nanosecond precision in the years 1679 to 2261 and microsecond precision in all
other years.  Equal times have equal seconds, later times have no fewer.  A time that is converted to a float and back is the time, to that precision, and
converting to an integer gives the same whether or not it is first converted to a float."

The precision is that of a `float64`, which is less than documented; for it there are bounds.  All theorems are for every rounding to a nearest `float64`.
-/
set_option autoImplicit false
namespace Verif.Time
variable {fl : ℚ → ℚ}

/-- There is a rounding as the theorems assume. -/
example : Nearest f64 := f64_nearest

/-- **C118, the calendar**: the year of `s` is the year in which `s` is, of the calendar in which 1970 begins at 0 and a year has 366 days if it can be divided
by 4, and not by 100 unless by 400. -/
theorem C118_year (s y : Int) :
    (yearStart (year s) ≤ s ∧ s < yearStart (year s + 1)) ∧ yearStart 1970 = 0 ∧
    yearStart (y + 1) - yearStart y = 86400 * if y % 4 = 0 ∧ (y % 100 ≠ 0 ∨ y % 400 = 0) then 366 else 365 := by
  refine ⟨year_spec s, by decide, ?_⟩
  unfold yearStart
  split <;> omega

example : year 1600000000 = 2020 ∧ year (-1) = 1969 ∧ year 951782400 = 2000 := by decide

/-- **C118, the years 1679 to 2261**: the seconds are right to 1.5 microseconds, if the zone is at most a day from Greenwich.
Missing: nanosecond precision (`C118_precision_violated`). -/
theorem C118_inner_partial (h : Nearest fl) {t : T} (w : t.WF) (ho : |t.off| ≤ 86400) (h1 : 1679 ≤ year (t.sec + t.off))
    (h2 : year (t.sec + t.off) ≤ 2261) : |seconds fl t - t.exact| ≤ 3 / 2000000 := by
  obtain ⟨i1, i2⟩ := (inner_iff (t.sec + t.off)).1 ⟨by omega, by omega⟩
  have := w.nonneg; have := w.lt
  have ho' := abs_le.1 ho
  have hb : |(t.nanos : ℚ)| ≤ 9214733800000000000 := by
    have : |t.nanos| ≤ 9214733800000000000 := by unfold T.nanos; rw [abs_le]; constructor <;> omega
    exact_mod_cast this
  rw [seconds, fraction_inner w ho i1 i2]
  have := two_roundings h (n := t.nanos) (d := 1000000000) (e := 10) (e' := -19) (by norm_num) (by norm_num; linarith) (by norm_num; linarith)
  push_cast
  rw [nanos_exact] at this
  norm_num at this ⊢
  linarith

example : (⟨1600000000, 999999999, 3600⟩ : T).WF ∧ year (1600000000 + 3600) = 2020 := ⟨⟨by decide, by decide⟩, by decide⟩

/-- **C118, other years**: for years from -6000 to 10000 the seconds are right to 33 microseconds.
Missing: microsecond precision, which 53 bits do not have in most of these years; years in which the microseconds are more than 64 bits
(`C118_far_violated`). -/
theorem C118_outer_partial (h : Nearest fl) {t : T} (w : t.WF) (hs : |t.sec| ≤ 260000000000)
    (ho : ¬ (1679 ≤ year (t.sec + t.off) ∧ year (t.sec + t.off) ≤ 2261)) : |seconds fl t - t.exact| ≤ 33 / 1000000 := by
  have ho' : ¬ (-9183024000 ≤ t.sec + t.off ∧ t.sec + t.off < 9214646400) := fun c => ho (by have := (inner_iff _).2 c; omega)
  have := w.nonneg; have := w.lt
  have hs' := abs_le.1 hs
  have hb : |((t.nanos / 1000 : Int) : ℚ)| ≤ 260000001000000000 := by
    have : |t.nanos / 1000| ≤ 260000001000000000 := by unfold T.nanos; rw [abs_le]; constructor <;> omega
    exact_mod_cast this
  rw [seconds, fraction_outer w hs ho']
  have h1 := two_roundings h (n := ((t.nanos / 1000 : Int) : ℚ)) (d := 1000000) (e := 5) (e' := -15) (by norm_num) (by norm_num at hb ⊢; linarith)
    (by norm_num at hb ⊢; linarith)
  have h2 : |((t.nanos / 1000 : Int) : ℚ) / 1000000 - t.exact| ≤ 1 / 1000000 := by
    rw [← nanos_exact]
    have a1 : (t.nanos / 1000) * 1000 ≤ t.nanos := by omega
    have a2 : t.nanos ≤ (t.nanos / 1000) * 1000 + 1000 := by omega
    have a1 : ((t.nanos / 1000 : Int) : ℚ) * 1000 ≤ t.nanos := by exact_mod_cast a1
    have a2 : (t.nanos : ℚ) ≤ ((t.nanos / 1000 : Int) : ℚ) * 1000 + 1000 := by exact_mod_cast a2
    rw [abs_le]; constructor <;> linarith
  have h3 := abs_sub_add_le h1 h2
  push_cast at h3 ⊢
  norm_num at h3 ⊢
  linarith

example : year 253402300799 = 9999 ∧ year (-62135596800) = 1 := by decide

/-- **C118, order**: of two times in one zone that is whole minutes from Greenwich, the later one has no fewer seconds, in whatever years they are.
Missing: times in different zones (`C118_equal_violated`). -/
theorem C118_order_partial (h : Nearest fl) {t u : T} (wt : t.WF) (wu : u.WF) (ht : |t.sec| ≤ 260000000000) (hu : |u.sec| ≤ 260000000000)
    (hz : t.off = u.off) (ho : |t.off| ≤ 86400) (hm : t.off % 60 = 0) (hle : t.nanos ≤ u.nanos) : seconds fl t ≤ seconds fl u := by
  have ho' := abs_le.1 ho
  have := wt.nonneg; have := wt.lt; have := wu.nonneg; have := wu.lt
  have hsec : t.sec ≤ u.sec := by unfold T.nanos at hle; omega
  -- a whole second at which the years begin is a number with 53 bits, in all units
  have whole : ∀ B : Int, B % 2 = 0 → |B| ≤ 9214746400 → IsF64 (((B * 1000000000 : Int) : ℚ)) ∧ IsF64 (((B * 1000000 : Int) : ℚ)) := by
    intro B hB hb
    obtain ⟨c, rfl⟩ : ∃ c, B = 2 * c := ⟨B / 2, by omega⟩
    rw [abs_le] at hb
    constructor
    · have e : (((2 * c * 1000000000 : Int)) : ℚ) = ((c * 1953125 : Int) : ℚ) * 2 ^ (10 : Int) := by push_cast; ring
      rw [e]; exact isF64_mul _ _ (by rw [abs_le]; constructor <;> omega)
    · have e : (((2 * c * 1000000 : Int)) : ℚ) = ((c * 15625 : Int) : ℚ) * 2 ^ (7 : Int) := by push_cast; ring
      rw [e]; exact isF64_mul _ _ (by rw [abs_le]; constructor <;> omega)
  by_cases it : -9183024000 ≤ t.sec + t.off ∧ t.sec + t.off < 9214646400 <;>
    by_cases iu : -9183024000 ≤ u.sec + u.off ∧ u.sec + u.off < 9214646400
  · rw [seconds, seconds, fraction_inner wt ho it.1 it.2, fraction_inner wu (hz ▸ ho) iu.1 iu.2]
    refine h.mono (div_le_div_of_nonneg_right (h.mono ?_) (by norm_num))
    exact_mod_cast hle
  · obtain ⟨f1, f2⟩ := whole (9214646400 - t.off) (by omega) (by rw [abs_le]; constructor <;> omega)
    rw [seconds, seconds, fraction_inner wt ho it.1 it.2, fraction_outer wu hu iu]
    have a1 : fl (t.nanos : ℚ) ≤ ((9214646400 - t.off) * 1000000000 : Int) := by
      rw [← h.exact f1]; refine h.mono ?_
      have : t.nanos ≤ (9214646400 - t.off) * 1000000000 := by unfold T.nanos; omega
      exact_mod_cast this
    have a2 : (((9214646400 - t.off) * 1000000 : Int) : ℚ) ≤ fl ((u.nanos / 1000 : Int) : ℚ) := by
      rw [← h.exact f2]; refine h.mono ?_
      have : (9214646400 - t.off) * 1000000 ≤ u.nanos / 1000 := by unfold T.nanos; omega
      exact_mod_cast this
    refine h.mono ?_
    push_cast at a1 a2 ⊢
    linarith
  · obtain ⟨f1, f2⟩ := whole (-9183024000 - t.off) (by omega) (by rw [abs_le]; constructor <;> omega)
    rw [seconds, seconds, fraction_outer wt ht it, fraction_inner wu (hz ▸ ho) iu.1 iu.2]
    have a1 : fl ((t.nanos / 1000 : Int) : ℚ) ≤ ((-9183024000 - t.off) * 1000000 : Int) := by
      rw [← h.exact f2]; refine h.mono ?_
      have : t.nanos / 1000 ≤ (-9183024000 - t.off) * 1000000 := by unfold T.nanos; omega
      exact_mod_cast this
    have a2 : (((-9183024000 - t.off) * 1000000000 : Int) : ℚ) ≤ fl (u.nanos : ℚ) := by
      rw [← h.exact f1]; refine h.mono ?_
      have : (-9183024000 - t.off) * 1000000000 ≤ u.nanos := by unfold T.nanos; omega
      exact_mod_cast this
    refine h.mono ?_
    push_cast at a1 a2 ⊢
    linarith
  · rw [seconds, seconds, fraction_outer wt ht it, fraction_outer wu hu iu]
    refine h.mono (div_le_div_of_nonneg_right (h.mono ?_) (by norm_num))
    have : t.nanos / 1000 ≤ u.nanos / 1000 := by omega
    exact_mod_cast this

example : (⟨9214646399, 999999999, 0⟩ : T).nanos ≤ (⟨9214646400, 0, 0⟩ : T).nanos ∧ year 9214646399 = 2261 ∧ year 9214646400 = 2262 := by decide

/-- **C118, whole seconds**: until the year 2116 a time without a fraction has exactly its seconds, is the same time after it has been converted to a float and
back, and is the same integer as that float.
Missing: later times (`C118_whole_violated`). -/
theorem C118_whole_partial (h : Nearest fl) {t : T} (w : t.WF) (ho : |t.off| ≤ 86400) (h0 : t.nsec = 0) (hs : |t.sec| ≤ 4611686018) (zone : Int) :
    seconds fl t = t.exact ∧ (timeOfFloat fl zone (seconds fl t)).equals t = true ∧ intOfFloat (seconds fl t) = intOfTime t := by
  have e := seconds_whole h w ho h0 hs
  refine ⟨by rw [e, T.exact, h0]; simp, ?_, by rw [e, intOfFloat, trunc_int]; rfl⟩
  rw [e, timeOfFloat, trunc_int]
  have z : fl (((t.sec : ℚ) - t.sec) * 1000000000) = 0 := by
    rw [sub_self, zero_mul]; exact h.exact ⟨0, 0, by norm_num, by simp⟩
  rw [z]
  simp [unix, trunc, T.equals, h0]

example : year 4611686018 = 2116 ∧ (⟨4611686018, 0, 0⟩ : T).WF := ⟨by decide, ⟨by decide, by decide⟩⟩

/-- **C118, back again**: in the years 1679 to 2261 a time that is converted to a float and back is the time to 1501 nanoseconds.
Missing: the time itself (`C118_whole_violated`). -/
theorem C118_back_partial (h : Nearest fl) {t : T} (w : t.WF) (ho : |t.off| ≤ 86400) (h1 : 1679 ≤ year (t.sec + t.off))
    (h2 : year (t.sec + t.off) ≤ 2261) (zone : Int) :
    (timeOfFloat fl zone (seconds fl t)).WF ∧ |(timeOfFloat fl zone (seconds fl t)).nanos - t.nanos| ≤ 1501 := by
  refine ⟨(unix_nanos _ _ _).2, ?_⟩
  have a := C118_inner_partial h w ho h1 h2
  have b := back_error h zone (seconds fl t)
  rw [← nanos_exact] at a
  have c : |((timeOfFloat fl zone (seconds fl t)).nanos : ℚ) - t.nanos| < 1502 := by
    rw [abs_lt] at b ⊢
    rw [abs_le] at a
    constructor <;> linarith [a.1, a.2, b.1, b.2]
  have c' : |(timeOfFloat fl zone (seconds fl t)).nanos - t.nanos| < 1502 := by exact_mod_cast c
  omega

/-- **C118, integers**: a time as an integer is its seconds rounded down; the time of an integer is
that many seconds, and the integer is the same after it has been a time. -/
theorem C118_int {t : T} (w : t.WF) (zone i : Int) : intOfTime t = ⌊t.exact⌋ ∧ intOfTime (timeOfInt zone i) = i ∧ (timeOfInt zone i).WF ∧
    (timeOfInt zone i).exact = i := by
  refine ⟨?_, by simp [intOfTime, timeOfInt, unix], (unix_nanos _ _ _).2, by simp [T.exact, timeOfInt, unix]⟩
  symm
  rw [Int.floor_eq_iff]
  have h1 : (0 : ℚ) ≤ t.nsec := by exact_mod_cast w.nonneg
  have h2 : (t.nsec : ℚ) < 1000000000 := by exact_mod_cast w.lt
  unfold intOfTime T.exact
  constructor <;> linarith

example : intOfTime ⟨-1, 500000000, 0⟩ = -1 ∧ (⟨-1, 500000000, 0⟩ : T).WF := ⟨rfl, ⟨by decide, by decide⟩⟩

/-- **The claim is false**: two times in the year 2020 that are 100 nanoseconds apart have the same seconds, however floats are rounded. -/
theorem C118_precision_violated : ∃ t u : T, t.WF ∧ u.WF ∧ t.off = 0 ∧ u.off = 0 ∧ year t.sec = 2020 ∧ year u.sec = 2020 ∧
    u.nanos = t.nanos + 100 ∧ ∀ fl, Nearest fl → seconds fl t = seconds fl u := by
  refine ⟨⟨1600000000, 0, 0⟩, ⟨1600000000, 100, 0⟩, ⟨by decide, by decide⟩, ⟨by decide, by decide⟩, rfl, rfl, by decide, by decide, by decide, ?_⟩
  intro fl h
  have e1 : fraction ⟨1600000000, 0, 0⟩ = (1600000000000000000, 1000000000) := by decide
  have e2 : fraction ⟨1600000000, 100, 0⟩ = (1600000000000000100, 1000000000) := by decide
  have f1 : IsF64 (1600000000000000000 : ℚ) := ⟨6250000000000000, 8, by decide, by norm_num⟩
  have n2 := h.near 1600000000000000100 1600000000000000000 f1
  have g : fl 1600000000000000100 = 1600000000000000000 := by
    norm_num at n2
    rw [abs_le] at n2
    rcases isF64_large (h.mem 1600000000000000100) 8 with hs | ⟨z, hz⟩
    · have := le_abs_self (fl 1600000000000000100)
      norm_num at hs
      linarith [n2.1, n2.2]
    · rw [hz] at n2 ⊢
      norm_num at n2 ⊢
      have a1 : (z : ℚ) * 256 ≤ 1600000000000000200 := by linarith [n2.1]
      have a2 : (1600000000000000000 : ℚ) ≤ z * 256 := by linarith [n2.2]
      have a1 : z * 256 ≤ 1600000000000000200 := by exact_mod_cast a1
      have a2 : 1600000000000000000 ≤ z * 256 := by exact_mod_cast a2
      have : z = 6250000000000000 := by omega
      rw [this]; norm_num
  rw [seconds, seconds, e1, e2]
  push_cast
  rw [g, h.exact f1]

/-- **The claim is false**: in zones of different years one instant has different seconds, however floats are rounded. -/
theorem C118_equal_violated : ∃ t u : T, t.WF ∧ u.WF ∧ t.off = 0 ∧ u.off = 3600 ∧ t.equals u = true ∧
    ∀ fl, Nearest fl → seconds fl t ≠ seconds fl u := by
  refine ⟨⟨9214642800, 999, 0⟩, ⟨9214642800, 999, 3600⟩, ⟨by decide, by decide⟩, ⟨by decide, by decide⟩, rfl, rfl, by decide, ?_⟩
  intro fl h
  have e1 : fraction ⟨9214642800, 999, 0⟩ = (9214642800000000999, 1000000000) := by decide
  have e2 : fraction ⟨9214642800, 999, 3600⟩ = (9214642800000000, 1000000) := by decide
  have fu : IsF64 (9214642800000000 : ℚ) := ⟨4607321400000000, 1, by decide, by norm_num⟩
  have fs : IsF64 (9214642800 : ℚ) := ⟨9214642800, 0, by decide, by norm_num⟩
  have ft : IsF64 (9214642800000001024 : ℚ) := ⟨8998674609375001, 10, by decide, by norm_num⟩
  have g : fl 9214642800000000999 = 9214642800000001024 := by
    have n2 := h.near 9214642800000000999 _ ft
    norm_num at n2
    rw [abs_le] at n2
    rcases isF64_large (h.mem 9214642800000000999) 10 with hs | ⟨z, hz⟩
    · have := le_abs_self (fl 9214642800000000999)
      norm_num at hs
      linarith [n2.1, n2.2]
    · rw [hz] at n2 ⊢
      norm_num at n2 ⊢
      have a1 : (z : ℚ) * 1024 ≤ 9214642800000001024 := by linarith [n2.1]
      have a2 : (9214642800000000974 : ℚ) ≤ z * 1024 := by linarith [n2.2]
      have a1 : z * 1024 ≤ 9214642800000001024 := by exact_mod_cast a1
      have a2 : 9214642800000000974 ≤ z * 1024 := by exact_mod_cast a2
      have : z = 8998674609375001 := by omega
      rw [this]; norm_num
  rw [seconds, seconds, e1, e2]
  push_cast
  rw [g, h.exact fu]
  have e3 : (9214642800000000 : ℚ) / 1000000 = 9214642800 := by norm_num
  rw [e3, h.exact fs]
  intro c
  have n3 := h.near (9214642800000001024 / 1000000000) (9214642800 + 1 / 524288) ⟨9214642800 * 524288 + 1, -19, by decide, by norm_num⟩
  rw [c] at n3
  norm_num [abs_of_pos, abs_of_neg] at n3

/-- **The claim is false**: a whole second in the year 2116 does not have exactly its seconds, however floats are rounded. -/
theorem C118_whole_violated : ∃ t : T, t.WF ∧ t.off = 0 ∧ t.nsec = 0 ∧ year t.sec = 2116 ∧ ∀ fl, Nearest fl → seconds fl t ≠ t.exact := by
  refine ⟨⟨4611686019, 0, 0⟩, ⟨by decide, by decide⟩, rfl, rfl, by decide, ?_⟩
  intro fl h
  have e1 : fraction ⟨4611686019, 0, 0⟩ = (4611686019000000000, 1000000000) := by decide
  have g : 512 ≤ |(4611686019000000000 : ℚ) - fl 4611686019000000000| := by
    by_contra hc
    push Not at hc
    rw [abs_lt] at hc
    rcases isF64_large (h.mem 4611686019000000000) 10 with hs | ⟨z, hz⟩
    · have := le_abs_self (fl 4611686019000000000)
      norm_num at hs
      linarith [hc.1, hc.2]
    · rw [hz] at hc
      norm_num at hc
      have a1 : (z : ℚ) * 1024 < 4611686019000000512 := by linarith [hc.1]
      have a2 : (4611686018999999488 : ℚ) < z * 1024 := by linarith [hc.2]
      have a1 : z * 1024 < 4611686019000000512 := by exact_mod_cast a1
      have a2 : 4611686018999999488 < z * 1024 := by exact_mod_cast a2
      omega
  have g' := h.near 4611686019000000000 4611686019000000512 ⟨4503599627929688, 10, by decide, by norm_num⟩
  have g'' : |(4611686019000000000 : ℚ) - 4611686019000000512| = 512 := by norm_num
  rw [g''] at g'
  rw [seconds, e1, T.exact]
  push_cast
  intro c
  norm_num at c
  have k := h.near (fl 4611686019000000000 / 1000000000)
  rw [c] at k
  have k1 := k (4611686019 + 1 / 1048576) ⟨4611686019 * 1048576 + 1, -20, by decide, by norm_num⟩
  have k2 := k (4611686019 - 1 / 1048576) ⟨4611686019 * 1048576 - 1, -20, by decide, by norm_num⟩
  rcases abs_cases ((4611686019000000000 : ℚ) - fl 4611686019000000000) with ⟨a, _⟩ | ⟨a, _⟩
  · rw [a] at g g'
    have e : fl 4611686019000000000 = 4611686018999999488 := by linarith
    rw [e] at k2
    norm_num [abs_of_pos, abs_of_neg] at k2
  · rw [a] at g g'
    have e : fl 4611686019000000000 = 4611686019000000512 := by linarith
    rw [e] at k1
    norm_num [abs_of_pos, abs_of_neg] at k1

/-- **The claim is false**: the seconds of a time after 1970 are negative, however floats are rounded, once its microseconds have more than 64 bits. -/
theorem C118_far_violated : ∃ t : T, t.WF ∧ year (t.sec + t.off) = 294247 ∧ 0 < t.exact ∧ ∀ fl, Nearest fl → seconds fl t < 0 := by
  refine ⟨⟨9223372036855, 0, 0⟩, ⟨by decide, by decide⟩, by decide, by norm_num [T.exact], ?_⟩
  intro fl h
  have e1 : fraction ⟨9223372036855, 0, 0⟩ = (-9223372036854551616, 1000000) := by decide
  rw [seconds, e1]
  have f1 : IsF64 (-1000000 : ℚ) := ⟨-1000000, 0, by decide, by norm_num⟩
  have f2 : IsF64 (-1 : ℚ) := ⟨-1, 0, by decide, by norm_num⟩
  have a1 : fl (-9223372036854551616) ≤ -1000000 := by rw [← h.exact f1]; exact h.mono (by norm_num)
  have a2 : fl (fl (-9223372036854551616) / 1000000) ≤ -1 := by
    conv_rhs => rw [← h.exact f2]
    refine h.mono ?_
    linarith
  push_cast
  linarith

/-- **The claim is false**: half a second before 1970 is the integer -1, and as a float it is the integer 0. -/
theorem C118_int_violated : ∃ t : T, t.WF ∧ t.off = 0 ∧ intOfTime t = -1 ∧ ∀ fl, Nearest fl → seconds fl t = t.exact ∧ intOfFloat (seconds fl t) = 0 := by
  refine ⟨⟨-1, 500000000, 0⟩, ⟨by decide, by decide⟩, rfl, rfl, ?_⟩
  intro fl h
  have e1 : fraction ⟨-1, 500000000, 0⟩ = (-500000000, 1000000000) := by decide
  have f1 : IsF64 (-500000000 : ℚ) := ⟨-500000000, 0, by decide, by norm_num⟩
  have f2 : IsF64 (-1 / 2 : ℚ) := ⟨-1, -1, by decide, by norm_num⟩
  have s : seconds fl ⟨-1, 500000000, 0⟩ = -1 / 2 := by
    rw [seconds, e1]
    push_cast
    rw [h.exact f1]
    have : (-500000000 : ℚ) / 1000000000 = -1 / 2 := by norm_num
    rw [this, h.exact f2]
  rw [s]
  refine ⟨by norm_num [T.exact], ?_⟩
  unfold intOfFloat trunc
  rw [if_neg (by norm_num)]
  rw [Int.ceil_eq_iff]; norm_num

end Verif.Time
