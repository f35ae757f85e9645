import Verif.Time.TextSound
/-!
# C119: the text of a time is read back as the time

"`TimeFromString` (and so `vf.New(typ.Time, s)` and the decoder of streams) reads the `String` of a time as an equal time in a zone with the same offset."

It does so for years of four digits and zones that are whole minutes from Greenwich; other years panic, and other zones give another time.
-/
set_option autoImplicit false
namespace Verif.Time

/-- **C119, in general**: the text of a time in a year of four digits is read as a time with the same clock in a zone that is whole minutes from Greenwich: that
of the time, without the seconds. -/
theorem C119_read {t : T} (w : t.WF) (ho : |t.off| < 86400) (h1 : 0 ≤ year (t.sec + t.off)) (h2 : year (t.sec + t.off) ≤ 9999) :
    ∃ u, parse (format t) = some u ∧ u.WF ∧ u.sec + u.off = t.sec + t.off ∧ u.nsec = t.nsec ∧ u.off % 60 = 0 ∧ |t.off - u.off| < 60 ∧
      |u.off| ≤ |t.off| := by
  refine ⟨_, parse_format w ho h1 h2, ⟨w.nonneg, w.lt⟩, by simp only; omega, rfl, by simp only; omega, ?_, ?_⟩
  · simp only; rw [tdiv60, abs_lt]; split <;> omega
  · simp only; rw [tdiv60]; rcases abs_cases t.off with ⟨e, _⟩ | ⟨e, _⟩ <;> rw [e, abs_le] <;> split <;> omega

/-- **C119, whole minutes**: if the zone is whole minutes from Greenwich, the very time is read.
Missing: other zones (`C119_zone_violated`) and other years (`C119_year_violated`). -/
theorem C119_back_partial {t : T} (w : t.WF) (ho : |t.off| < 86400) (hm : t.off % 60 = 0) (h1 : 0 ≤ year (t.sec + t.off))
    (h2 : year (t.sec + t.off) ≤ 9999) : parse (format t) = some t := by
  rw [parse_format w ho h1 h2]
  have : 60 * t.off.tdiv 60 = t.off := by rw [tdiv60]; split <;> omega
  rw [this, show t.sec + t.off - t.off = t.sec by omega]

example : (⟨1600000000, 120000000, -19800⟩ : T).WF ∧ (-19800 : Int) % 60 = 0 ∧ year (1600000000 - 19800) = 2020 :=
  ⟨⟨by decide, by decide⟩, by decide, by decide⟩

/-- The text of this time is `2020-09-13T06:56:40.12-05:30`. -/
example : format ⟨1600000000, 120000000, -19800⟩ =
    [50, 48, 50, 48, 45, 48, 57, 45, 49, 51, 84, 48, 54, 58, 53, 54, 58, 52, 48, 46, 49, 50, 45, 48, 53, 58, 51, 48] := by
  have : width 2020 = 4 := width_small (by decide)
  have y : year (1600000000 + -19800) = 2020 := by decide
  simp only [format, formatYear, y]
  rw [show (2020 : Int).natAbs = 2020 by decide, this]
  decide

/-- **C119, texts tell times apart**: two such times with the same text are the same instant in the same zone. -/
theorem C119_text {t u : T} (wt : t.WF) (wu : u.WF) (ht : |t.off| < 86400) (hu : |u.off| < 86400) (mt : t.off % 60 = 0) (mu : u.off % 60 = 0)
    (ht1 : 0 ≤ year (t.sec + t.off)) (ht2 : year (t.sec + t.off) ≤ 9999) (hu1 : 0 ≤ year (u.sec + u.off)) (hu2 : year (u.sec + u.off) ≤ 9999)
    (h : format t = format u) : t = u := by
  have e := C119_back_partial wt ht mt ht1 ht2
  rw [h, C119_back_partial wu hu mu hu1 hu2] at e
  exact (Option.some.inj e).symm

/-- **C119, what is accepted**: of every text that is read, the first 19 characters, which are the date and the clock, are those of the text of the time that it
is read as; so there are no dates that are not in the calendar.  The time is in a year of four digits and in a zone that is whole minutes from Greenwich. -/
theorem C119_accepts {s : List Nat} {t : T} (h : parse s = some t) :
    s.take 19 = (format t).take 19 ∧ 19 ≤ s.length ∧ t.WF ∧ 0 ≤ year (t.sec + t.off) ∧ year (t.sec + t.off) ≤ 9999 ∧ t.off % 60 = 0 ∧ |t.off| ≤ 90000 := by
  obtain ⟨y, mo, d, hh, mi, se, r, rfl, hf, hy, hy', w, ho⟩ := parse_sound h
  have hl := clock_length y mo d hh mi se
  refine ⟨?_, by rw [List.length_append, hl]; omega, w, by omega, by omega, ho⟩
  rw [hf, List.take_append_of_le_length (by omega), List.take_append_of_le_length (by omega)]

/-- `2021-02-28T00:00:00Z` is read, `2021-02-29T00:00:00Z` is not. -/
example : (parse [50, 48, 50, 49, 45, 48, 50, 45, 50, 56, 84, 48, 48, 58, 48, 48, 58, 48, 48, 90]).isSome = true ∧
    parse [50, 48, 50, 49, 45, 48, 50, 45, 50, 57, 84, 48, 48, 58, 48, 48, 58, 48, 48, 90] = none := by decide

/-- **The claim is false** for every time in a zone that is not whole minutes from Greenwich: what is read is another instant, later by the seconds of the
offset that the text does not show. -/
theorem C119_zone_violated {t : T} (w : t.WF) (ho : |t.off| < 86400) (hm : t.off % 60 ≠ 0) (h1 : 0 ≤ year (t.sec + t.off))
    (h2 : year (t.sec + t.off) ≤ 9999) : ∃ u, parse (format t) = some u ∧ u.equals t = false ∧ u.nanos - t.nanos = (t.off - u.off) * 1000000000 := by
  refine ⟨_, parse_format w ho h1 h2, ?_, by unfold T.nanos; simp only; omega⟩
  have : t.off - 60 * t.off.tdiv 60 ≠ 0 := by rw [tdiv60]; split <;> omega
  simp only [T.equals, Bool.and_eq_false_iff, beq_eq_false_iff_ne]
  left; omega

/-- Amsterdam before 1937 was 1172 seconds east of Greenwich. -/
example : (⟨-2000000000, 0, 1172⟩ : T).WF ∧ (1172 : Int) % 60 ≠ 0 ∧ year (-2000000000 + 1172) = 1906 := ⟨⟨by decide, by decide⟩, by decide, by decide⟩

/-- **The claim is false** for every time before the year 0 or after the year 9999: `TimeFromString` panics. -/
theorem C119_year_violated {t : T} (h : year (t.sec + t.off) < 0 ∨ 9999 < year (t.sec + t.off)) : parse (format t) = none :=
  h.elim parse_year_small parse_year_large

example : year 253402300800 = 10000 ∧ year (-62167219201) = -1 := by decide

end Verif.Time
