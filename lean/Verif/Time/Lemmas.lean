import Verif.Time.Model
import Verif.Time.Float
set_option autoImplicit false
namespace Verif.Time
variable {fl : ℚ → ℚ}

theorem year_spec (s : Int) : yearStart (year s) ≤ s ∧ s < yearStart (year s + 1) := by
  unfold year
  simp only
  split
  · rename_i h
    refine ⟨?_, by rw [sub_add_cancel]; exact h⟩
    unfold yearStart at *; omega
  · rename_i h
    split
    · rename_i h'
      refine ⟨h', ?_⟩
      unfold yearStart at *; omega
    · rename_i h'
      omega

theorem yearStart_lt {y z : Int} (h : y < z) : yearStart y < yearStart z := by unfold yearStart; omega

theorem le_year {s y : Int} : y ≤ year s ↔ yearStart y ≤ s := by
  obtain ⟨h1, h2⟩ := year_spec s
  constructor
  · intro h
    rcases eq_or_lt_of_le h with rfl | h
    · exact h1
    · have := yearStart_lt h; omega
  · intro h
    by_contra hc
    push Not at hc
    rcases eq_or_lt_of_le (show year s + 1 ≤ y by omega) with e | e
    · rw [e] at h2; omega
    · have := yearStart_lt e; omega

theorem ystart1679 : yearStart 1679 = -9183024000 := by decide
theorem ystart2262 : yearStart 2262 = 9214646400 := by decide

theorem inner_iff (s : Int) : (1678 < year s ∧ year s < 2262) ↔ -9183024000 ≤ s ∧ s < 9214646400 := by
  have h1 : 1678 < year s ↔ -9183024000 ≤ s := by rw [← ystart1679, ← le_year]; omega
  have h2 : year s < 2262 ↔ s < 9214646400 := by rw [← ystart2262, ← not_le, le_year]; omega
  rw [h1, h2]

theorem wrap_eq {n : Int} (h1 : -9223372036854775808 ≤ n) (h2 : n < 9223372036854775808) : wrap n = n := by unfold wrap; omega

theorem fraction_inner {t : T} (w : t.WF) (ho : |t.off| ≤ 86400) (h1 : -9183024000 ≤ t.sec + t.off) (h2 : t.sec + t.off < 9214646400) :
    fraction t = (t.nanos, 1000000000) := by
  have := w.nonneg; have := w.lt
  rw [abs_le] at ho
  rw [fraction, if_pos ((inner_iff _).2 ⟨h1, h2⟩), wrap_eq (by omega) (by omega)]; rfl

theorem fraction_outer {t : T} (w : t.WF) (hs : |t.sec| ≤ 260000000000) (h : ¬ (-9183024000 ≤ t.sec + t.off ∧ t.sec + t.off < 9214646400)) :
    fraction t = (t.nanos / 1000, 1000000) := by
  have := w.nonneg; have := w.lt
  rw [abs_le] at hs
  rw [fraction, if_neg (fun c => h ((inner_iff _).1 c)), wrap_eq (n := t.sec * 1000000) (by omega) (by omega), wrap_eq (by omega) (by omega)]
  unfold T.nanos
  congr 1
  omega

theorem nanos_exact (t : T) : (t.nanos : ℚ) / 1000000000 = t.exact := by
  unfold T.nanos T.exact; push_cast; ring

/-- Numbers with 53 bits that are large are multiples of a power of two. -/
theorem isF64_large {f : ℚ} (h : IsF64 f) (k : Int) : |f| ≤ 2 ^ 53 * 2 ^ (k - 1) ∨ ∃ z : Int, f = z * 2 ^ k := by
  obtain ⟨m, e, hm, rfl⟩ := h
  rcases le_or_gt k e with hle | hlt
  · right
    obtain ⟨d, rfl⟩ := Int.le.dest hle
    exact ⟨m * 2 ^ d, by rw [zpow_add₀ (by norm_num)]; push_cast; rw [zpow_natCast]; ring⟩
  · left
    rw [abs_mul, abs_of_pos (zpow_pos (by norm_num) _ : (0 : ℚ) < 2 ^ e)]
    have hm' : |(m : ℚ)| ≤ 2 ^ 53 := by exact_mod_cast hm
    exact mul_le_mul hm' (zpow_le_zpow_right₀ (by norm_num) (by omega)) (zpow_pos (by norm_num) _).le (by norm_num)

theorem abs_sub_add_le {a b c x y : ℚ} (h1 : |a - b| ≤ x) (h2 : |b - c| ≤ y) : |a - c| ≤ x + y := by
  rw [abs_le] at *; constructor <;> linarith [h1.1, h1.2, h2.1, h2.2]

/-- The error of the two roundings -/
theorem two_roundings (h : Nearest fl) {n d : ℚ} (hd : 0 < d) {e e' : Int} (hn : |n| ≤ 2 ^ 53 * 2 ^ e)
    (hq : (|n| + 2 ^ e / 2) / d ≤ 2 ^ 53 * 2 ^ e') : |fl (fl n / d) - n / d| ≤ 2 ^ e' / 2 + 2 ^ e / 2 / d := by
  have h1 := h.error hn
  have hfn : |fl n| ≤ |n| + 2 ^ e / 2 := by
    have := abs_sub_abs_le_abs_sub (fl n) n
    rw [abs_sub_comm] at this
    linarith
  have h2 : |fl n / d - fl (fl n / d)| ≤ 2 ^ e' / 2 := by
    refine h.error (le_trans ?_ hq)
    rw [abs_div, abs_of_pos hd]
    exact div_le_div_of_nonneg_right hfn hd.le
  have h3 : |fl n / d - n / d| ≤ 2 ^ e / 2 / d := by
    rw [← sub_div, abs_div, abs_of_pos hd, abs_sub_comm]
    exact div_le_div_of_nonneg_right h1 hd.le
  rw [abs_sub_comm] at h2
  exact abs_sub_add_le h2 h3

theorem trunc_sub (q : ℚ) : |q - trunc q| < 1 := by
  unfold trunc
  split
  · have := Int.floor_le q; have := Int.lt_floor_add_one q
    rw [abs_lt]; constructor <;> linarith
  · have := Int.le_ceil q; have := Int.ceil_lt_add_one q
    rw [abs_lt]; constructor <;> linarith

theorem unix_nanos (zone s n : Int) : (unix zone s n).nanos = s * 1000000000 + n ∧ (unix zone s n).WF := by
  unfold unix T.nanos
  exact ⟨by simp only; omega, ⟨by simp only; omega, by simp only; omega⟩⟩

theorem back_error (h : Nearest fl) (zone : Int) (q : ℚ) : |((timeOfFloat fl zone q).nanos : ℚ) - q * 1000000000| < 1 + 1 / 1000000 := by
  have h1 := trunc_sub q
  have h2 := trunc_sub (fl ((q - trunc q) * 1000000000))
  have h3 : |(q - trunc q) * 1000000000 - fl ((q - trunc q) * 1000000000)| ≤ 2 ^ (-23 : Int) / 2 := by
    refine h.error ?_
    rw [abs_mul]
    norm_num
    linarith
  rw [timeOfFloat, (unix_nanos _ _ _).1]
  push_cast
  rw [abs_lt] at *
  rw [abs_le] at h3
  norm_num at h3
  constructor <;> linarith [h1.1, h1.2, h2.1, h2.2, h3.1, h3.2]

theorem trunc_int (n : Int) : trunc (n : ℚ) = n := by
  unfold trunc; split <;> simp

theorem seconds_whole (h : Nearest fl) {t : T} (w : t.WF) (ho : |t.off| ≤ 86400) (h0 : t.nsec = 0) (hs : |t.sec| ≤ 4611686018) :
    seconds fl t = t.sec := by
  rw [abs_le] at hs
  have ho' := abs_le.1 ho
  rw [seconds, fraction_inner w ho (by omega) (by omega)]
  have hn : ((t.nanos : Int) : ℚ) = ((t.sec * 1953125 : Int) : ℚ) * 2 ^ (9 : Int) := by
    unfold T.nanos; rw [h0]; push_cast; norm_num; ring
  have h1 : IsF64 ((t.nanos : Int) : ℚ) := by
    rw [hn]; exact isF64_mul _ _ (by rw [abs_le]; constructor <;> omega)
  simp only
  rw [h.exact h1]
  have e : ((t.nanos : Int) : ℚ) / (1000000000 : Int) = t.sec := by
    unfold T.nanos; rw [h0]; push_cast; field_simp; ring
  rw [e]
  exact h.exact (isF64_int (by rw [abs_le]; constructor <;> omega))

end Verif.Time
