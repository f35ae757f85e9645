import Mathlib.Data.Rat.Floor
import Mathlib.Algebra.Order.Round
import Mathlib.Data.Int.Log
import Mathlib.Tactic.Linarith
import Mathlib.Tactic.NormNum
import Mathlib.Tactic.Ring
import Mathlib.Tactic.FieldSimp
/-!
# Rounding to 53 significant bits

The specification of the rounding of `float64`, and what follows from it for every rule for ties.
-/
set_option autoImplicit false
namespace Verif.Time

/-- A number with 53 significant bits -/
def IsF64 (q : ℚ) : Prop := ∃ m e : Int, |m| ≤ 2 ^ 53 ∧ q = m * 2 ^ e

/-- A rounding to a nearest one, whatever is done with ties -/
structure Nearest (fl : ℚ → ℚ) : Prop where
  mem : ∀ q, IsF64 (fl q)
  near : ∀ q f, IsF64 f → |q - fl q| ≤ |q - f|

variable {fl : ℚ → ℚ}

theorem Nearest.exact (h : Nearest fl) {q : ℚ} (hq : IsF64 q) : fl q = q := by
  have := h.near q q hq
  rw [sub_self, abs_zero] at this
  have := abs_eq_zero.1 (le_antisymm this (abs_nonneg _))
  linarith

theorem Nearest.mono (h : Nearest fl) {p q : ℚ} (hpq : p ≤ q) : fl p ≤ fl q := by
  rcases eq_or_lt_of_le hpq with rfl | hlt
  · exact le_refl _
  by_contra hc
  push Not at hc
  have h1 := h.near p (fl q) (h.mem q)
  have h2 := h.near q (fl p) (h.mem p)
  rcases abs_cases (p - fl p) with ⟨e1, _⟩ | ⟨e1, _⟩ <;> rcases abs_cases (p - fl q) with ⟨e2, _⟩ | ⟨e2, _⟩ <;>
    rcases abs_cases (q - fl p) with ⟨e3, _⟩ | ⟨e3, _⟩ <;> rcases abs_cases (q - fl q) with ⟨e4, _⟩ | ⟨e4, _⟩ <;> linarith

/-- A multiple of a power of two that is not too large -/
theorem isF64_mul (m e : Int) (h : |m| ≤ 2 ^ 53) : IsF64 ((m : ℚ) * 2 ^ e) := ⟨m, e, h, rfl⟩

theorem isF64_int {n : Int} (h : |n| ≤ 2 ^ 53) : IsF64 (n : ℚ) := ⟨n, 0, h, by simp⟩

/-- Up to `2^53 * 2^e` a rounded number is off by at most half of `2^e`. -/
theorem Nearest.error (h : Nearest fl) {q : ℚ} {e : Int} (hq : |q| ≤ 2 ^ 53 * 2 ^ e) : |q - fl q| ≤ 2 ^ e / 2 := by
  have he : (0 : ℚ) < 2 ^ e := zpow_pos (by norm_num) _
  have hr := abs_sub_round (q / 2 ^ e)
  have hm : |round (q / 2 ^ e)| ≤ 2 ^ 53 := by
    have h1 : |q / 2 ^ e| ≤ 2 ^ 53 := by rw [abs_div, abs_of_pos he, div_le_iff₀ he]; exact hq
    rw [abs_le] at h1 ⊢
    constructor
    · have : ((-2 ^ 53 : Int) : ℚ) ≤ q / 2 ^ e := by push_cast; exact h1.1
      have h2 := abs_le.1 hr
      have : ((-2 ^ 53 : Int) : ℚ) - 1 < (round (q / 2 ^ e) : ℚ) := by linarith
      have : (-2 ^ 53 : Int) - 1 < round (q / 2 ^ e) := by exact_mod_cast this
      omega
    · have : q / 2 ^ e ≤ ((2 ^ 53 : Int) : ℚ) := by push_cast; exact h1.2
      have h2 := abs_le.1 hr
      have : (round (q / 2 ^ e) : ℚ) < ((2 ^ 53 : Int) : ℚ) + 1 := by linarith
      have : round (q / 2 ^ e) < (2 ^ 53 : Int) + 1 := by exact_mod_cast this
      omega
  refine (h.near q _ (isF64_mul _ e hm)).trans ?_
  have : q - round (q / 2 ^ e) * 2 ^ e = (q / 2 ^ e - round (q / 2 ^ e)) * 2 ^ e := by field_simp
  rw [this, abs_mul, abs_of_pos he]
  have := mul_le_mul_of_nonneg_right hr he.le
  linarith

/-- `float64` rounds to one of the two neighbours with 53 bits (here: by `round`). -/
noncomputable def f64 (q : ℚ) : ℚ := if q = 0 then 0 else round (q / 2 ^ (Int.log 2 |q| - 52)) * 2 ^ (Int.log 2 |q| - 52)

/-- There is such a rounding. -/
theorem f64_nearest : Nearest f64 := by
  have key : ∀ q : ℚ, q ≠ 0 → 2 ^ 52 * (2 : ℚ) ^ (Int.log 2 |q| - 52) ≤ |q| ∧ |q| < 2 ^ 53 * (2 : ℚ) ^ (Int.log 2 |q| - 52) := by
    intro q hq
    have hp : 0 < |q| := abs_pos.2 hq
    have h1 := Int.zpow_log_le_self (b := 2) (by norm_num) hp
    have h2 := Int.lt_zpow_succ_log_self (b := 2) (by norm_num) |q|
    push_cast at h1 h2
    have e1 : (2 : ℚ) ^ Int.log 2 |q| = 2 ^ 52 * (2 : ℚ) ^ (Int.log 2 |q| - 52) := by
      rw [← zpow_natCast, ← zpow_add₀ (by norm_num)]; congr 1; push_cast; ring
    have e2 : (2 : ℚ) ^ (Int.log 2 |q| + 1) = 2 ^ 53 * (2 : ℚ) ^ (Int.log 2 |q| - 52) := by
      rw [← zpow_natCast, ← zpow_add₀ (by norm_num)]; congr 1; push_cast; ring
    rw [← e1, ← e2]; exact ⟨h1, h2⟩
  have hround : ∀ (x : ℚ) (N : Int), |x| ≤ N → |round x| ≤ N := by
    intro x N hx
    have hr := abs_le.1 (abs_sub_round x)
    rw [abs_le] at hx ⊢
    have h1 : (-N : ℚ) - 1 < round x := by linarith
    have h2 : (round x : ℚ) < N + 1 := by linarith
    have h1 : -N - 1 < round x := by exact_mod_cast h1
    have h2 : round x < N + 1 := by exact_mod_cast h2
    omega
  constructor
  · intro q
    unfold f64
    split
    · exact ⟨0, 0, by norm_num, by simp⟩
    · rename_i hq
      refine isF64_mul _ _ (hround _ _ ?_)
      have he : (0 : ℚ) < 2 ^ (Int.log 2 |q| - 52) := zpow_pos (by norm_num) _
      rw [abs_div, abs_of_pos he, div_le_iff₀ he]
      push_cast
      exact (key q hq).2.le
  · rintro q f ⟨m, e', hm, rfl⟩
    unfold f64
    split
    · rename_i hq; subst hq; simp [abs_nonneg, mul_nonneg]
    · rename_i hq
      obtain ⟨k1, k2⟩ := key q hq
      generalize Int.log 2 |q| - 52 = e at *
      have he : (0 : ℚ) < 2 ^ e := zpow_pos (by norm_num) _
      have best : ∀ z : Int, |q - round (q / 2 ^ e) * 2 ^ e| ≤ |q - z * 2 ^ e| := by
        intro z
        have h1 := round_le (q / 2 ^ e) z
        have e1 : q - round (q / 2 ^ e) * 2 ^ e = (q / 2 ^ e - round (q / 2 ^ e)) * 2 ^ e := by field_simp
        have e2 : q - z * 2 ^ e = (q / 2 ^ e - z) * 2 ^ e := by field_simp
        rw [e1, e2, abs_mul, abs_mul]
        exact mul_le_mul_of_nonneg_right h1 (abs_nonneg _)
      rcases le_or_gt e e' with hle | hlt
      · obtain ⟨d, rfl⟩ := Int.le.dest hle
        have := best (m * 2 ^ d)
        have e3 : (m : ℚ) * 2 ^ (e + (d : Int)) = ((m * 2 ^ d : Int) : ℚ) * 2 ^ e := by
          rw [zpow_add₀ (by norm_num)]; push_cast; rw [zpow_natCast]; ring
        rw [e3]; exact this
      · have hf : |(m : ℚ) * 2 ^ e'| ≤ 2 ^ 52 * 2 ^ e := by
          have e4 : (2 : ℚ) ^ 52 * 2 ^ e = 2 ^ 53 * 2 ^ (e - 1) := by
            rw [zpow_sub₀ (by norm_num)]; ring
          rw [e4, abs_mul, abs_of_pos (zpow_pos (by norm_num) _ : (0 : ℚ) < 2 ^ e')]
          have hm' : |(m : ℚ)| ≤ 2 ^ 53 := by exact_mod_cast hm
          have : (2 : ℚ) ^ e' ≤ 2 ^ (e - 1) := zpow_le_zpow_right₀ (by norm_num) (by omega)
          exact mul_le_mul hm' this (zpow_pos (by norm_num) _).le (by norm_num)
        rcases le_or_gt 0 q with hq0 | hq0
        · have := best (2 ^ 52)
          push_cast at this
          rw [abs_of_nonneg hq0] at k1
          refine this.trans ?_
          rw [abs_of_nonneg (by linarith), abs_of_nonneg (by linarith [le_abs_self ((m : ℚ) * 2 ^ e')])]
          linarith [le_abs_self ((m : ℚ) * 2 ^ e')]
        · have := best (-2 ^ 52)
          push_cast at this
          rw [abs_of_neg hq0] at k1
          refine this.trans ?_
          rw [abs_of_nonpos (by linarith), abs_of_nonpos (by linarith [neg_abs_le ((m : ℚ) * 2 ^ e')])]
          linarith [neg_abs_le ((m : ℚ) * 2 ^ e')]

end Verif.Time
