import Verif.Types.NumSpec
import Mathlib.Order.Monotone.Basic
/-!
# Floats and integers: lemmas
-/
set_option autoImplicit false
set_option linter.unusedVariables false
set_option linter.unusedSimpArgs false
namespace Verif.Types
open Verif.Value

theorem magUnits_norm {e fr : Nat} (he : e ≠ 0) (hf : fr < 2 ^ 52) : magUnits (e * 2 ^ 52 + fr) = (2 ^ 52 + fr) * 2 ^ (e - 1) := by
  unfold magUnits
  have h1 : (e * 2 ^ 52 + fr) / 2 ^ 52 = e := by omega
  have h2 : (e * 2 ^ 52 + fr) % 2 ^ 52 = fr := by omega
  rw [h1, h2, if_neg he]

theorem magUnits_sub {fr : Nat} (hf : fr < 2 ^ 52) : magUnits fr = fr := by
  unfold magUnits
  rw [if_pos (by omega)]
  omega

theorem magUnits_zero : magUnits 0 = 0 := magUnits_sub (by omega)

theorem magUnits_step (m : Nat) : magUnits m < magUnits (m + 1) := by
  obtain ⟨e, fr, hf, rfl⟩ : ∃ e fr, fr < 2 ^ 52 ∧ m = e * 2 ^ 52 + fr := ⟨m / 2 ^ 52, m % 2 ^ 52, Nat.mod_lt _ (by decide), by omega⟩
  by_cases h : fr + 1 < 2 ^ 52
  · by_cases he : e = 0
    · subst he
      rw [Nat.zero_mul, Nat.zero_add, magUnits_sub hf, magUnits_sub h]
      omega
    · rw [Nat.add_assoc, magUnits_norm he hf, magUnits_norm he h]
      exact Nat.mul_lt_mul_of_pos_right (by omega) (Nat.two_pow_pos _)
  · have e1 : e * 2 ^ 52 + fr + 1 = (e + 1) * 2 ^ 52 + 0 := by omega
    rw [e1, magUnits_norm (e := e + 1) (fr := 0) (by omega) (by decide)]
    by_cases he : e = 0
    · subst he
      rw [Nat.zero_mul, Nat.zero_add, magUnits_sub hf]
      simp
      omega
    · rw [magUnits_norm he hf]
      obtain ⟨k, rfl⟩ : ∃ k, e = k + 1 := ⟨e - 1, by omega⟩
      have : (k + 1 + 1 - 1) = k + 1 := rfl
      have e2 : (2 ^ 52 + 0) * 2 ^ (k + 1) = 2 ^ 53 * 2 ^ k := by rw [← Nat.pow_add, Nat.add_zero, ← Nat.pow_add]; congr 1; omega
      rw [this, Nat.add_sub_cancel, e2]
      exact Nat.mul_lt_mul_of_pos_right (by omega) (Nat.two_pow_pos _)

theorem magUnits_strict : StrictMono magUnits := strictMono_nat_of_lt_succ magUnits_step

theorem magUnits_lt {a b : Nat} : magUnits a < magUnits b ↔ a < b := magUnits_strict.lt_iff_lt
theorem magUnits_inj {a b : Nat} : magUnits a = magUnits b ↔ a = b := magUnits_strict.injective.eq_iff

/-- the next float after that with a significand of 53 bits -/
theorem magUnits_sig {l q : Nat} (h : 2 ^ 52 ≤ q) (h' : q ≤ 2 ^ 53) : magUnits ((l + 1023) * 2 ^ 52 + (q - 2 ^ 52)) = q * 2 ^ (l + 1022) := by
  by_cases hq : q < 2 ^ 53
  · have e1 : l + 1023 - 1 = l + 1022 := by omega
    have e2 : 2 ^ 52 + (q - 2 ^ 52) = q := by omega
    rw [magUnits_norm (e := l + 1023) (fr := q - 2 ^ 52) (by omega) (by omega), e1, e2]
  · have : q = 2 ^ 53 := by omega
    subst this
    have e : (l + 1023) * 2 ^ 52 + (2 ^ 53 - 2 ^ 52) = (l + 1024) * 2 ^ 52 + 0 := by omega
    rw [e, magUnits_norm (e := l + 1024) (fr := 0) (by omega) (by decide)]
    have : l + 1024 - 1 = (l + 1022) + 1 := by omega
    rw [this, Nat.pow_succ 2 (l + 1022)]
    omega

theorem one_eq {a b : Nat} (h : a + b = 1074) : 2 ^ a * 2 ^ b = one := by rw [← Nat.pow_add, h]; unfold one; rfl

theorem one_pos : 0 < one := by unfold one; exact Nat.two_pow_pos _

/-- the significand of a rounded natural number -/
def sig (n : Nat) : Nat :=
  if n.log2 ≤ 52 then n * 2 ^ (52 - n.log2)
  else
    if n % 2 ^ (n.log2 - 52) > 2 ^ (n.log2 - 52 - 1) ∨ (n % 2 ^ (n.log2 - 52) = 2 ^ (n.log2 - 52 - 1) ∧ n / 2 ^ (n.log2 - 52) % 2 = 1) then
      n / 2 ^ (n.log2 - 52) + 1 else n / 2 ^ (n.log2 - 52)

theorem ofNat_sig {n : Nat} (h : n ≠ 0) : F64.ofNat n = (n.log2 + 1023) * 2 ^ 52 + (sig n - 2 ^ 52) := by
  unfold F64.ofNat
  rw [if_neg h]
  rfl

theorem log2_bounds {n : Nat} (h : n ≠ 0) : 2 ^ n.log2 ≤ n ∧ n < 2 ^ (n.log2 + 1) := ⟨Nat.log2_self_le h, Nat.lt_log2_self⟩

/-- the rounded number, in units, and the two floats around the number -/
theorem near {n : Nat} (h : n ≠ 0) : ∃ q0 s0 : Nat, 2 ^ 52 ≤ q0 ∧ q0 < 2 ^ 53 ∧ q0 * s0 ≤ n * one ∧ n * one < (q0 + 1) * s0 ∧
    s0 = 2 ^ (n.log2 + 1022) ∧ (sig n = q0 ∨ sig n = q0 + 1) ∧
    (sig n = q0 → 2 * (n * one - q0 * s0) ≤ s0) ∧ (sig n = q0 + 1 → s0 ≤ 2 * (n * one - q0 * s0)) ∧
    (2 * (n * one - q0 * s0) = s0 → sig n % 2 = 0) ∧ (n.log2 ≤ 52 → q0 * s0 = n * one) := by
  obtain ⟨hl, hu⟩ := log2_bounds h
  by_cases h52 : n.log2 ≤ 52
  · refine ⟨sig n, 2 ^ (n.log2 + 1022), ?_, ?_, ?_⟩
    · rw [sig, if_pos h52]
      calc 2 ^ 52 = 2 ^ n.log2 * 2 ^ (52 - n.log2) := by rw [← Nat.pow_add]; congr 1; omega
        _ ≤ _ := Nat.mul_le_mul_right _ hl
    · rw [sig, if_pos h52]
      calc n * 2 ^ (52 - n.log2) < 2 ^ (n.log2 + 1) * 2 ^ (52 - n.log2) := Nat.mul_lt_mul_of_pos_right hu (Nat.two_pow_pos _)
        _ = 2 ^ 53 := by rw [← Nat.pow_add]; congr 1; omega
    · have e : sig n * 2 ^ (n.log2 + 1022) = n * one := by
        rw [sig, if_pos h52, Nat.mul_assoc, one_eq (by omega)]
      have := Nat.two_pow_pos (n.log2 + 1022)
      rw [Nat.add_mul, e]
      generalize n * one = N at *
      generalize 2 ^ (n.log2 + 1022) = s0 at *
      omega
  · obtain ⟨s, hs⟩ : ∃ s, n.log2 = s + 53 := ⟨n.log2 - 53, by omega⟩
    have e1 : n.log2 - 52 = s + 1 := by omega
    refine ⟨n / 2 ^ (s + 1), 2 ^ (n.log2 + 1022), ?_, ?_, ?_⟩
    · rw [Nat.le_div_iff_mul_le (Nat.two_pow_pos _), ← Nat.pow_add]
      have : 52 + (s + 1) = n.log2 := by omega
      rw [this]
      exact hl
    · rw [Nat.div_lt_iff_lt_mul (Nat.two_pow_pos _), ← Nat.pow_add]
      have : 53 + (s + 1) = n.log2 + 1 := by omega
      rw [this]
      exact hu
    · have e2 : 2 ^ (n.log2 + 1022) = 2 ^ (s + 1) * one := by
        unfold one
        rw [← Nat.pow_add]; congr 1; omega
      have hq := Nat.div_add_mod n (2 ^ (s + 1))
      have hr := Nat.mod_lt n (Nat.two_pow_pos (s + 1))
      rw [sig, if_neg h52, e1, e2]
      rw [Nat.add_sub_cancel]
      have hp : 2 ^ (s + 1) = 2 * 2 ^ s := by rw [Nat.pow_succ]; omega
      generalize n / 2 ^ (s + 1) = q at *
      generalize n % 2 ^ (s + 1) = r at *
      rw [hp] at *
      generalize 2 ^ s = t at *
      have hU := one_pos
      have e3 : q * (2 * t * one) = (n - r) * one := by
        have : n - r = 2 * t * q := by omega
        rw [← Nat.mul_assoc, this, Nat.mul_comm q]
      have e4 : (q + 1) * (2 * t * one) = (n - r + 2 * t) * one := by rw [Nat.add_mul, e3, Nat.one_mul, ← Nat.add_mul]
      have e5 : n * one - (n - r) * one = r * one := by
        have : n - (n - r) = r := by omega
        rw [← Nat.sub_mul, this]
      have e6 : 2 * (r * one) = (2 * r) * one := by rw [Nat.mul_assoc]
      rw [e3, e4, e5, e6]
      refine ⟨Nat.mul_le_mul_right _ (by omega), Nat.mul_lt_mul_of_pos_right (by omega) hU, rfl, by split <;> simp, ?_, ?_, ?_, fun hc => absurd hc h52⟩
      · intro hc
        refine Nat.mul_le_mul_right _ ?_
        split at hc <;> omega
      · intro hc
        refine Nat.mul_le_mul_right _ ?_
        split at hc <;> omega
      · intro hc
        have := Nat.eq_of_mul_eq_mul_right hU hc
        split <;> omega

/-- No float is nearer to a natural number than the rounded one. -/
theorem nearest_nat (n m : Nat) : ((magUnits (F64.ofNat n) : Int) - (n * one : Nat)).natAbs ≤ ((magUnits m : Int) - (n * one : Nat)).natAbs ∧
    (((magUnits (F64.ofNat n) : Int) - (n * one : Nat)).natAbs = ((magUnits m : Int) - (n * one : Nat)).natAbs → m = F64.ofNat n ∨ F64.ofNat n % 2 = 0) := by
  by_cases h : n = 0
  · subst h
    have : F64.ofNat 0 = 0 := rfl
    rw [this, magUnits_zero]
    simp
  · obtain ⟨q0, s0, h1, h2, h3, h4, hs0, h5, h6, h7, h8, _⟩ := near h
    have hof := ofNat_sig h
    have hM0 := magUnits_sig (l := n.log2) h1 (by omega)
    rw [← hs0] at hM0
    have hM1 := magUnits_sig (l := n.log2) (q := q0 + 1) (by omega) (by omega)
    rw [← hs0] at hM1
    have hsig : magUnits (F64.ofNat n) = sig n * s0 := by
      rw [hof, magUnits_sig (by omega) (by omega), hs0]
    have hm : magUnits m ≤ q0 * s0 ∨ (q0 + 1) * s0 ≤ magUnits m := by
      rw [← hM0, ← hM1, magUnits_strict.le_iff_le, magUnits_strict.le_iff_le]
      omega
    have heq : magUnits m = q0 * s0 → m = (n.log2 + 1023) * 2 ^ 52 + (q0 - 2 ^ 52) := fun hc => magUnits_inj.1 (hc.trans hM0.symm)
    have heq' : magUnits m = (q0 + 1) * s0 → m = (n.log2 + 1023) * 2 ^ 52 + (q0 + 1 - 2 ^ 52) := fun hc => magUnits_inj.1 (hc.trans hM1.symm)
    rw [hsig, hof]
    have hP1 : (q0 + 1) * s0 = q0 * s0 + s0 := by rw [Nat.add_mul, Nat.one_mul]
    rw [hP1] at h4 hm heq'
    have hs : 0 < s0 := hs0 ▸ Nat.two_pow_pos _
    generalize n * one = N at *
    generalize hP : q0 * s0 = P at *
    rcases h5 with h5 | h5
    · have h6 := h6 h5
      rw [h5] at h8 ⊢
      rw [hP] at *
      clear hs0
      generalize magUnits m = M at *
      refine ⟨by omega, fun hc => ?_⟩
      by_cases hm0 : M = P
      · exact .inl (heq hm0)
      · right
        have := h8 (by omega)
        omega
    · have h7 := h7 h5
      rw [h5] at h8 ⊢
      rw [hP1]
      clear hs0
      generalize magUnits m = M at *
      refine ⟨by omega, fun hc => ?_⟩
      by_cases hm0 : M = P + s0
      · exact .inl (heq' hm0)
      · right
        have := h8 (by omega)
        omega

theorem ofNat_lt {n : Nat} (h : n ≤ 2 ^ 63) : F64.ofNat n < 0x7ff0000000000000 := by
  by_cases h0 : n = 0
  · subst h0; decide
  · obtain ⟨q0, s0, h1, h2, _, _, _, h5, _⟩ := near h0
    rw [ofNat_sig h0]
    have : n.log2 ≤ 63 := by
      have := (log2_bounds h0).1
      have h3 : 2 ^ n.log2 ≤ 2 ^ 63 := Nat.le_trans this h
      exact (Nat.pow_le_pow_iff_right (by decide)).1 h3
    omega

theorem ofInt_mag (i : BitVec 64) : (F64.ofInt i).toNat % 2 ^ 63 = F64.ofNat i.toInt.natAbs ∧ ((F64.ofInt i).toNat ≥ 2 ^ 63 ↔ i.toInt < 0) := by
  have hi : i.toInt.natAbs ≤ 2 ^ 63 := by
    have := i.le_two_mul_toInt
    have := i.two_mul_toInt_lt
    omega
  have := ofNat_lt hi
  unfold F64.ofInt
  split <;> rename_i h <;> rw [BitVec.toNat_ofNat] <;> omega

theorem units_ofInt (i : BitVec 64) : units (F64.ofInt i) = if i.toInt < 0 then -(magUnits (F64.ofNat i.toInt.natAbs) : Int) else magUnits (F64.ofNat i.toInt.natAbs) := by
  unfold units
  rw [(ofInt_mag i).1]
  simp only [(ofInt_mag i).2]

theorem finite_ofInt (i : BitVec 64) : Finite (F64.ofInt i) := by
  unfold Finite
  rw [(ofInt_mag i).1]
  apply ofNat_lt
  have := i.le_two_mul_toInt
  have := i.two_mul_toInt_lt
  omega

theorem mag_eq {f g : F64} (h : f.toNat % 2 ^ 63 = g.toNat % 2 ^ 63) (hs : f.toNat ≥ 2 ^ 63 ↔ g.toNat ≥ 2 ^ 63) : f = g := by
  apply BitVec.eq_of_toNat_eq
  have := f.isLt
  have := g.isLt
  omega

/-- No float is nearer to an integer than the rounded one; if another is as near, the rounded one is even. -/
theorem nearest (i : BitVec 64) (g : F64) : distance (F64.ofInt i) i ≤ distance g i ∧
    (distance g i = distance (F64.ofInt i) i → g = F64.ofInt i ∨ (F64.ofInt i).toNat % 2 = 0) := by
  obtain ⟨h1, h2⟩ := ofInt_mag i
  obtain ⟨n1, n2⟩ := nearest_nat i.toInt.natAbs (g.toNat % 2 ^ 63)
  have hz := nearest_nat i.toInt.natAbs 0
  have heven : F64.ofNat i.toInt.natAbs % 2 = 0 → (F64.ofInt i).toNat % 2 = 0 := by omega
  have hU : i.toInt * one = if i.toInt < 0 then -((i.toInt.natAbs * one : Nat) : Int) else ((i.toInt.natAbs * one : Nat) : Int) := by
    split
    · rename_i h
      rw [Int.natCast_mul, ← Int.neg_mul]
      congr 1
      omega
    · rw [Int.natCast_mul]
      congr 1
      omega
  have hge := @mag_eq g (F64.ofInt i)
  rw [h1] at hge
  unfold distance
  rw [units_ofInt, hU]
  unfold units
  rw [magUnits_zero] at hz
  obtain ⟨hz1, hz2⟩ := hz
  generalize F64.ofNat i.toInt.natAbs = c at *
  generalize hN : i.toInt.natAbs * one = N at *
  have key : magUnits (g.toNat % 2 ^ 63) = 0 ∨ 0 < magUnits (g.toNat % 2 ^ 63) := by omega
  by_cases hi : i.toInt < 0
  · rw [if_pos hi, if_pos hi]
    have hgs := h2.2 hi
    have hN0 : 0 < N := by rw [← hN]; exact Nat.mul_pos (by omega) one_pos
    by_cases hg : g.toNat ≥ 2 ^ 63
    · rw [if_pos hg]
      refine ⟨by omega, fun hc => ?_⟩
      rcases n2 (by omega) with h | h
      · exact .inl (hge h (by omega))
      · exact .inr (heven h)
    · rw [if_neg hg]
      refine ⟨by omega, fun hc => .inr (heven ?_)⟩
      rcases hz2 (by omega) with h | h
      · rw [← h]
      · exact h
  · rw [if_neg hi, if_neg hi]
    have hgs : ¬ (F64.ofInt i).toNat ≥ 2 ^ 63 := fun hc => hi (h2.1 hc)
    by_cases hg : g.toNat ≥ 2 ^ 63
    · rw [if_pos hg]
      refine ⟨by omega, fun hc => .inr (heven ?_)⟩
      rcases hz2 (by omega) with h | h
      · rw [← h]
      · exact h
    · rw [if_neg hg]
      refine ⟨by omega, fun hc => ?_⟩
      rcases n2 (by omega) with h | h
      · exact .inl (hge h (by omega))
      · exact .inr (heven h)

/-- Integers of at most 53 bits are floats. -/
theorem exact_nat {n : Nat} (h : n ≤ 2 ^ 53) : magUnits (F64.ofNat n) = n * one := by
  by_cases h0 : n = 0
  · subst h0
    rw [Nat.zero_mul]
    exact magUnits_zero
  by_cases hn : n = 2 ^ 53
  · subst hn
    have : F64.ofNat (2 ^ 53) = 1076 * 2 ^ 52 + 0 := by decide +kernel
    rw [this, magUnits_norm (by decide) (by decide)]
    unfold one
    rw [← Nat.pow_add, Nat.add_zero, ← Nat.pow_add]
  · obtain ⟨q0, s0, h1, h2, h3, h4, h5, h6, h7, h8, h9, h10⟩ := near h0
    have hl : n.log2 ≤ 52 := by
      have := (log2_bounds h0).1
      have h3 : 2 ^ n.log2 < 2 ^ 53 := by omega
      have := (Nat.pow_lt_pow_iff_right (a := 2) (by decide)).1 h3
      omega
    rw [ofNat_sig h0, magUnits_sig (by omega) (by omega), ← h10 hl, ← h5]
    have hs : 0 < s0 := h5 ▸ Nat.two_pow_pos _
    rcases h6 with h6 | h6
    · rw [h6]
    · have := h8 h6
      rw [h10 hl] at this
      omega

/-! ### From floats to integers -/

theorem part_nat {m : Nat} (h : m / 2 ^ 52 < 1086) :
    (m / 2 ^ 52 < 1023 → magUnits m < one) ∧
    (¬ m / 2 ^ 52 < 1023 → ∃ n, n = (if m / 2 ^ 52 ≥ 1075 then (2 ^ 52 + m % 2 ^ 52) * 2 ^ (m / 2 ^ 52 - 1075) else (2 ^ 52 + m % 2 ^ 52) / 2 ^ (1075 - m / 2 ^ 52)) ∧
      0 < n ∧ n < 2 ^ 63 ∧ n * one ≤ magUnits m ∧ magUnits m < (n + 1) * one) := by
  have hone : magUnits (1023 * 2 ^ 52) = one := by
    have := magUnits_norm (e := 1023) (fr := 0) (by decide) (by decide)
    rw [Nat.add_zero] at this
    rw [this, Nat.add_zero, one_eq (by decide)]
  refine ⟨fun hc => ?_, fun hc => ⟨_, rfl, ?_⟩⟩
  · rw [← hone, magUnits_lt]
    omega
  · have hd := Nat.div_add_mod m (2 ^ 52)
    have hf := Nat.mod_lt m (show 2 ^ 52 > 0 by decide)
    generalize m / 2 ^ 52 = e at *
    generalize m % 2 ^ 52 = fr at *
    rw [← hd, Nat.mul_comm (2 ^ 52) e, magUnits_norm (e := e) (fr := fr) (by omega) hf]
    by_cases h1 : e ≥ 1075
    · rw [if_pos h1]
      obtain ⟨k, rfl⟩ : ∃ k, e = k + 1075 := ⟨e - 1075, by omega⟩
      have e1 : 2 ^ (k + 1075 - 1) = 2 ^ k * one := by unfold one; rw [← Nat.pow_add]; rfl
      rw [e1, Nat.add_sub_cancel, ← Nat.mul_assoc]
      refine ⟨Nat.mul_pos (by omega) (Nat.two_pow_pos _), ?_, Nat.le_refl _, Nat.mul_lt_mul_of_pos_right (by omega) one_pos⟩
      have : 2 ^ k ≤ 2 ^ 10 := Nat.pow_le_pow_right (by decide) (by omega)
      calc (2 ^ 52 + fr) * 2 ^ k ≤ (2 ^ 53 - 1) * 2 ^ 10 := Nat.mul_le_mul (by omega) this
        _ < 2 ^ 63 := by decide
    · rw [if_neg h1]
      have e1 : 2 ^ (1075 - e) * 2 ^ (e - 1) = one := one_eq (by omega)
      have hp := Nat.two_pow_pos (1075 - e)
      have hq := Nat.two_pow_pos (e - 1)
      have hle : 2 ^ (1075 - e) ≤ 2 ^ 52 := Nat.pow_le_pow_right (by decide) (by omega)
      have h2 := Nat.div_mul_le_self (2 ^ 52 + fr) (2 ^ (1075 - e))
      have h3 := Nat.lt_div_mul_add (a := 2 ^ 52 + fr) hp
      have h4 : (2 ^ 52 + fr) / 2 ^ (1075 - e) ≤ 2 ^ 52 + fr := Nat.div_le_self _ _
      refine ⟨Nat.div_pos (by omega) hp, by omega, ?_, ?_⟩
      · rw [← e1, ← Nat.mul_assoc]
        exact Nat.mul_le_mul_right _ h2
      · rw [← e1, ← Nat.mul_assoc]
        refine Nat.mul_lt_mul_of_pos_right ?_ hq
        rw [Nat.add_mul, Nat.one_mul]
        exact h3

theorem big {m : Nat} : magUnits m < 2 ^ 63 * one ↔ m / 2 ^ 52 < 1086 := by
  have e : magUnits (1086 * 2 ^ 52) = 2 ^ 63 * one := by
    have := magUnits_norm (e := 1086) (fr := 0) (by decide) (by decide)
    rw [Nat.add_zero] at this
    rw [this, Nat.add_zero]
    unfold one
    rw [← Nat.pow_add, ← Nat.pow_add]
  rw [← e, magUnits_lt]
  omega

theorem natAbs_units (f : F64) : (units f).natAbs = magUnits (f.toNat % 2 ^ 63) := by
  unfold units; split <;> simp

theorem toInt_part (f : F64) (h : (units f).natAbs < 2 ^ 63 * one) : IntegerPart f (F64.toInt f).toInt := by
  rw [natAbs_units, big] at h
  obtain ⟨h1, h2⟩ := part_nat h
  unfold IntegerPart F64.toInt F64.mag F64.neg
  rw [natAbs_units]
  dsimp only
  by_cases hc : f.toNat % 2 ^ 63 / 2 ^ 52 < 1023
  · rw [if_pos hc]
    simpa using h1 hc
  · rw [if_neg hc, if_neg (by omega)]
    obtain ⟨n, hn, n0, n1, n2, n3⟩ := h2 hc
    rw [← hn]
    have hp : 0 < magUnits (f.toNat % 2 ^ 63) := by
      have : 0 < n * one := Nat.mul_pos n0 one_pos
      omega
    have e1 : (BitVec.ofNat 64 n).toInt = n := by
      rw [BitVec.toInt_eq_toNat_cond, BitVec.toNat_ofNat, Nat.mod_eq_of_lt (by omega), if_pos (by omega)]
    have e2 : (-BitVec.ofNat 64 n).toInt = -(n : Int) := by
      rw [BitVec.toInt_neg, e1, Int.bmod_eq_of_le] <;> omega
    unfold units
    by_cases hs : f.toNat ≥ 2 ^ 63
    · simp only [hs, decide_true, if_true, e2]
      refine ⟨by simpa using n2, by simpa using n3, by omega, by omega⟩
    · simp only [hs, decide_false, if_false, e1, Bool.false_eq_true]
      refine ⟨by simpa using n2, by simpa using n3, by omega, by omega⟩

theorem part_unique {f : F64} {m n : Int} (hm : IntegerPart f m) (hn : IntegerPart f n) : m = n := by
  obtain ⟨m1, m2, m3, m4⟩ := hm
  obtain ⟨n1, n2, n3, n4⟩ := hn
  have h1 := Nat.lt_of_mul_lt_mul_right (Nat.lt_of_le_of_lt m1 n2)
  have h2 := Nat.lt_of_mul_lt_mul_right (Nat.lt_of_le_of_lt n1 m2)
  omega

theorem toInt_big {f : F64} (h : 2 ^ 63 * one ≤ (units f).natAbs) : F64.toInt f = minI64 := by
  have : ¬ f.toNat % 2 ^ 63 / 2 ^ 52 < 1086 := by rw [← big, ← natAbs_units]; omega
  unfold F64.toInt F64.mag
  dsimp only
  rw [if_neg (by omega), if_pos (by omega)]
  rfl

theorem toInt_infinite {f : F64} (h : ¬ Finite f) : F64.toInt f = minI64 := by
  unfold Finite at h
  unfold F64.toInt F64.mag
  dsimp only
  rw [if_neg (by omega), if_pos (by omega)]
  rfl

/-! ### Order -/

theorem not_nan {f : F64} (h : Finite f) : f.isNaN = false := by
  unfold Finite at h
  exact decide_eq_false (by unfold F64.mag; omega)

theorem key_lt {a b : F64} : a.key < b.key ↔ units a < units b := by
  unfold F64.key units F64.neg F64.mag
  simp only [decide_eq_true_eq]
  have h1 := @magUnits_lt (a.toNat % 2 ^ 63) (b.toNat % 2 ^ 63)
  have h2 := @magUnits_lt (b.toNat % 2 ^ 63) (a.toNat % 2 ^ 63)
  have h3 := @magUnits_lt 0 (a.toNat % 2 ^ 63)
  have h4 := @magUnits_lt 0 (b.toNat % 2 ^ 63)
  rw [magUnits_zero] at h3 h4
  generalize magUnits (a.toNat % 2 ^ 63) = A at *
  generalize magUnits (b.toNat % 2 ^ 63) = B at *
  split <;> split <;> omega

theorem key_eq {a b : F64} : a.key = b.key ↔ units a = units b := by
  have h1 := @key_lt a b
  have h2 := @key_lt b a
  omega

end Verif.Types
