import Verif.HMap.Model
/-! Lemmas on `tableSizeFor` and the slot computation. -/
namespace Verif.HMap

theorem smear_step {n m : BitVec 64} {w : Nat}
    (h : ∀ i, m.getLsbD i = true ↔ ∃ j, j < w ∧ n.getLsbD (i + j) = true) :
    ∀ i, (m ||| (m >>> w)).getLsbD i = true ↔ ∃ j, j < 2 * w ∧ n.getLsbD (i + j) = true := by
  intro i
  rw [BitVec.getLsbD_or, BitVec.getLsbD_ushiftRight, Bool.or_eq_true, h i, h (w + i)]
  constructor
  · rintro (⟨j, hj, hn⟩ | ⟨j, hj, hn⟩)
    · exact ⟨j, by omega, hn⟩
    · exact ⟨w + j, by omega, by rw [← hn]; congr 1; omega⟩
  · rintro ⟨j, hj, hn⟩
    by_cases hw : j < w
    · exact .inl ⟨j, hw, hn⟩
    · exact .inr ⟨j - w, by omega, by rw [← hn]; congr 1; omega⟩

/-- The five `n |= n >> k` steps. -/
def smear (n : BitVec 64) : BitVec 64 :=
  let n := n ||| (n >>> 1)
  let n := n ||| (n >>> 2)
  let n := n ||| (n >>> 4)
  let n := n ||| (n >>> 8)
  n ||| (n >>> 16)

theorem smear_bit (n : BitVec 64) (i : Nat) :
    (smear n).getLsbD i = true ↔ ∃ j, j < 32 ∧ n.getLsbD (i + j) = true := by
  have h0 : ∀ i, n.getLsbD i = true ↔ ∃ j, j < 1 ∧ n.getLsbD (i + j) = true := by
    intro i
    constructor
    · intro h; exact ⟨0, by omega, h⟩
    · rintro ⟨j, hj, h⟩; have : j = 0 := by omega
      subst this; simpa using h
  exact smear_step (w := 16) (smear_step (w := 8) (smear_step (w := 4) (smear_step (w := 2) (smear_step (w := 1) h0)))) i

theorem smear_ge (n : BitVec 64) : n.toNat ≤ (smear n).toNat := by
  apply Nat.le_of_testBit
  intro i hi
  have : (smear n).getLsbD i = true := (smear_bit n i).2 ⟨0, by omega, by simpa [BitVec.getLsbD] using hi⟩
  simpa [BitVec.getLsbD] using this

/-- If the top set bit of `n` is bit `t < 32`, the smear fills everything below it. -/
theorem smear_eq (n : BitVec 64) (t : Nat) (ht : t < 32) (htop : n.getLsbD t = true)
    (hup : ∀ j, t < j → n.getLsbD j = false) : (smear n).toNat = 2 ^ (t + 1) - 1 := by
  apply Nat.eq_of_testBit_eq
  intro i
  rw [Nat.testBit_two_pow_sub_one]
  have hb := smear_bit n i
  have e : (smear n).toNat.testBit i = (smear n).getLsbD i := rfl
  rw [e, Bool.eq_iff_iff, hb, decide_eq_true_iff]
  constructor
  · rintro ⟨j, _, hn⟩
    by_cases h : t < i + j
    · rw [hup _ h] at hn; cases hn
    · omega
  · intro h
    exact ⟨t - i, by omega, by rw [← htop]; congr 1; omega⟩

theorem smear_big (n : BitVec 64) (t : Nat) (htop : n.getLsbD t = true) : 2 ^ t ≤ (smear n).toNat :=
  Nat.le_trans (Nat.ge_two_pow_of_testBit htop) (smear_ge n)

theorem smear_zero : smear 0 = 0 := by decide

/-- Top bit of a non-zero word. -/
theorem exists_top (n : BitVec 64) (h : n ≠ 0) : ∃ t, t < 64 ∧ n.getLsbD t = true ∧ ∀ j, t < j → n.getLsbD j = false := by
  have hn : n.toNat ≠ 0 := by
    intro hc; apply h; apply BitVec.eq_of_toNat_eq; simpa using hc
  refine ⟨n.toNat.log2, ?_, ?_, ?_⟩
  · exact (Nat.log2_lt hn).2 n.isLt
  · exact Nat.testBit_log2 hn
  · intro j hj
    exact Nat.testBit_lt_two_pow ((Nat.log2_lt hn).1 hj)

theorem tableSizeForW_eq (cap : BitVec 64) : tableSizeForW cap =
    if cap.slt 1 then 1 else
      if (BitVec.ofNat 64 (2 ^ 30)).ult (smear (cap - 1) + 1) then BitVec.ofNat 64 (2 ^ 30) else smear (cap - 1) + 1 := rfl

theorem smear_lt63 (n : BitVec 64) (h : n.toNat < 2 ^ 63) : (smear n).toNat < 2 ^ 63 := by
  apply Nat.lt_pow_two_of_testBit
  intro i hi
  cases hb : (smear n).toNat.testBit i with
  | false => rfl
  | true =>
    obtain ⟨j, _, hj⟩ := (smear_bit n i).1 hb
    have : 2 ^ (i + j) ≤ n.toNat := Nat.ge_two_pow_of_testBit hj
    have : 2 ^ 63 ≤ 2 ^ (i + j) := Nat.pow_le_pow_right (by omega) (by omega)
    omega

/-- Full description of `tableSizeFor` on non-positive and positive capacities. -/
theorem tableSizeForW_spec (cap : BitVec 64) :
    ∃ k, k ≤ 30 ∧ (tableSizeForW cap).toNat = 2 ^ k ∧
      (0 ≤ cap.toInt → (cap.toNat ≤ 2 ^ 30 → cap.toNat ≤ 2 ^ k) ∧ (2 ^ 30 < cap.toNat → k = 30) ∧
        (0 < k → 2 ^ (k - 1) < cap.toNat)) ∧ (cap.toInt < 1 → k = 0) := by
  rw [tableSizeForW_eq]
  by_cases hc : cap.slt 1
  · rw [if_pos hc]
    have : cap.toInt < 1 := by simpa [BitVec.slt] using hc
    refine ⟨0, by omega, by decide, ?_, fun _ => rfl⟩
    intro h0
    have h1 : cap.toInt = 0 := by omega
    have h2 : cap.toNat = 0 := by
      rw [BitVec.toInt_eq_toNat_cond] at h1
      have := cap.isLt
      split at h1 <;> omega
    omega
  · rw [if_neg hc]
    have hpos : 1 ≤ cap.toInt := by
      have : ¬ cap.toInt < 1 := by simpa [BitVec.slt] using hc
      omega
    have hlt : cap.toNat < 2 ^ 63 ∧ 1 ≤ cap.toNat := by
      rw [BitVec.toInt_eq_toNat_cond] at hpos
      have := cap.isLt
      split at hpos <;> omega
    have hm : (cap - 1).toNat = cap.toNat - 1 := by
      rw [BitVec.toNat_sub]; simp; omega
    have hs63 := smear_lt63 (cap - 1) (by omega)
    have hs1 : (smear (cap - 1) + 1).toNat = (smear (cap - 1)).toNat + 1 := by
      rw [BitVec.toNat_add]; exact Nat.mod_eq_of_lt (by rw [show (1 : BitVec 64).toNat = 1 by decide]; omega)
    by_cases hz : cap - 1 = 0
    · rw [hz, smear_zero]
      have : cap.toNat = 1 := by
        have : (cap - 1).toNat = 0 := by rw [hz]; rfl
        omega
      refine ⟨0, by omega, by decide, fun _ => ⟨by omega, by omega, by omega⟩, by omega⟩
    · obtain ⟨t, ht64, htop, hup⟩ := exists_top _ hz
      have hge : 2 ^ t ≤ cap.toNat - 1 := by rw [← hm]; exact Nat.ge_two_pow_of_testBit htop
      have hltn : cap.toNat - 1 < 2 ^ (t + 1) := by
        rw [← hm]
        apply Nat.lt_pow_two_of_testBit
        intro i hi
        exact hup i (by omega)
      by_cases h30 : t < 30
      · have hs := smear_eq _ t (by omega) htop hup
        have hp : 0 < 2 ^ (t + 1) := Nat.two_pow_pos _
        have hle : 2 ^ (t + 1) ≤ 2 ^ 30 := Nat.pow_le_pow_right (by omega) (by omega)
        have hcmp : (BitVec.ofNat 64 (2 ^ 30)).ult (smear (cap - 1) + 1) = false := by
          simp only [BitVec.ult, hs1, hs]
          simp; omega
        rw [hcmp]
        refine ⟨t + 1, by omega, ?_, fun _ => ⟨by omega, by omega, fun _ => by simpa using by omega⟩, by omega⟩
        simp only [Bool.false_eq_true, if_false]
        rw [hs1, hs]; omega
      · have h2 : 2 ^ 30 ≤ 2 ^ t := Nat.pow_le_pow_right (by omega) (by omega)
        have hb := smear_ge (cap - 1)
        have hcmp : (BitVec.ofNat 64 (2 ^ 30)).ult (smear (cap - 1) + 1) = true := by
          simp only [BitVec.ult, hs1, decide_eq_true_iff]
          rw [show (BitVec.ofNat 64 (2 ^ 30)).toNat = 2 ^ 30 by decide]; omega
        rw [hcmp]
        refine ⟨30, by omega, by simp, fun _ => ⟨by omega, by omega, fun _ => ?_⟩, by omega⟩
        have : (2:Nat) ^ (30 - 1) < 2 ^ 30 := by decide
        omega

theorem tableSizeFor_pos (n : Nat) : 0 < tableSizeFor n := by
  obtain ⟨k, _, h, _⟩ := tableSizeForW_spec (BitVec.ofNat 64 n)
  unfold tableSizeFor; rw [h]; exact Nat.two_pow_pos _

theorem tableSizeFor_le (n : Nat) : tableSizeFor n ≤ 2 ^ 30 := by
  obtain ⟨k, hk, h, _⟩ := tableSizeForW_spec (BitVec.ofNat 64 n)
  unfold tableSizeFor; rw [h]; exact Nat.pow_le_pow_right (by omega) hk

theorem slot_lt {tl : Nat} (h0 : 0 < tl) (h1 : tl ≤ 2 ^ 30) (h : BitVec 64) : slot tl h < tl := by
  unfold slot
  rw [BitVec.toNat_and]
  have : (BitVec.ofNat 64 tl - 1).toNat = tl - 1 := by
    rw [BitVec.toNat_sub]; simp; omega
  rw [this]
  exact Nat.lt_of_le_of_lt Nat.and_le_left (by omega)

end Verif.HMap
