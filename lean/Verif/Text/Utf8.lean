import Verif.Value.Model
/-!
# UTF-8, as Go's package unicode/utf8 reads and writes it
-/
set_option autoImplicit false
set_option linter.unusedVariables false
namespace Verif.Text
open Verif.Value (Str runeLen)

/-- `utf8.RuneError` -/
def runeError : Nat := 0xFFFD

/-- A Unicode scalar value -/
def Scalar (c : Nat) : Prop := c < 0xD800 ∨ (0xE000 ≤ c ∧ c < 0x110000)

instance (c : Nat) : Decidable (Scalar c) := by unfold Scalar; infer_instance

/-- The rune of `utf8.DecodeRuneInString`; its size is `runeLen` (Value/Model.lean). -/
def decode (s : Str) : Nat :=
  match s, runeLen s with
  | b0 :: _, 1 => if b0.toNat < 0x80 then b0.toNat else runeError
  | b0 :: b1 :: _, 2 => b0.toNat % 32 * 64 + b1.toNat % 64
  | b0 :: b1 :: b2 :: _, 3 => b0.toNat % 16 * 4096 + b1.toNat % 64 * 64 + b2.toNat % 64
  | b0 :: b1 :: b2 :: b3 :: _, 4 => b0.toNat % 8 * 262144 + b1.toNat % 64 * 4096 + b2.toNat % 64 * 64 + b3.toNat % 64
  | _, _ => runeError

/-- `utf8.EncodeRune`, and `util.WriteRune` (util/write.go:38-52). -/
def encode (c : Nat) : Str :=
  if c < 0x80 then [UInt8.ofNat c]
  else if c < 0x800 then [UInt8.ofNat (0xC0 + c / 64), UInt8.ofNat (0x80 + c % 64)]
  else if c < 0xD800 ∨ (0xE000 ≤ c ∧ c < 0x10000) then
    [UInt8.ofNat (0xE0 + c / 4096), UInt8.ofNat (0x80 + c / 64 % 64), UInt8.ofNat (0x80 + c % 64)]
  else if 0x10000 ≤ c ∧ c < 0x110000 then
    [UInt8.ofNat (0xF0 + c / 262144), UInt8.ofNat (0x80 + c / 4096 % 64), UInt8.ofNat (0x80 + c / 64 % 64), UInt8.ofNat (0x80 + c % 64)]
  else [0xEF, 0xBF, 0xBD]

theorem u8_ofNat {n : Nat} (h : n < 256) : (UInt8.ofNat n).toNat = n := by
  rw [UInt8.toNat_ofNat']; omega

theorem runeLen_cons (b : UInt8) (r : Str) : 1 ≤ runeLen (b :: r) ∧ runeLen (b :: r) ≤ (b :: r).length ∧ runeLen (b :: r) ≤ 4 := by
  unfold runeLen
  dsimp only
  repeat' split
  all_goals (simp; try omega)

/-- Reading what was written -/
theorem decode_encode {c : Nat} (hc : Scalar c) (r : Str) :
    decode (encode c ++ r) = c ∧ runeLen (encode c ++ r) = (encode c).length := by
  unfold Scalar at hc
  unfold encode
  by_cases h1 : c < 0x80
  · rw [if_pos h1]
    have e : runeLen ([UInt8.ofNat c] ++ r) = 1 := by
      simp only [List.cons_append, List.nil_append, runeLen, u8_ofNat (show c < 256 by omega)]
      rw [if_pos (by omega)]
    refine ⟨?_, e⟩
    unfold decode
    rw [e]
    simp only [List.cons_append, List.nil_append, u8_ofNat (show c < 256 by omega)]
    rw [if_pos h1]
  · rw [if_neg h1]
    by_cases h2 : c < 0x800
    · rw [if_pos h2]
      have e : runeLen ([UInt8.ofNat (0xC0 + c / 64), UInt8.ofNat (0x80 + c % 64)] ++ r) = 2 := by
        simp only [List.cons_append, List.nil_append, runeLen, u8_ofNat (show 0xC0 + c / 64 < 256 by omega), UInt8.le_iff_toNat_le,
          u8_ofNat (show 0x80 + c % 64 < 256 by omega)]
        rw [if_neg (by omega), if_pos (by omega), if_pos (by simp; omega)]
      refine ⟨?_, e⟩
      unfold decode
      rw [e]
      simp only [List.cons_append, List.nil_append, u8_ofNat (show 0xC0 + c / 64 < 256 by omega), u8_ofNat (show 0x80 + c % 64 < 256 by omega)]
      omega
    · rw [if_neg h2]
      by_cases h3 : c < 0x10000
      · rw [if_pos (by omega)]
        have e : runeLen ([UInt8.ofNat (0xE0 + c / 4096), UInt8.ofNat (0x80 + c / 64 % 64), UInt8.ofNat (0x80 + c % 64)] ++ r) = 3 := by
          simp only [List.cons_append, List.nil_append, runeLen, u8_ofNat (show 0xE0 + c / 4096 < 256 by omega), UInt8.le_iff_toNat_le,
            u8_ofNat (show 0x80 + c / 64 % 64 < 256 by omega), u8_ofNat (show 0x80 + c % 64 < 256 by omega)]
          rw [if_neg (by omega), if_neg (by omega), if_pos (by omega), if_pos]
          have ha : (0xE0 + c / 4096 = 0xE0 ∨ 0xE0 + c / 4096 = 0xED) ∨ (0xE0 + c / 4096 ≠ 0xE0 ∧ 0xE0 + c / 4096 ≠ 0xED) := by omega
          rcases ha with (ha | ha) | ⟨ha, hb⟩
          · simp [ha]; omega
          · simp [ha]; omega
          · simp only [ha, hb, if_false]; simp; omega
        refine ⟨?_, e⟩
        unfold decode
        rw [e]
        simp only [List.cons_append, List.nil_append, u8_ofNat (show 0xE0 + c / 4096 < 256 by omega),
          u8_ofNat (show 0x80 + c / 64 % 64 < 256 by omega), u8_ofNat (show 0x80 + c % 64 < 256 by omega)]
        omega
      · rw [if_neg (by omega), if_pos (by omega)]
        have e : runeLen ([UInt8.ofNat (0xF0 + c / 262144), UInt8.ofNat (0x80 + c / 4096 % 64), UInt8.ofNat (0x80 + c / 64 % 64),
            UInt8.ofNat (0x80 + c % 64)] ++ r) = 4 := by
          simp only [List.cons_append, List.nil_append, runeLen, u8_ofNat (show 0xF0 + c / 262144 < 256 by omega), UInt8.le_iff_toNat_le,
            u8_ofNat (show 0x80 + c / 4096 % 64 < 256 by omega), u8_ofNat (show 0x80 + c / 64 % 64 < 256 by omega),
            u8_ofNat (show 0x80 + c % 64 < 256 by omega)]
          rw [if_neg (by omega), if_neg (by omega), if_neg (by omega), if_pos (by omega), if_pos]
          have ha : (0xF0 + c / 262144 = 0xF0 ∨ 0xF0 + c / 262144 = 0xF4) ∨ (0xF0 + c / 262144 ≠ 0xF0 ∧ 0xF0 + c / 262144 ≠ 0xF4) := by omega
          rcases ha with (ha | ha) | ⟨ha, hb⟩
          · simp [ha]; omega
          · simp [ha]; omega
          · simp only [ha, hb, if_false]; simp; omega
        refine ⟨?_, e⟩
        unfold decode
        rw [e]
        simp only [List.cons_append, List.nil_append, u8_ofNat (show 0xF0 + c / 262144 < 256 by omega),
          u8_ofNat (show 0x80 + c / 4096 % 64 < 256 by omega), u8_ofNat (show 0x80 + c / 64 % 64 < 256 by omega),
          u8_ofNat (show 0x80 + c % 64 < 256 by omega)]
        omega

theorem u8_ext {a : UInt8} {n : Nat} (h : n = a.toNat) : UInt8.ofNat n = a := by
  subst h; exact UInt8.ofNat_toNat

/-- Writing what was read -/
theorem encode_decode {s : Str} (hs : s ≠ []) (h : decode s ≠ runeError ∨ runeLen s ≠ 1) :
    Scalar (decode s) ∧ encode (decode s) = s.take (runeLen s) := by
  unfold Scalar
  match s, hs with
  | b0 :: r, _ =>
    have l0 := b0.toNat_lt
    unfold decode runeLen at h ⊢
    dsimp only at h ⊢
    by_cases h1 : b0.toNat < 0xC2
    · simp only [h1, if_true] at h ⊢
      by_cases h2 : b0.toNat < 0x80
      · simp only [h2, if_true] at h ⊢
        refine ⟨by omega, ?_⟩
        unfold encode
        rw [if_pos h2, u8_ext rfl]
        rfl
      · simp [h2] at h
    · simp only [h1, if_false] at h ⊢
      by_cases h2 : b0.toNat < 0xE0
      · simp only [h2, if_true] at h ⊢
        cases r with
        | nil => simp [show ¬ b0.toNat < 0x80 by omega] at h
        | cons b1 r =>
          by_cases c1 : (decide (0x80 ≤ b1) && decide (b1 ≤ 0xBF)) = true
          · simp only [c1, if_true] at h ⊢
            have l1 : 0x80 ≤ b1.toNat ∧ b1.toNat ≤ 0xBF := by simpa [UInt8.le_iff_toNat_le] using c1
            refine ⟨by omega, ?_⟩
            unfold encode
            rw [if_neg (by omega), if_pos (by omega), u8_ext (a := b0) (by omega), u8_ext (a := b1) (by omega)]
            rfl
          · simp [c1, show ¬ b0.toNat < 0x80 by omega] at h
      · simp only [h2, if_false] at h ⊢
        by_cases h3 : b0.toNat < 0xF0
        · simp only [h3, if_true] at h ⊢
          match r with
          | [] => simp [show ¬ b0.toNat < 0x80 by omega] at h
          | [b1] => simp [show ¬ b0.toNat < 0x80 by omega] at h
          | b1 :: b2 :: r =>
            dsimp only at h ⊢
            generalize hlo : (if b0.toNat = 0xE0 then (0xA0 : UInt8) else 0x80) = lo at h ⊢
            generalize hhi : (if b0.toNat = 0xED then (0x9F : UInt8) else 0xBF) = hi at h ⊢
            by_cases c1 : (decide (lo ≤ b1) && decide (b1 ≤ hi) && (decide (0x80 ≤ b2) && decide (b2 ≤ 0xBF))) = true
            · simp only [c1, if_true] at h ⊢
              have l1 : (lo.toNat ≤ b1.toNat ∧ b1.toNat ≤ hi.toNat) ∧ 0x80 ≤ b2.toNat ∧ b2.toNat ≤ 0xBF := by
                simpa [UInt8.le_iff_toNat_le] using c1
              have hl : lo.toNat = if b0.toNat = 0xE0 then 0xA0 else 0x80 := by rw [← hlo]; split <;> rfl
              have hh : hi.toNat = if b0.toNat = 0xED then 0x9F else 0xBF := by rw [← hhi]; split <;> rfl
              have key : 0x80 ≤ b1.toNat ∧ b1.toNat ≤ 0xBF ∧ (b0.toNat = 0xE0 → 0xA0 ≤ b1.toNat) ∧ (b0.toNat = 0xED → b1.toNat ≤ 0x9F) := by
                split at hl <;> split at hh <;> omega
              refine ⟨by omega, ?_⟩
              unfold encode
              rw [if_neg (by omega), if_neg (by omega), if_pos (by omega), u8_ext (a := b0) (by omega), u8_ext (a := b1) (by omega),
                u8_ext (a := b2) (by omega)]
              rfl
            · simp [c1, show ¬ b0.toNat < 0x80 by omega] at h
        · simp only [h3, if_false] at h ⊢
          by_cases h4 : b0.toNat < 0xF5
          · simp only [h4, if_true] at h ⊢
            match r with
            | [] => simp [show ¬ b0.toNat < 0x80 by omega] at h
            | [b1] => simp [show ¬ b0.toNat < 0x80 by omega] at h
            | [b1, b2] => simp [show ¬ b0.toNat < 0x80 by omega] at h
            | b1 :: b2 :: b3 :: r =>
              dsimp only at h ⊢
              generalize hlo : (if b0.toNat = 0xF0 then (0x90 : UInt8) else 0x80) = lo at h ⊢
              generalize hhi : (if b0.toNat = 0xF4 then (0x8F : UInt8) else 0xBF) = hi at h ⊢
              by_cases c1 : (decide (lo ≤ b1) && decide (b1 ≤ hi) && (decide (0x80 ≤ b2) && decide (b2 ≤ 0xBF)) &&
                  (decide (0x80 ≤ b3) && decide (b3 ≤ 0xBF))) = true
              · simp only [c1, if_true] at h ⊢
                have l1 : ((lo.toNat ≤ b1.toNat ∧ b1.toNat ≤ hi.toNat) ∧ 0x80 ≤ b2.toNat ∧ b2.toNat ≤ 0xBF) ∧ 0x80 ≤ b3.toNat ∧ b3.toNat ≤ 0xBF := by
                  simpa [UInt8.le_iff_toNat_le] using c1
                have hl : lo.toNat = if b0.toNat = 0xF0 then 0x90 else 0x80 := by rw [← hlo]; split <;> rfl
                have hh : hi.toNat = if b0.toNat = 0xF4 then 0x8F else 0xBF := by rw [← hhi]; split <;> rfl
                have key : 0x80 ≤ b1.toNat ∧ b1.toNat ≤ 0xBF ∧ (b0.toNat = 0xF0 → 0x90 ≤ b1.toNat) ∧ (b0.toNat = 0xF4 → b1.toNat ≤ 0x8F) := by
                  split at hl <;> split at hh <;> omega
                refine ⟨by omega, ?_⟩
                unfold encode
                rw [if_neg (by omega), if_neg (by omega), if_neg (by omega), if_pos (by omega), u8_ext (a := b0) (by omega),
                  u8_ext (a := b1) (by omega), u8_ext (a := b2) (by omega), u8_ext (a := b3) (by omega)]
                rfl
              · simp [c1, show ¬ b0.toNat < 0x80 by omega] at h
          · simp [h4, show ¬ b0.toNat < 0x80 by omega] at h

end Verif.Text
