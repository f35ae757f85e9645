import Verif.Text.FloatLemmas
import Verif.Types.NumLemmas
import Mathlib.Data.Nat.Digits.Lemmas
/-!
# Lemmas on the texts of floats: `Ftoa`
-/
set_option autoImplicit false
set_option linter.unusedVariables false
set_option linter.unusedSimpArgs false
namespace Verif.Text
open Verif.Value (Str F64)
open Verif.Types (magUnits)

theorem addPoint_id {s : Str} (h : 69 ∈ s ∨ 46 ∈ s) : addPoint s = s := by
  unfold addPoint
  rw [if_pos]
  rw [List.any_eq_true]
  rcases h with h | h
  · exact ⟨69, h, by decide⟩
  · exact ⟨46, h, by decide⟩

theorem addPoint_digits {sg w : Str} (hs : sg = [] ∨ sg = [45]) (hw : ∀ b ∈ w, 48 ≤ b.toNat ∧ b.toNat ≤ 57) : addPoint (sg ++ w) = sg ++ w ++ [46] ++ [48] := by
  unfold addPoint
  rw [if_neg, List.append_assoc, List.append_assoc, List.append_assoc]
  · rfl
  · rw [List.any_eq_true]
    rintro ⟨b, hb, h⟩
    have hne : b = 101 ∨ b = 69 ∨ b = 46 := by
      simp at h; rcases h with (h | h) | h <;> simp [h]
    rcases List.mem_append.mp hb with hb | hb
    · rcases hs with rfl | rfl
      · cases hb
      · simp at hb; subst hb; revert hne; decide
    · have := hw b hb
      rcases hne with rfl | rfl | rfl <;> exact absurd this (by decide)

theorem sg_ok (n : Bool) : ((if n = true then [45] else []) : Str) = [] ∨ ((if n = true then [45] else []) : Str) = [45] := by cases n <;> simp

theorem plain_text {d : Dec} (h : ∀ x ∈ d.ds, x < 10) : PlainFloat (addPoint (fmtF d)) ∧ magnitude (addPoint (fmtF d)) = d.magnitude ∧
    negative (addPoint (fmtF d)) = d.neg := by
  obtain ⟨w, fr, hw, hf, hw0, hd, hm⟩ := fmtF_parts d h
  have hn : decide (((if d.neg = true then [45] else []) : Str) = [45]) = d.neg := by cases d.neg <;> simp
  by_cases h0 : fr = []
  · subst h0
    rw [if_pos rfl, List.append_nil] at hd
    have hp := addPoint_digits (sg_ok d.neg) (digits_map hw0 hw).2
    rw [hd, hp]
    refine ⟨⟨_, _, [48], sg_ok d.neg, digits_map hw0 hw, ⟨by simp, by simp⟩, rfl⟩, ?_⟩
    have hs := magnitude_shape (sg_ok d.neg) hw0 hw (fr := [0]) (by simp) (ex := []) (Or.inl rfl)
    rw [if_neg (show ¬ ([0] : List Nat) = [] by simp), List.append_nil] at hs
    have e : (if d.neg = true then [45] else []) ++ List.map dch w ++ [46] ++ [48] =
      (if d.neg = true then [45] else []) ++ List.map dch w ++ 46 :: List.map dch [0] := by simp [dch]
    rw [e, hs.1, hs.2, hn]
    refine ⟨?_, rfl⟩
    rw [← hm, number_append]
    simp [number, exponentOf]
  · rw [if_neg h0] at hd
    rw [addPoint_id (by rw [hd]; right; simp), hd]
    refine ⟨⟨_, _, fr.map dch, sg_ok d.neg, digits_map hw0 hw, digits_map h0 hf, by simp⟩, ?_⟩
    have hs := magnitude_shape (sg_ok d.neg) hw0 hw hf (ex := []) (Or.inl rfl)
    rw [if_neg h0, List.append_nil] at hs
    rw [hs.1, hs.2, hn, ← hm]
    simp [exponentOf]

theorem exp_text {d : Dec} (h : ∀ x ∈ d.ds, x < 10) (h0 : d.ds ≠ []) (he : -323 ≤ d.dp ∧ d.dp ≤ 309) :
    ExpFloat (addPoint (fmtE d)) ∧ magnitude (addPoint (fmtE d)) = d.magnitude ∧ negative (addPoint (fmtE d)) = d.neg := by
  obtain ⟨w, fr, xs, es, hw, hf, hx, hw0, hx0, hes, hd, hm⟩ := fmtE_parts d h h0 he
  have hn : decide (((if d.neg = true then [45] else []) : Str) = [45]) = d.neg := by cases d.neg <;> simp
  rw [addPoint_id (by rw [hd]; left; simp), hd]
  refine ⟨⟨_, _, if fr = [] then [] else 46 :: fr.map dch, [es], xs.map dch, sg_ok d.neg, digits_map hw0 hw, ?_, ?_, digits_map hx0 hx, rfl⟩, ?_⟩
  · by_cases hf0 : fr = []
    · left; rw [if_pos hf0]
    · right; exact ⟨_, digits_map hf0 hf, by rw [if_neg hf0]; rfl⟩
  · rcases hes with rfl | rfl <;> simp
  · have hs := magnitude_shape (sg_ok d.neg) hw0 hw hf (ex := 69 :: es :: xs.map dch) (Or.inr ⟨_, rfl⟩)
    have e : (if d.neg = true then [45] else []) ++ w.map dch ++ (if fr = [] then [] else 46 :: fr.map dch) ++ [69] ++ [es] ++ xs.map dch =
      (if d.neg = true then [45] else []) ++ w.map dch ++ (if fr = [] then [] else 46 :: fr.map dch) ++ 69 :: es :: xs.map dch := by simp
    rw [e, hs.1, hs.2, hn, ← hm]
    refine ⟨?_, rfl⟩
    congr 3
    rcases hes with rfl | rfl
    · show (numberOf (xs.map dch) : Int) = _
      rw [numberOf_map hx]; rfl
    · show -(numberOf (xs.map dch) : Int) = _
      rw [numberOf_map hx]; rfl

theorem ftoa_finite (dec : F64 → Dec) {f : F64} (h : Types.Finite f) : ftoa dec f = addPoint (formatG (dec f)) := by
  unfold Types.Finite at h
  unfold ftoa
  rw [if_neg (by omega), if_neg (by omega)]

theorem number_lt {ds : List Nat} (h : ∀ x ∈ ds, x < 10) : number ds < 10 ^ ds.length := by
  induction ds with
  | nil => simp [number]
  | cons d ds ih =>
    have h1 := ih fun x hx => h x (by simp [hx])
    have h2 : d < 10 := h d (by simp)
    have e : number (d :: ds) = d * 10 ^ ds.length + number ds := by
      have := number_append [d] ds
      simpa [number] using this
    rw [e, List.length_cons, pow_succ]
    have : d * 10 ^ ds.length ≤ 9 * 10 ^ ds.length := Nat.mul_le_mul_right _ (by omega)
    omega

theorem number_ge {d : Nat} {ds : List Nat} (h : d ≠ 0) : 10 ^ ds.length ≤ number (d :: ds) := by
  have e : number (d :: ds) = d * 10 ^ ds.length + number ds := by
    have := number_append [d] ds
    simpa [number] using this
  rw [e]
  have : 1 * 10 ^ ds.length ≤ d * 10 ^ ds.length := Nat.mul_le_mul_right _ (by omega)
  omega

/-- between which powers of ten the number is -/
theorem dec_bounds {d : Dec} (h : ∀ x ∈ d.ds, x < 10) (hl : d.ds.head? ≠ some 0) (h0 : d.ds ≠ []) :
    (10 : ℚ) ^ (d.dp - 1) ≤ d.magnitude ∧ d.magnitude < (10 : ℚ) ^ d.dp := by
  obtain ⟨neg, ds, dp⟩ := d
  cases ds with
  | nil => exact absurd rfl h0
  | cons x ds =>
    simp only at h hl
    have hx : x ≠ 0 := by rintro rfl; exact hl rfl
    have h1 := number_ge (ds := ds) hx
    have h2 := number_lt h
    have ten : (10 : ℚ) ≠ 0 := by norm_num
    have hpos : ∀ e : Int, (0 : ℚ) < (10 : ℚ) ^ e := fun e => zpow_pos (by norm_num) e
    unfold Dec.magnitude
    simp only [List.length_cons] at h2 ⊢
    have q1 : ((10 : ℚ) ^ ds.length) ≤ (number (x :: ds) : ℚ) := by exact_mod_cast h1
    have q2 : (number (x :: ds) : ℚ) < (10 : ℚ) ^ (ds.length + 1) := by exact_mod_cast h2
    constructor
    · calc (10 : ℚ) ^ (dp - 1) = (10 : ℚ) ^ ds.length * (10 : ℚ) ^ (dp - ((ds.length + 1 : Nat) : Int)) := by
            rw [← zpow_natCast, ← zpow_add₀ ten]; congr 1; push_cast; ring
        _ ≤ _ := mul_le_mul_of_nonneg_right q1 (le_of_lt (hpos _))
    · calc _ < (10 : ℚ) ^ (ds.length + 1) * (10 : ℚ) ^ (dp - ((ds.length + 1 : Nat) : Int)) := mul_lt_mul_of_pos_right q2 (hpos _)
        _ = (10 : ℚ) ^ dp := by rw [← zpow_natCast, ← zpow_add₀ ten]; congr 1; push_cast; ring

theorem not_both {s : Str} (h1 : PlainFloat s) (h2 : ExpFloat s) : False := by
  obtain ⟨sg, ds, fs, hs, hd, hf, rfl⟩ := h1
  obtain ⟨sg', ds', frac, es, xs, hs', hd', hf', he, hx, e⟩ := h2
  have : (69 : UInt8) ∈ sg ++ ds ++ [46] ++ fs := by rw [e]; simp
  simp only [List.mem_append] at this
  rcases this with ((h | h) | h) | h
  · rcases hs with rfl | rfl <;> simp at h
  · exact absurd (hd.2 _ h) (by decide)
  · simp at h
  · exact absurd (hf.2 _ h) (by decide)

theorem float_chars {s : Str} (h : PlainFloat s ∨ ExpFloat s) : ∀ b ∈ s, (48 ≤ b.toNat ∧ b.toNat ≤ 57) ∨ b = 43 ∨ b = 45 ∨ b = 46 ∨ b = 69 := by
  rcases h with ⟨sg, ds, fs, hs, hd, hf, rfl⟩ | ⟨sg, ds, frac, es, xs, hs, hd, hf, he, hx, rfl⟩
  · intro b hb
    simp only [List.mem_append] at hb
    rcases hb with ((hb | hb) | hb) | hb
    · rcases hs with rfl | rfl
      · cases hb
      · simp at hb; simp [hb]
    · exact Or.inl (hd.2 b hb)
    · simp at hb; simp [hb]
    · exact Or.inl (hf.2 b hb)
  · intro b hb
    simp only [List.mem_append] at hb
    rcases hb with ((((hb | hb) | hb) | hb) | hb) | hb
    · rcases hs with rfl | rfl
      · cases hb
      · simp at hb; simp [hb]
    · exact Or.inl (hd.2 b hb)
    · rcases hf with rfl | ⟨fs, hf, rfl⟩
      · cases hb
      · rcases List.mem_append.mp hb with hb | hb
        · simp at hb; simp [hb]
        · exact Or.inl (hf.2 b hb)
    · simp at hb; simp [hb]
    · rcases he with rfl | rfl | rfl
      · cases hb
      · simp at hb; simp [hb]
      · simp at hb; simp [hb]
    · exact Or.inl (hx.2 b hb)

theorem no_float {s : Str} (b : UInt8) (hb : b ∈ s) (h : ¬ ((48 ≤ b.toNat ∧ b.toNat ≤ 57) ∨ b = 43 ∨ b = 45 ∨ b = 46 ∨ b = 69)) :
    ¬ PlainFloat s ∧ ¬ ExpFloat s :=
  ⟨fun hp => h (float_chars (Or.inl hp) b hb), fun hp => h (float_chars (Or.inr hp) b hb)⟩

/-! ## Numbers with exponents before dots -/

theorem unsigned_dot {rest : Str} : ∀ (ds buf : Str), (∀ b ∈ ds, Dig b) →
    consumeUnsigned buf (runes (ds ++ 46 :: rest)) = .error (.unexpected 46)
  | [], buf, _ => by
    rw [List.nil_append, runes_ascii (by decide), consumeUnsigned, if_pos (by decide)]
    rfl
  | b :: ds, buf, h => by
    have hb := h b List.mem_cons_self
    unfold Dig at hb
    have hd : isDigit b.toNat = true := by unfold isDigit; simp; omega
    have hl : isLetter b.toNat = false := by unfold isLetter isUpper isLower; simp; omega
    rw [List.cons_append, runes_ascii (by omega), consumeUnsigned, if_neg (by rw [hl]; simp; omega), if_pos hd,
      unsigned_dot ds _ fun b hb => h b (List.mem_cons_of_mem _ hb)]

theorem exponent_dot {rest : Str} {xs : Str} (hx : Digits xs) (buf : Str) :
    exponentDigits buf (runes (xs ++ 46 :: rest)) = .error (.unexpected 46) := by
  obtain ⟨b, t, rfl, hb, ht⟩ := digits_cons hx
  have hd : isDigit b.toNat = true := by unfold Dig at hb; unfold isDigit; simp; omega
  unfold Dig at hb
  rw [List.cons_append, runes_ascii (by omega), exponentDigits, if_pos hd, unsigned_dot _ _ ht]

theorem consumeExponent_dot {rest : Str} {es xs : Str} (he : es = [] ∨ es = [43] ∨ es = [45]) (hx : Digits xs) (buf : Str) :
    consumeExponent buf (runes (es ++ xs ++ 46 :: rest)) = .error (.unexpected 46) := by
  have hsign : ∀ c : UInt8, (c = 43 ∨ c = 45) → consumeExponent buf (runes ([c] ++ xs ++ 46 :: rest)) = .error (.unexpected 46) := by
    intro c hc
    have h1 : c.toNat < 0x80 ∧ c.toNat ≠ 0 ∧ (c.toNat = 43 ∨ c.toNat = 45) := by rcases hc with rfl | rfl <;> decide
    rw [List.append_assoc, List.cons_append, List.nil_append, runes_ascii h1.1, consumeExponent, if_neg h1.2.1, if_pos h1.2.2,
      exponent_dot hx]
  rcases he with rfl | rfl | rfl
  · obtain ⟨b, t, hbt, hb, ht⟩ := digits_cons hx
    unfold Dig at hb
    have h2 := exponent_dot (rest := rest) hx buf
    rw [List.nil_append]
    rw [hbt, List.cons_append, runes_ascii (by omega)] at h2 ⊢
    rw [consumeExponent, if_neg (by omega), if_neg (by omega), h2]
  · exact hsign _ (Or.inl rfl)
  · exact hsign _ (Or.inr rfl)

theorem numberLoop_dot {rest : Str} {es xs : Str} (he : es = [] ∨ es = [43] ∨ es = [45]) (hx : Digits xs)
    (fz : Bool) (ty : Nat) (buf : Str) : numberLoop fz ty buf (runes ([69] ++ es ++ xs ++ 46 :: rest)) = .error (.unexpected 46) := by
  have : [69] ++ es ++ xs ++ 46 :: rest = 69 :: (es ++ xs ++ 46 :: rest) := by simp
  rw [this, runes_ascii (by decide), numberLoop.eq_def]
  dsimp only
  rw [if_neg (by decide), if_neg (by decide), if_pos (by decide), consumeExponent_dot he hx]
  rfl

theorem nextToken_bad {sg : Str} (hs : sg = [] ∨ sg = [45]) {b : UInt8} (hb : Dig b) (t : Str) {e : Err}
    (h : numberLoop (b.toNat == 48) tInteger (sg ++ [b]) (runes t) = .error e) : nextToken (runes (sg ++ b :: t)) = .error e := by
  have hd : isDigit b.toNat = true := by unfold Dig at hb; unfold isDigit; simp; omega
  unfold Dig at hb
  have he : encode b.toNat = [b] := by rw [encode_ascii (by omega), u8_ext rfl]
  have hc : consumeNumber b.toNat sg tInteger (runes t) = .error e := by
    unfold consumeNumber
    rw [he, ← h]
    rfl
  rcases hs with rfl | rfl
  · rw [List.nil_append, runes_ascii (by omega), nextToken.eq_def]
    dsimp only
    rw [if_neg (by omega), if_neg (by omega), if_neg (by omega), if_neg (by omega), if_neg (by omega), if_neg (by omega), if_neg (by omega)]
    unfold buildToken
    rw [if_pos hd, hc]
    rfl
  · rw [List.cons_append, List.nil_append, runes_ascii (by decide), nextToken.eq_def]
    dsimp only
    rw [if_neg (by decide), if_neg (by decide), if_neg (by decide), if_neg (by decide), if_neg (by decide), if_neg (by decide),
      if_pos (by decide), runes_ascii (by omega)]
    unfold signed
    dsimp only
    rw [if_pos hd]
    have : (if (45 : UInt8).toNat = 45 then ([45] : Str) else []) = [45] := by decide
    rw [this, hc]
    rfl

theorem nextToken_exp_dot {s : Str} (h : ExpFloat s) (rest : Str) : nextToken (runes (s ++ 46 :: rest)) = .error (.unexpected 46) := by
  obtain ⟨sg, ds, frac, es, xs, hs, hd, hf, he, hx, rfl⟩ := h
  obtain ⟨b, t, rfl, hb, ht⟩ := digits_cons hd
  have := nextToken_bad hs hb (t ++ (frac ++ ([69] ++ es ++ xs ++ 46 :: rest))) (e := .unexpected 46) (by
    rw [numberLoop_digits _ _ _ _ _ ht]
    rcases hf with rfl | ⟨fs, hf, rfl⟩
    · rw [List.nil_append, numberLoop_dot he hx]
    · rw [numberLoop_frac hf, numberLoop_dot he hx])
  rw [← this]
  simp

/-! ## There are conversions that meet the specification -/

theorem number_digits (n : Nat) : number (Nat.digits 10 n).reverse = n := by
  conv => rhs; rw [← Nat.ofDigits_digits 10 n]
  unfold number
  rw [List.foldl_reverse, Nat.ofDigits_eq_foldr]
  congr 1
  funext d a
  simp; omega

/-- 10^1074 units of 10^-1074 are 2^1074 units of 2^-1074. -/
@[irreducible] def unit10 : Nat := 5 ^ 1074

/-- The float in units of 10^-1074 -/
def units10 (f : F64) : Nat := magUnits (f.toNat % 2 ^ 63) * unit10

/-- All digits of a float -/
def exactDec (f : F64) : Dec :=
  ⟨f.toNat ≥ 2 ^ 63, (Nat.digits 10 (units10 f)).reverse, if units10 f = 0 then 0 else (Nat.digits 10 (units10 f)).length - 1074⟩

theorem exactDec_magnitude (f : F64) : (exactDec f).magnitude = (units10 f : ℚ) * (10 : ℚ) ^ (-1074 : Int) := by
  unfold Dec.magnitude exactDec
  simp only [number_digits, List.length_reverse]
  split
  · rename_i h; rw [h]; simp
  · congr 2; omega

theorem unit10_pos : 0 < unit10 := by unfold unit10; exact Nat.pow_pos (by norm_num)
theorem unit10_low : 10 ^ 750 ≤ unit10 := by unfold unit10; decide +kernel
theorem unit10_high : 2 ^ 52 * 2 ^ 2046 * unit10 < 10 ^ 1383 := by unfold unit10; decide +kernel

theorem exactDec_inj {f g : F64} (h : (exactDec f).magnitude = (exactDec g).magnitude) (hn : (exactDec f).neg = (exactDec g).neg) : f = g := by
  rw [exactDec_magnitude, exactDec_magnitude] at h
  have h1 : (units10 f : ℚ) = units10 g := mul_right_cancel₀ (ne_of_gt (zpow_pos (by norm_num) _)) h
  have h2 : units10 f = units10 g := by exact_mod_cast h1
  unfold units10 at h2
  have h3 := Nat.eq_of_mul_eq_mul_right unit10_pos h2
  rw [Types.magUnits_inj] at h3
  have hn' : decide (f.toNat ≥ 2 ^ 63) = decide (g.toNat ≥ 2 ^ 63) := hn
  rw [decide_eq_decide] at hn'
  apply BitVec.eq_of_toNat_eq
  have := f.isLt
  have := g.isLt
  omega

theorem exactDec_exponent {f : F64} (h : Types.Finite f) : -323 ≤ (exactDec f).dp ∧ (exactDec f).dp ≤ 309 := by
  unfold exactDec
  dsimp only
  split
  · omega
  · rename_i h0
    have hm : magUnits (f.toNat % 2 ^ 63) < 2 ^ 52 * 2 ^ 2046 := by
      have := Types.magUnits_lt.mpr h
      have e : magUnits 0x7ff0000000000000 = 2 ^ 52 * 2 ^ 2046 := by
        have := Types.magUnits_norm (e := 2047) (fr := 0) (by omega) (by omega)
        rw [show 0x7ff0000000000000 = 2047 * 2 ^ 52 + 0 by norm_num, this, Nat.add_zero]
      omega
    have h1 : units10 f < 10 ^ 1383 := by
      unfold units10
      exact lt_trans (Nat.mul_lt_mul_of_pos_right hm unit10_pos) unit10_high
    have h2 : 10 ^ 750 ≤ units10 f := by
      unfold units10 at h0 ⊢
      have : 1 ≤ magUnits (f.toNat % 2 ^ 63) := by
        rcases Nat.eq_zero_or_pos (magUnits (f.toNat % 2 ^ 63)) with e | e
        · rw [e] at h0; simp at h0
        · exact e
      calc 10 ^ 750 ≤ 1 * unit10 := by rw [Nat.one_mul]; exact unit10_low
        _ ≤ _ := Nat.mul_le_mul_right _ this
    have l1 : (Nat.digits 10 (units10 f)).length ≤ 1383 := (Nat.digits_length_le_iff (by norm_num) _).mpr h1
    have l2 : 750 < (Nat.digits 10 (units10 f)).length := (Nat.lt_digits_length_iff (by norm_num) _).mpr h2
    omega

open Classical in
/-- The float that is a number -/
noncomputable def nearExact (b : Bool) (q : ℚ) : F64 :=
  if h : ∃ f, Types.Finite f ∧ (exactDec f).neg = b ∧ (exactDec f).magnitude = q then h.choose else 0

theorem nearExact_dec {f : F64} (h : Types.Finite f) : nearExact (exactDec f).neg (exactDec f).magnitude = f := by
  have hx : ∃ g, Types.Finite g ∧ (exactDec g).neg = (exactDec f).neg ∧ (exactDec g).magnitude = (exactDec f).magnitude := ⟨f, h, rfl, rfl⟩
  unfold nearExact
  rw [dif_pos hx]
  exact exactDec_inj hx.choose_spec.2.2 hx.choose_spec.2.1

theorem strconv_exact : Strconv exactDec fun s => nearExact (negative s) (magnitude s) where
  digit := by
    intro f h d hd
    exact Nat.digits_lt_base (by norm_num) (List.mem_reverse.mp hd)
  lead := by
    intro f h he
    unfold exactDec at he
    dsimp only at he
    rw [List.head?_reverse] at he
    have h0 : Nat.digits 10 (units10 f) ≠ [] := by intro e; rw [e] at he; cases he
    rw [List.getLast?_eq_some_getLast h0] at he
    have hz : units10 f ≠ 0 := by intro e; rw [e] at h0; simp at h0
    exact Nat.getLast_digit_ne_zero 10 hz (Option.some.inj he)
  zero := by
    intro f h he
    unfold exactDec at he ⊢
    dsimp only at he ⊢
    rw [List.reverse_eq_nil_iff, Nat.digits_eq_nil_iff_eq_zero] at he
    rw [if_pos he]
  exponent := fun f h => exactDec_exponent h
  near := ⟨nearExact, fun s _ => rfl, fun f h => nearExact_dec h⟩

end Verif.Text
