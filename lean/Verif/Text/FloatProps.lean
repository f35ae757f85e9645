import Verif.Text.FloatText
import Verif.Text.RoundProps
/-!
# C120: the text of a float is read back as the float
-/
set_option autoImplicit false
set_option linter.unusedVariables false
namespace Verif.Text
open Verif.Value (Str Val F64)
open Verif.Types (Ty Oid)

/-- **C120 for numbers.**  The text of a float that is a number is that of a number, with a decimal point or an exponent, never an integer; its sign
and digits are those of the float, and it is read as the float. -/
theorem C120_back_partial {dec : F64 → Dec} {parse : Str → F64} (C : Strconv dec parse) {f : F64} (h : Types.Finite f) :
    (PlainFloat (ftoa dec f) ∨ ExpFloat (ftoa dec f)) ∧ magnitude (ftoa dec f) = (dec f).magnitude ∧ negative (ftoa dec f) = (dec f).neg ∧
      parse (ftoa dec f) = f := by
  have hd := C.digit f h
  have key : (PlainFloat (ftoa dec f) ∨ ExpFloat (ftoa dec f)) ∧ magnitude (ftoa dec f) = (dec f).magnitude ∧
      negative (ftoa dec f) = (dec f).neg := by
    rw [ftoa_finite dec h]
    unfold formatG
    split
    · rename_i he
      have h0 : (dec f).ds ≠ [] := by intro e; have := C.zero f h e; omega
      have := exp_text hd h0 (C.exponent f h)
      exact ⟨Or.inr this.1, this.2⟩
    · have := plain_text hd
      exact ⟨Or.inl this.1, this.2⟩
  refine ⟨key.1, key.2.1, key.2.2, ?_⟩
  obtain ⟨near, hp, hn⟩ := C.near
  rw [hp _ key.1, key.2.1, key.2.2, hn f h]

/-- There are such conversions: those that write all digits and read exactly. -/
example : Strconv exactDec (fun s => nearExact (negative s) (magnitude s)) ∧ Types.Finite 0x3ff8000000000000#64 := ⟨strconv_exact, by decide⟩

/-- When there is an exponent: numbers below 0.0001 and from a million on have one, the others and zero have a decimal point and no exponent. -/
theorem C120_exponent {dec : F64 → Dec} {parse : Str → F64} (C : Strconv dec parse) {f : F64} (h : Types.Finite f) :
    (PlainFloat (ftoa dec f) ↔ (dec f).magnitude = 0 ∨ 1 / 10000 ≤ (dec f).magnitude ∧ (dec f).magnitude < 1000000) ∧
    (ExpFloat (ftoa dec f) ↔ (dec f).magnitude ≠ 0 ∧ ((dec f).magnitude < 1 / 10000 ∨ 1000000 ≤ (dec f).magnitude)) := by
  have hd := C.digit f h
  have key : (PlainFloat (ftoa dec f) ∧ ((dec f).magnitude = 0 ∨ 1 / 10000 ≤ (dec f).magnitude ∧ (dec f).magnitude < 1000000)) ∨
      (ExpFloat (ftoa dec f) ∧ (dec f).magnitude ≠ 0 ∧ ((dec f).magnitude < 1 / 10000 ∨ 1000000 ≤ (dec f).magnitude)) := by
    rw [ftoa_finite dec h]
    unfold formatG
    by_cases h0 : (dec f).ds = []
    · left
      rw [if_neg (by have := C.zero f h h0; omega)]
      refine ⟨(plain_text hd).1, Or.inl ?_⟩
      unfold Dec.magnitude
      rw [h0]; simp [number]
    · have hb := dec_bounds hd (C.lead f h) h0
      have mono : ∀ {a b : Int}, a ≤ b → (10 : ℚ) ^ a ≤ (10 : ℚ) ^ b := fun h => zpow_le_zpow_right₀ (by norm_num) h
      split
      · rename_i he
        right
        refine ⟨(exp_text hd h0 (C.exponent f h)).1, ne_of_gt (lt_of_lt_of_le (zpow_pos (by norm_num) _) hb.1), ?_⟩
        rcases he with he | he
        · left
          refine lt_of_lt_of_le hb.2 (le_trans (mono (b := -4) (by omega)) ?_)
          norm_num
        · right
          refine le_trans ?_ (le_trans (mono (a := 6) he) hb.1)
          norm_num
      · rename_i he
        left
        refine ⟨(plain_text hd).1, Or.inr ⟨?_, ?_⟩⟩
        · refine le_trans ?_ (le_trans (mono (a := -4) (by omega)) hb.1)
          norm_num
        · refine lt_of_lt_of_le hb.2 (le_trans (mono (b := 6) (by omega)) ?_)
          norm_num
  rcases key with ⟨hp, hm⟩ | ⟨hp, hm⟩
  · refine ⟨⟨fun _ => hm, fun _ => hp⟩, ⟨fun hx => (not_both hp hx).elim, fun hx => ?_⟩⟩
    rcases hm with hm | hm
    · exact absurd hm hx.1
    · rcases hx.2 with hx | hx
      · exact absurd hm.1 (not_le.mpr hx)
      · exact absurd hm.2 (not_lt.mpr hx)
  · refine ⟨⟨fun hx => (not_both hx hp).elim, fun hx => ?_⟩, ⟨fun _ => hm, fun _ => hp⟩⟩
    rcases hx with hx | hx
    · exact absurd hx hm.1
    · rcases hm.2 with hm | hm
      · exact absurd hx.1 (not_le.mpr hm)
      · exact absurd hx.2 (not_lt.mpr hm)

/-- 1.5, 1500000 and 0.000015 -/
example : ftoa (fun _ => ⟨false, [1, 5], 1⟩) 0 = [49, 46, 53] ∧ ftoa (fun _ => ⟨true, [1, 5], 7⟩) 0 = [45, 49, 46, 53, 69, 43, 48, 54] ∧
    ftoa (fun _ => ⟨false, [1, 5], -4⟩) 0 = [49, 46, 53, 69, 45, 48, 53] := by decide

/-- 3.0 and 0.0 -/
example : ftoa (fun _ => ⟨false, [3], 1⟩) 0 = [51, 46, 48] ∧ ftoa (fun _ => ⟨false, [], 0⟩) 0 = [48, 46, 48] := by decide

/-- An environment that prints floats with `Ftoa` and reads them with `ParseFloat` -/
structure UsesStrconv (S : SEnv) (E : PEnv) (dec : F64 → Dec) (parse : Str → F64) : Prop where
  ftoa : S.ftoa = Text.ftoa dec
  parse : E.parseFloat = parse
  ctrl : ∀ c < 32, S.isPrint c = false

/-- The type of a float is read back, for each float that is a number; and so is each range of floats whose lower bound has no exponent. -/
theorem C120_type_partial {dec : F64 → Dec} {parse : Str → F64} (C : Strconv dec parse) {S : SEnv} {E : PEnv} (U : UsesStrconv S E dec parse) :
    (∀ f, Types.Finite f → parseType E (typeString S (.exact (.float f))) = .ok (.exact (.float f))) ∧
    ∀ min max inclusive, Types.Finite min → Types.Finite max → Value.F64.lt min max = true → Value.F64.eq min Types.F64.min = false →
      Value.F64.eq max Types.F64.max = false → (dec min).magnitude = 0 ∨ 1 / 10000 ≤ (dec min).magnitude ∧ (dec min).magnitude < 1000000 →
      parseType E (typeString S (.floatRange min max inclusive)) = .ok (.floatRange min max inclusive) := by
  have ok : ∀ f, Types.Finite f → FloatOk S E f := by
    intro f h
    have hb := C120_back_partial C h
    unfold FloatOk
    rw [U.ftoa, U.parse]
    exact ⟨hb.1, hb.2.2.2⟩
  constructor
  · intro f h
    exact C35_partial (t := .exact (.float f)) U.ctrl ⟨rfl, ok f h⟩
  · intro min max inclusive h1 h2 hlt hmin hmax hm
    refine C35_partial (t := .floatRange min max inclusive) U.ctrl ⟨hlt, Or.inr ⟨hmin, ?_, (ok min h1).2⟩, hmax, ok max h2⟩
    rw [U.ftoa]
    exact (C120_exponent C h1).1.mpr hm

/-- `1.0...2.0` of all digits -/
example (E : PEnv) (hE : E.parseFloat = fun s => nearExact (negative s) (magnitude s)) :
    parseType E (typeString ⟨fun c => decide (32 ≤ c), ftoa exactDec, fun _ => [], fun _ => []⟩ (.exact (.float 0x3ff8000000000000#64))) =
      .ok (.exact (.float 0x3ff8000000000000#64)) :=
  (C120_type_partial strconv_exact ⟨rfl, hE, by intro c hc; simp; omega⟩).1 _ (by decide)

/-- **C120 is violated by ranges.**  A range of floats with a lower bound that is printed with an exponent, `1E+06..2E+06`, is not read back: the lexer
refuses a dot after an exponent. -/
theorem C120_range_violated {dec : F64 → Dec} {parse : Str → F64} (C : Strconv dec parse) {S : SEnv} {E : PEnv} (U : UsesStrconv S E dec parse)
    {min : F64} (max : F64) (inclusive : Bool) (h : Types.Finite min) (hmin : Value.F64.eq min Types.F64.min = false)
    (hm : (dec min).magnitude ≠ 0 ∧ ((dec min).magnitude < 1 / 10000 ∨ 1000000 ≤ (dec min).magnitude)) :
    parseType E (typeString S (.floatRange min max inclusive)) = .error (.lex (.unexpected 46)) := by
  have hx := (C120_exponent C h).2.mpr hm
  have ht : ∃ rest, typeString S (.floatRange min max inclusive) = ftoa dec min ++ 46 :: rest := by
    unfold typeString
    simp only [tyPieces, floatRangePieces, hmin]
    cases inclusive <;> simp [textOfPieces, Piece.text, U.ftoa]
  obtain ⟨rest, ht⟩ := ht
  unfold parseType Text.parse
  rw [ht, tokens_error (nextToken_exp_dot hx rest)]
  rfl

/-- From a million on: all digits of 1000000.0 -/
example (E : PEnv) (hE : E.parseFloat = fun s => nearExact (negative s) (magnitude s)) (max : F64) :
    parseType E (typeString ⟨fun c => decide (32 ≤ c), ftoa exactDec, fun _ => [], fun _ => []⟩ (.floatRange 0x412e848000000000#64 max true)) =
      .error (.lex (.unexpected 46)) := by
  refine C120_range_violated strconv_exact ⟨rfl, hE, by intro c hc; simp; omega⟩ max true (by decide) (by decide +kernel) ?_
  have e : (exactDec 0x412e848000000000#64).magnitude = 1000000 := by
    rw [exactDec_magnitude]
    have h1 : (0x412e848000000000#64).toNat % 2 ^ 63 = Value.F64.ofNat 1000000 := by decide +kernel
    unfold units10
    rw [h1, Types.exact_nat (by norm_num)]
    have h2 : Types.one * unit10 = 10 ^ 1074 := by unfold Types.one unit10; decide +kernel
    rw [Nat.mul_assoc, h2]
    rw [zpow_neg]
    push_cast
    rw [mul_assoc, show ((10 : ℚ) ^ (1074 : Int)) = (10 : ℚ) ^ 1074 from zpow_natCast _ _, mul_inv_cancel₀ (pow_ne_zero _ (by norm_num)), mul_one]
  rw [e]
  norm_num

/-- **C120 is violated by what is no number.**  `NaN.0` is a name, a dot and an integer; `+Inf.0` and `-Inf.0` are refused by the lexer. -/
theorem C120_nan_violated (dec : F64 → Dec) (E : PEnv) (f : F64) (h : ¬ Types.Finite f) :
    (¬ PlainFloat (ftoa dec f) ∧ ¬ ExpFloat (ftoa dec f)) ∧
    (Value.F64.isNaN f = true → tokens (runes (ftoa dec f)) = .ok [⟨[78, 97, 78], tIdentifier⟩, ⟨[], 46⟩, ⟨[48], tInteger⟩, ⟨[], tEnd⟩]) ∧
    (Value.F64.isNaN f = false → parseType E (ftoa dec f) = .error (.lex (.unexpected 73))) := by
  unfold Types.Finite at h
  rcases Nat.lt_or_ge 0x7ff0000000000000 (f.toNat % 2 ^ 63) with hn | hn
  · have e : ftoa dec f = [78, 97, 78, 46, 48] := by
      unfold ftoa
      rw [if_pos hn]; decide
    have hN : Value.F64.isNaN f = true := by unfold Value.F64.isNaN Value.F64.mag; simpa using hn
    rw [e, hN]
    refine ⟨no_float 78 (by simp) (by decide), fun _ => ?_, by simp⟩
    have h1 : nextToken (runes [78, 97, 78, 46, 48]) = .ok (⟨[78, 97, 78], tIdentifier⟩, runes [46, 48]) := by
      simp [runes_ascii, nextToken, buildToken, isDigit, isIdStart, isLetter, isUpper, isLower, identifierLoop, isId, encode, Except.map]
    have h2 : nextToken (runes [46, 48]) = .ok (⟨[], 46⟩, runes [48]) := by
      simp [runes_ascii, nextToken, dots]
    have h3 : nextToken (runes [48]) = .ok (⟨[48], tInteger⟩, []) := by
      rw [runes_ascii (by decide), runes]
      simp [nextToken, buildToken, isDigit, consumeNumber, numberLoop, encode, Except.map]
    have h4 : nextToken [] = .ok (⟨[], tEnd⟩, []) := rfl
    rw [tokens_cons h1 (by decide), tokens_cons h2 (by decide), tokens_cons h3 (by decide), tokens_end h4 rfl]
    rfl
  · have hI : f.toNat % 2 ^ 63 = 0x7ff0000000000000 := by omega
    have e : ftoa dec f = (if f.toNat ≥ 2 ^ 63 then 45 else 43) :: [73, 110, 102, 46, 48] := by
      unfold ftoa
      rw [if_neg (by omega), if_pos hI]
      by_cases hs : f.toNat ≥ 2 ^ 63
      · rw [if_pos hs]; decide
      · rw [if_neg hs]; decide
    have hN : Value.F64.isNaN f = false := by unfold Value.F64.isNaN Value.F64.mag; simp; omega
    rw [e, hN]
    refine ⟨no_float 73 (by simp) (by decide), by simp, fun _ => ?_⟩
    · have : nextToken (runes ((if f.toNat ≥ 2 ^ 63 then 45 else 43) :: [73, 110, 102, 46, 48])) = .error (.unexpected 73) := by
        by_cases hs : f.toNat ≥ 2 ^ 63
        · rw [if_pos hs]; simp [runes_ascii, nextToken, signed, isDigit, badToken]
        · rw [if_neg hs]; simp [runes_ascii, nextToken, signed, isDigit, badToken]
      unfold parseType Text.parse
      rw [tokens_error this]
      rfl


end Verif.Text
