import Verif.Text.RangeLemmas
import Verif.Types.AssignProps
/-!
# C111: ranges in texts
-/
set_option autoImplicit false
set_option linter.unusedVariables false
namespace Verif.Text
open Verif.Value (Str Val F64)
open Verif.Types (Ty Oid instanceOf)

/-- The text with integers -/
def intRangeText (lo : Option (BitVec 64)) (incl : Bool) (hi : Option (BitVec 64)) : Str := rangeText (lo.map .int) incl (hi.map .int)

/-- **C111 for integers.**  `a..b`, `a...b`, `a..`, `a...`, `..b` and `...b` are read as a type that accepts the integers from the lesser to the greater
number, the greater one if there are two dots; a missing number is the smallest or greatest there is.  An exclusive range from a number to itself is
refused.  Not shown for exclusive ranges from the smallest to the greatest integer: see `C111_full_violated`. -/
theorem C111_integers_partial (E : PEnv) (TE : Types.Env) (lo hi : Option (BitVec 64)) (incl : Bool) (h : lo ≠ none ∨ hi ≠ none) :
    (lo.getD Types.minI64 = hi.getD Types.maxI64 → incl = false → parseType E (intRangeText lo incl hi) = .error .badArgs) ∧
    (lo.getD Types.minI64 ≠ hi.getD Types.maxI64 ∨ incl = true →
      incl = true ∨ ¬ (lo.getD Types.minI64 = Types.minI64 ∧ hi.getD Types.maxI64 = Types.maxI64) ∧
        ¬ (hi.getD Types.maxI64 = Types.minI64 ∧ lo.getD Types.minI64 = Types.maxI64) →
      ∃ T, parseType E (intRangeText lo incl hi) = .ok T ∧ ∀ v, instanceOf TE T v = true ↔
        ∃ n, v = .int n ∧ (InInts (lo.getD Types.minI64) incl (hi.getD Types.maxI64) n ∨ InInts (hi.getD Types.maxI64) incl (lo.getD Types.minI64) n)) := by
  have hp := parse_range E (lo.map .int) (hi.map .int) incl (by simpa using h)
    (by intro n hn; cases lo <;> cases hn; trivial) (by intro n hn; cases hi <;> cases hn; trivial)
  have hr : rangeType E (lo.map .int) incl (hi.map .int) = Types.integerType (lo.getD Types.minI64) (hi.getD Types.maxI64) incl := by
    cases lo <;> cases hi <;> rfl
  rw [hr] at hp
  unfold parseType intRangeText
  rw [hp]
  constructor
  · intro he hi
    rw [Types.integerType, if_pos he, hi]; rfl
  · intro h1 h2
    obtain ⟨T, hT, hv⟩ := integerType_accepts (TE := TE) h1 h2
    rw [hT]
    exact ⟨T, rfl, hv⟩

/-- `10...7` accepts 7 and not 10; `..7` accepts -100. -/
example (E : PEnv) : (∃ T, parseType E (intRangeText (some 10) false (some 7)) = .ok T ∧ instanceOf Types.Ex.E0 T (.int 7) = true ∧
      ¬ instanceOf Types.Ex.E0 T (.int 10) = true) ∧
    ∃ T, parseType E (intRangeText none true (some 7)) = .ok T ∧ instanceOf Types.Ex.E0 T (.int (-100)) = true := by
  constructor
  · obtain ⟨T, h, hv⟩ := (C111_integers_partial E Types.Ex.E0 (some 10) (some 7) false (by simp)).2 (by decide) (by decide)
    refine ⟨T, h, (hv _).2 ⟨7, rfl, .inr (by unfold InInts; decide)⟩, fun hn => ?_⟩
    obtain ⟨n, he, hx⟩ := (hv _).1 hn
    cases he
    exact absurd hx (by unfold InInts; decide)
  · obtain ⟨T, h, hv⟩ := (C111_integers_partial E Types.Ex.E0 none (some 7) true (by simp)).2 (by decide) (by decide)
    exact ⟨T, h, (hv _).2 ⟨-100, rfl, .inl (by unfold InInts; decide)⟩⟩

/-- **C111 for floats.**  When at least one of the numbers has a decimal point, or the second one an exponent, then the range is one of floats.
`hE`: `strconv.ParseFloat` of the digits of an integer is the integer as a float.  Not shown for ranges over all finite floats: see `C111_full_violated`. -/
theorem C111_floats_partial (E : PEnv) (TE : Types.Env) (hE : ∀ i : BitVec 64, E.parseFloat (formatInt i.toInt) = E.ofInt i)
    (lo hi : Option Num) (incl : Bool) (h : (∃ s, lo = some (.flt s)) ∨ ∃ s, hi = some (.flt s)) (hlo : ∀ n, lo = some n → n.Plain)
    (hhi : ∀ n, hi = some n → n.Any) (a b : F64) (ha : a = (lo.map (Num.val E)).getD Types.F64.min) (hb : b = (hi.map (Num.val E)).getD Types.F64.max) :
    (Value.F64.eq a b = true → incl = false → parseType E (rangeText lo incl hi) = .error .badArgs) ∧
    (a.isNaN = false → b.isNaN = false → Value.F64.eq a b = false ∨ incl = true →
      ¬ (Value.F64.eq a Types.F64.min = true ∧ Value.F64.eq b Types.F64.max = true) ∧
        ¬ (Value.F64.eq b Types.F64.min = true ∧ Value.F64.eq a Types.F64.max = true) →
      ∃ T, parseType E (rangeText lo incl hi) = .ok T ∧ ∀ v, instanceOf TE T v = true ↔
        ∃ x, v = .float x ∧ (InFloats a incl b x ∨ InFloats b incl a x)) := by
  have hp := parse_range E lo hi incl (by rcases h with ⟨s, rfl⟩ | ⟨s, rfl⟩ <;> simp) hlo hhi
  have hr : rangeType E lo incl hi = Types.floatType a b incl := by
    unfold rangeType
    have hf : (lo.any Num.isFlt || hi.any Num.isFlt) = true := by rcases h with ⟨s, rfl⟩ | ⟨s, rfl⟩ <;> simp [Num.isFlt]
    rw [if_pos hf, ha, hb]
    congr 1
    cases hi with
    | none => rfl
    | some n =>
      cases n with
      | int i => exact hE i
      | flt s => rfl
  rw [hr] at hp
  unfold parseType
  rw [hp]
  constructor
  · intro he hi
    rw [Types.floatType, if_pos he, hi]; rfl
  · intro h1 h2 h3 h4
    obtain ⟨T, hT, hv⟩ := floatType_accepts (TE := TE) h1 h2 h3 h4
    rw [hT]
    exact ⟨T, rfl, hv⟩

/-- 1.0, 1.5 and 2.0 -/
def one : F64 := 0x3ff0000000000000
def oneHalf : F64 := 0x3ff8000000000000
def two : F64 := 0x4000000000000000

theorem plain_oneHalf : PlainFloat [49, 46, 53] :=
  ⟨[], [49], [53], .inl rfl, ⟨by simp, by decide⟩, ⟨by simp, by decide⟩, rfl⟩

/-- `1..1.5` accepts 1.0 and `1.5..` accepts 2.0 but not 1.0. -/
example (E : PEnv) (hE : ∀ i : BitVec 64, E.parseFloat (formatInt i.toInt) = E.ofInt i) (h1 : E.ofInt 1 = one) (h2 : E.parseFloat [49, 46, 53] = oneHalf) :
    (∃ T, parseType E (rangeText (some (.int 1)) true (some (.flt [49, 46, 53]))) = .ok T ∧ instanceOf Types.Ex.E0 T (.float one) = true) ∧
    ∃ T, parseType E (rangeText (some (.flt [49, 46, 53])) true none) = .ok T ∧ instanceOf Types.Ex.E0 T (.float two) = true ∧
      ¬ instanceOf Types.Ex.E0 T (.float one) = true := by
  constructor
  · obtain ⟨T, h, hv⟩ := (C111_floats_partial E Types.Ex.E0 hE (some (.int 1)) (some (.flt [49, 46, 53])) true (.inr ⟨_, rfl⟩)
      (by intro n hn; cases hn; trivial) (by intro n hn; cases hn; exact .inl plain_oneHalf) one oneHalf h1.symm h2.symm).2 rfl rfl (.inr rfl) (by decide)
    exact ⟨T, h, (hv _).2 ⟨one, rfl, .inl (by unfold InFloats; decide)⟩⟩
  · obtain ⟨T, h, hv⟩ := (C111_floats_partial E Types.Ex.E0 hE (some (.flt [49, 46, 53])) none true (.inl ⟨_, rfl⟩)
      (by intro n hn; cases hn; exact plain_oneHalf) (by intro n hn; cases hn) oneHalf Types.F64.max h2.symm rfl).2 rfl rfl (.inr rfl) (by decide)
    refine ⟨T, h, (hv _).2 ⟨two, rfl, .inl (by unfold InFloats; decide)⟩, fun hn => ?_⟩
    obtain ⟨x, he, hx⟩ := (hv _).1 hn
    cases he
    exact absurd hx (by unfold InFloats; decide)

/-- Dots alone are refused. -/
theorem C111_dots (E : PEnv) (incl : Bool) : parse E (dotsText incl) = .error (.syntax endTok) := by
  unfold parse
  have := tokens_range (lo := none) (hi := none) incl (by simp) (by simp)
  rw [show rangeText none incl none = dotsText incl by simp [rangeText]] at this
  rw [this]
  cases incl <;> rfl

example (E : PEnv) : parse E [46, 46] = .error (.syntax endTok) := C111_dots E true

/-! ### What the code does not keep -/

/-- **C111 is violated: what follows an open range of floats is swallowed.**  `1.5..` followed by a word, a parenthesis or anything else that is one token but not
a number is read as if that was not there; and in parentheses it is refused, because the closing one is missing then. -/
theorem C111_swallowed_violated (E : PEnv) (s : Str) (hs : PlainFloat s) (incl : Bool) :
    (∀ (rest : Str) (t : Token), nextToken (runes rest) = .ok (t, []) → t.type ≠ tEnd → t.type ≠ tInteger → t.type ≠ tFloat →
      parse E (s ++ (dotsText incl ++ 32 :: rest)) = parse E (rangeText (some (.flt s)) incl none)) ∧
    ∃ e, parse E (40 :: (s ++ (dotsText incl ++ [41]))) = .error e := by
  obtain ⟨hd1, hd2⟩ := dotsTok_type incl
  have hF : ∀ m r, typeExpression E (m + 1) (Num.flt s).tok r = pFloat E (Num.flt s).tok r := fun m r => rfl
  constructor
  · intro rest t ht h1 h2 h3
    rw [parse_range E (some (.flt s)) none incl (by simp) (by intro n hn; cases hn; exact hs) (by simp)]
    have htok : tokens (runes (32 :: rest)) = .ok [t, endTok] := by
      rw [tokens_blank, tokens_cons ht h1, ← runes_nil, tokens_nil]; rfl
    have := tokens_num_dots (n := .flt s) hs incl (rest := 32 :: rest) (.inr ⟨32, rest, rfl, by decide, by decide⟩) htok
    unfold parse
    rw [show (Num.flt s).text = s from rfl] at this
    rw [this]
    show parseTokens E ((Num.flt s).tok :: [dotsTok incl, t, endTok]) = _
    have hte : typeExpression E ([dotsTok incl, t, endTok].length + 2) (Num.flt s).tok [dotsTok incl, t, endTok] =
        (orPanic (rangeType E (some (.flt s)) incl none)).map fun r => (.ty r, [endTok]) := by
      rw [hF, pFloat]
      simp only [peekTok_cons, hd1, List.tail_cons]
      rw [if_pos hd2, if_neg (by simp [h2, h3])]; rfl
    cases hr : rangeType E (some (.flt s)) incl none with
    | none => rw [hr] at hte; exact (parseTokens_te (show tFloat ≠ 33 by decide) (show tFloat ≠ 126 by decide)).2 _ hte
    | some r => rw [hr] at hte; exact (parseTokens_te (show tFloat ≠ 33 by decide) (show tFloat ≠ 126 by decide)).1 _ _ hte (.inr rfl)
  · have hch : ∀ (c : UInt8) (r : Str), c = 40 ∨ c = 41 → nextToken (runes (c :: r)) = .ok (⟨[], c.toNat⟩, runes r) := by
      rintro c r (rfl | rfl) <;> rw [runes_ascii (by decide), nextToken.eq_def] <;> rfl
    have h41 : tokens (runes [41]) = .ok [⟨[], 41⟩, endTok] := by
      rw [tokens_cons (hch 41 [] (.inr rfl)) (by decide), tokens_nil]; rfl
    have h := tokens_num_dots (n := .flt s) hs incl (rest := [41]) (.inr ⟨41, [], rfl, by decide, by decide⟩) h41
    rw [show (Num.flt s).text = s from rfl] at h
    unfold parse
    rw [tokens_cons (hch 40 _ (.inl rfl)) (by decide), h]
    show ∃ e, parseTokens E (⟨[], 40⟩ :: (Num.flt s).tok :: [dotsTok incl, ⟨[], 41⟩, endTok]) = .error e
    have hte : ∀ m, typeExpression E (m + 1) (Num.flt s).tok [dotsTok incl, ⟨[], 41⟩, endTok] =
        (orPanic (rangeType E (some (.flt s)) incl none)).map fun r => (.ty r, [endTok]) := by
      intro m
      rw [hF, pFloat]
      simp only [peekTok_cons, hd1, List.tail_cons]
      rw [if_pos hd2, if_neg (by decide)]; rfl
    have hpar : ∀ m, ∃ e, typeExpression E (m + 2) ⟨[], 40⟩ ((Num.flt s).tok :: [dotsTok incl, ⟨[], 41⟩, endTok]) = .error e := by
      intro m
      rw [typeExpression]
      simp only [peekTok_cons, List.tail_cons]
      rw [if_neg (by decide), if_pos trivial]
      cases hr : rangeType E (some (.flt s)) incl none with
      | none =>
        have := hte m; rw [hr] at this
        rw [pAnyOf_error this (show tFloat ≠ 33 by decide) (show tFloat ≠ 126 by decide)]
        exact ⟨_, rfl⟩
      | some r =>
        have := hte m; rw [hr] at this
        rw [pAnyOf_ok this (show tFloat ≠ 33 by decide) (show tFloat ≠ 126 by decide) (by decide) (by decide) (by decide)]
        exact ⟨_, rfl⟩
    obtain ⟨e, he⟩ := hpar 4
    exact ⟨e, (parseTokens_te (by decide) (by decide)).2 _ he⟩

/-- `1.5.. )` is read as `1.5..`. -/
example (E : PEnv) : parse E ([49, 46, 53] ++ (dotsText true ++ 32 :: [41])) = parse E (rangeText (some (.flt [49, 46, 53])) true none) :=
  (C111_swallowed_violated E _ plain_oneHalf true).1 [41] ⟨[], 41⟩ (by rw [runes_ascii (by decide), runes_nil, nextToken.eq_def]; rfl) (by decide) (by decide) (by decide)

/-- **C111 is violated: numbers with an exponent.**  `1E5..2` is refused, though `2..1E5` is not. -/
theorem C111_exponent_violated (E : PEnv) : (∃ e, parse E [49, 69, 53, 46, 46, 50] = .error (.lex e)) ∧
    parse E (rangeText (some (.int 2)) true (some (.flt [49, 69, 53]))) =
      (orPanic (Types.floatType (E.ofInt 2) (E.parseFloat [49, 69, 53]) true)).map .ty := by
  constructor
  · refine ⟨badToken 46, ?_⟩
    unfold parse
    rw [tokens_error (e := badToken 46)]
    rw [runes_ascii (by decide), runes_ascii (by decide), runes_ascii (by decide), runes_ascii (by decide), runes_ascii (by decide), runes_ascii (by decide), runes_nil,
      nextToken.eq_def]
    rfl
  · exact parse_range E _ _ true (.inl (by simp)) (by intro n hn; cases hn; trivial) (by
      intro n hn; cases hn
      exact .inr ⟨[], [49], [], [], [53], .inl rfl, ⟨by simp, by decide⟩, .inl rfl, .inl rfl, ⟨by simp, by decide⟩, rfl⟩)

/-- **C111 is violated at the ends.**  The exclusive range from the smallest to the greatest integer accepts the greatest; the exclusive range from 5 on, which has no end,
does not accept it; `1.5..` does not accept the infinite float, and a range that ends with the greatest finite float and has no start accepts it, and "not a number". -/
theorem C111_full_violated (E : PEnv) (TE : Types.Env) (hE : ∀ i : BitVec 64, E.parseFloat (formatInt i.toInt) = E.ofInt i) (s : Str) (hs : PlainFloat s ∨ ExpFloat s)
    (h1 : E.parseFloat [49, 46, 53] = oneHalf) (h2 : E.parseFloat s = Types.F64.max) :
    (∃ T, parseType E (intRangeText (some Types.minI64) false (some Types.maxI64)) = .ok T ∧ instanceOf TE T (.int Types.maxI64) = true) ∧
    (∃ T, parseType E (intRangeText (some 5) false none) = .ok T ∧ instanceOf TE T (.int Types.maxI64) = false) ∧
    (∃ T, parseType E (rangeText (some (.flt [49, 46, 53])) true none) = .ok T ∧ instanceOf TE T (.float 0x7ff0000000000000) = false) ∧
    ∃ T, parseType E (rangeText none true (some (.flt s))) = .ok T ∧ instanceOf TE T (.float 0x7ff0000000000000) = true ∧
      instanceOf TE T (.float 0x7ff8000000000000) = true := by
  refine ⟨?_, ?_, ?_, ?_⟩
  · refine ⟨.intT, ?_, Types.inst_intT.2 ⟨_, rfl⟩⟩
    unfold parseType intRangeText
    rw [parse_range E _ _ false (.inl (by simp)) (by intro n hn; cases hn; trivial) (by intro n hn; cases hn; trivial)]
    rfl
  · obtain ⟨T, h, hv⟩ := (C111_integers_partial E TE (some 5) none false (by simp)).2 (by decide) (by decide)
    refine ⟨T, h, ?_⟩
    rw [Bool.eq_false_iff]
    intro hn
    obtain ⟨n, he, hx⟩ := (hv _).1 hn
    cases he
    exact absurd hx (by unfold InInts; decide)
  · obtain ⟨T, h, hv⟩ := (C111_floats_partial E TE hE (some (.flt [49, 46, 53])) none true (.inl ⟨_, rfl⟩)
      (by intro n hn; cases hn; exact plain_oneHalf) (by intro n hn; cases hn) oneHalf Types.F64.max h1.symm rfl).2 rfl rfl (.inr rfl) (by decide)
    refine ⟨T, h, ?_⟩
    rw [Bool.eq_false_iff]
    intro hn
    obtain ⟨x, he, hx⟩ := (hv _).1 hn
    cases he
    exact absurd hx (by unfold InFloats; decide)
  · refine ⟨.floatT, ?_, Types.inst_floatT.2 ⟨_, rfl⟩, Types.inst_floatT.2 ⟨_, rfl⟩⟩
    unfold parseType
    rw [parse_range E _ _ true (.inr (by simp)) (by simp) (by intro n hn; cases hn; exact hs)]
    have : rangeType E none true (some (.flt s)) = Types.floatType Types.F64.min (E.parseFloat s) true := rfl
    rw [this, h2]
    rfl

end Verif.Text
