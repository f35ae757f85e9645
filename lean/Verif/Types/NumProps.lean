import Verif.Types.NumLemmas
import Verif.Types.AssignRange
import Verif.Types.Props
/-!
# C90: integers, floats and booleans made of each other.  C91: the ranges of floats
-/
set_option autoImplicit false
set_option linter.unusedVariables false
set_option linter.unusedSimpArgs false
namespace Verif.Types
open Verif.Value
variable {E : Env}

theorem new_int {C : Conv} {t : Ty} (ht : IntType t) (v : Val) : new E C t (.one v) = (intFrom C 10 v).bind fun i => check E t (.int i) := by
  cases ht <;> rfl

theorem new_float {C : Conv} {t : Ty} (ht : FloatType t) (v : Val) : new E C t (.one v) = (floatFrom C v).bind fun f => check E t (.float f) := by
  cases ht <;> rfl

theorem check_iff {t : Ty} {v w : Val} : check E t v = some w ↔ w = v ∧ instanceOf E t w = true := by
  unfold check
  split
  · rename_i h
    constructor
    · intro e; cases e; exact ⟨rfl, h⟩
    · rintro ⟨rfl, _⟩; rfl
  · rename_i h
    constructor
    · intro e; cases e
    · rintro ⟨rfl, h'⟩; exact absurd h' h

theorem ofInt_toInt (x : BitVec 64) : BitVec.ofInt 64 x.toInt = x := BitVec.ofInt_toInt

/-- **C90.**  A float between -2^63 and 2^63 makes the integer that is its integer part, if that is an instance of the type; otherwise it is refused. -/
theorem C90_truncates (C : Conv) {t : Ty} (ht : IntType t) (f : F64) (hf : (units f).natAbs < 2 ^ 63 * one) (v : Val) :
    new E C t (.one (.float f)) = some v ↔ ∃ n, IntegerPart f n ∧ v = .int (BitVec.ofInt 64 n) ∧ instanceOf E t v = true := by
  rw [new_int ht]
  show check E t (.int (F64.toInt f)) = some v ↔ _
  rw [check_iff]
  have hp := toInt_part f hf
  constructor
  · rintro ⟨rfl, h⟩
    exact ⟨_, hp, by rw [ofInt_toInt], h⟩
  · rintro ⟨n, hn, rfl, h⟩
    rw [part_unique hn hp, ofInt_toInt] at h ⊢
    exact ⟨rfl, h⟩
/-- -2.5 -/
def Ex.fm25 : F64 := 0xc004000000000000
theorem Ex.fm25_units : units Ex.fm25 = -(5 * 2 ^ 1073 : Nat) := by
  have e : Ex.fm25.toNat % 2 ^ 63 = 1024 * 2 ^ 52 + 2 ^ 50 := by decide
  unfold units
  rw [if_pos (by decide), e, magUnits_norm (by decide) (by decide)]
  have : (2 ^ 52 + 2 ^ 50) * 2 ^ (1024 - 1) = 5 * 2 ^ 1073 := by
    rw [show 2 ^ 52 + 2 ^ 50 = 5 * 2 ^ 50 from rfl, Nat.mul_assoc, ← Nat.pow_add]
  rw [this]
theorem Ex.one_two : one = 2 * 2 ^ 1073 := by
  unfold one
  rw [Nat.pow_succ, Nat.mul_comm]
example : (units Ex.fm25).natAbs < 2 ^ 63 * one ∧ IntegerPart Ex.fm25 (-2) ∧ Ex.isInt (-2) (new Ex.E0 Ex.C0 .intT (.one (.float Ex.fm25))) = true := by
  have h : 0 < 2 ^ 1073 := Nat.two_pow_pos _
  refine ⟨?_, ?_, by decide +kernel⟩
  · rw [Ex.fm25_units, Ex.one_two]
    generalize 2 ^ 1073 = x at *
    omega
  · unfold IntegerPart
    rw [Ex.fm25_units, Ex.one_two, show (-2 : Int).natAbs = 2 from rfl]
    generalize 2 ^ 1073 = x at *
    omega

/-- Of the finite floats, this one is nearest to the integer; if another is as near, this one has an even fraction. -/
def Nearest (f : F64) (i : BitVec 64) : Prop :=
  Finite f ∧ ∀ g, Finite g → distance f i ≤ distance g i ∧ (distance g i = distance f i → g = f ∨ f.toNat % 2 = 0)

/-- **C90.**  An integer makes the float that is nearest to it, if that is an instance of the type; otherwise it is refused. -/
theorem C90_rounds (C : Conv) (i : BitVec 64) : ∃ f, Nearest f i ∧ ∀ (t : Ty), FloatType t → ∀ v,
    (new E C t (.one (.int i)) = some v ↔ v = .float f ∧ instanceOf E t v = true) := by
  refine ⟨F64.ofInt i, ⟨finite_ofInt i, fun g _ => nearest i g⟩, fun t ht v => ?_⟩
  rw [new_float ht]
  exact check_iff
/-- is it the float? -/
def Ex.isFloat (f : F64) : Option Val → Bool
  | some (.float g) => f == g
  | _ => false
example : Ex.isFloat 0x4340000000000000 (new Ex.E0 Ex.C0 .floatT (.one (.int 0x20000000000001))) = true ∧
    Ex.isFloat 0x4340000000000002 (new Ex.E0 Ex.C0 .floatT (.one (.int 0x20000000000003))) = true := by decide +kernel

/-- **C90.**  An integer of at most 53 bits makes a float that is equal to it, and that makes the integer again. -/
theorem C90_exact (C : Conv) (i : BitVec 64) (h : i.toInt.natAbs ≤ 2 ^ 53) : ∃ f, new E C .floatT (.one (.int i)) = some (.float f) ∧
    units f = i.toInt * one ∧ new E C .intT (.one (.float f)) = some (.int i) := by
  have hu : units (F64.ofInt i) = i.toInt * one := by
    rw [units_ofInt, exact_nat h, Int.natCast_mul]
    split
    · rw [← Int.neg_mul]; congr 1; omega
    · congr 1; omega
  refine ⟨F64.ofInt i, rfl, hu, ?_⟩
  have hn : (units (F64.ofInt i)).natAbs = i.toInt.natAbs * one := by rw [hu, Int.natAbs_mul, Int.natAbs_natCast]
  have hU := one_pos
  have hb : (units (F64.ofInt i)).natAbs < 2 ^ 63 * one := by
    rw [hn]
    exact Nat.mul_lt_mul_of_pos_right (by omega) hU
  have hp : IntegerPart (F64.ofInt i) i.toInt := by
    refine ⟨by rw [hn], by rw [hn]; exact Nat.mul_lt_mul_of_pos_right (by omega) hU, fun h0 => ?_, fun h0 => ?_⟩
    · rw [hu]; exact Int.mul_pos h0 (by omega)
    · rw [hu]; exact Int.mul_neg_of_neg_of_pos h0 (by omega)
  have := part_unique hp (toInt_part _ hb)
  show check E .intT (.int (F64.toInt (F64.ofInt i))) = _
  rw [← ofInt_toInt (F64.toInt _), ← this, ofInt_toInt]
  exact if_pos rfl
example : (BitVec.ofInt 64 (-9007199254740992)).toInt.natAbs ≤ 2 ^ 53 := by decide

/-- **C90.**  Floats that are not numbers, or beyond -2^63 and 2^63, are not refused: they make the smallest integer (on amd64). -/
theorem C90_beyond (C : Conv) (f : F64) (h : ¬ Finite f ∨ 2 ^ 63 * one ≤ (units f).natAbs) : new E C .intT (.one (.float f)) = some (.int minI64) := by
  have : F64.toInt f = minI64 := by
    rcases h with h | h
    · exact toInt_infinite h
    · exact toInt_big h
  show check E .intT (.int (F64.toInt f)) = _
  rw [this]
  exact if_pos rfl
example : ¬ Finite 0x7ff8000000000000 := by unfold Finite; decide

/-- **C90.**  Violated beyond 53 bits: 2^53 + 1 comes back as 2^53, and the largest integer comes back as the smallest. -/
theorem C90_violated : (∃ f, new Ex.E0 Ex.C0 .floatT (.one (.int 0x20000000000001)) = some (.float f) ∧
      new Ex.E0 Ex.C0 .intT (.one (.float f)) = some (.int 0x20000000000000)) ∧
    (∃ f, new Ex.E0 Ex.C0 .floatT (.one (.int maxI64)) = some (.float f) ∧ new Ex.E0 Ex.C0 .intT (.one (.float f)) = some (.int minI64)) := by
  refine ⟨⟨F64.ofInt 0x20000000000001, rfl, ?_⟩, ⟨F64.ofInt maxI64, rfl, ?_⟩⟩
  · show check Ex.E0 .intT (.int (F64.toInt (F64.ofInt 0x20000000000001))) = _
    rw [show F64.toInt (F64.ofInt 0x20000000000001) = 0x20000000000000 by decide +kernel]
    exact if_pos rfl
  · show check Ex.E0 .intT (.int (F64.toInt (F64.ofInt maxI64))) = _
    rw [show F64.toInt (F64.ofInt maxI64) = minI64 by decide +kernel]
    exact if_pos rfl

theorem units_one : units 0x3ff0000000000000 = one := by
  have e : (0x3ff0000000000000 : F64).toNat % 2 ^ 63 = 1023 * 2 ^ 52 + 0 := by decide
  unfold units
  rw [if_neg (by decide), e, magUnits_norm (by decide) (by decide), Nat.add_zero, one_eq (by decide)]

theorem units_zero : units 0 = 0 := by
  have e : (0 : F64).toNat % 2 ^ 63 = 0 := by decide
  unfold units
  rw [if_neg (by decide), e, magUnits_zero]
  rfl

/-- **C90.**  True makes the float 1 and false the float 0; a float makes false if it is zero and otherwise true. -/
theorem C90_bool (C : Conv) : (∀ b, ∃ f, new E C .floatT (.one (.bool b)) = some (.float f) ∧ Finite f ∧ units f = if b then (one : Int) else 0) ∧
    ∀ f : F64, new E C .boolT (.one (.float f)) = some (.bool (decide (¬ (Finite f ∧ units f = 0)))) := by
  refine ⟨fun b => ?_, fun f => ?_⟩
  · refine ⟨_, rfl, ?_⟩
    cases b
    · exact ⟨by unfold Finite; decide, units_zero⟩
    · exact ⟨by unfold Finite; decide, units_one⟩
  · have e : (!Value.F64.eq f 0) = decide (¬ (Finite f ∧ units f = 0)) := by
      have : Value.F64.eq f 0 = true ↔ Finite f ∧ units f = 0 := by
        rw [Value.F64.eq_iff]
        constructor
        · rintro ⟨h1, h2, h3⟩
          have h4 := key_eq.1 h3
          rw [units_zero] at h4
          refine ⟨?_, h4⟩
          have h5 := natAbs_units f
          rw [h4] at h5
          have h6 : f.toNat % 2 ^ 63 = 0 := magUnits_inj.1 (by rw [magUnits_zero]; exact h5.symm)
          unfold Finite
          omega
        · rintro ⟨h1, h2⟩
          exact ⟨not_nan h1, by decide, key_eq.2 (by rw [h2, units_zero])⟩
      by_cases h : Value.F64.eq f 0 = true
      · rw [h, decide_eq_false]
        · rfl
        · exact fun hc => hc (this.1 h)
      · have hn : ¬ (Finite f ∧ units f = 0) := fun hc => h (this.2 hc)
        rw [decide_eq_true hn, Bool.eq_false_iff.2 h]
        rfl
    show check E .boolT (.bool (!Value.F64.eq f 0)) = _
    rw [e]
    exact if_pos rfl
example : new Ex.E0 Ex.C0 .boolT (.one (.float Ex.fm25)) = some (.bool true) := by rfl

/-! ### C91 -/

/-- the numbers from `a` to `b`, with or without `b` -/
def Between (a b : F64) (inclusive : Bool) (f : F64) : Prop :=
  Finite f ∧ units a ≤ units f ∧ (if inclusive then units f ≤ units b else units f < units b)

theorem flt {a b : F64} (ha : Finite a) (hb : Finite b) : Value.F64.lt a b = true ↔ units a < units b := by
  unfold Value.F64.lt
  rw [not_nan ha, not_nan hb]
  simp [key_lt]

theorem feq {a b : F64} (ha : Finite a) (hb : Finite b) : Value.F64.eq a b = true ↔ units a = units b := by
  rw [Value.F64.eq_iff, not_nan ha, not_nan hb, key_eq]
  simp

theorem fle {a b : F64} (ha : Finite a) (hb : Finite b) : F64.le a b = true ↔ units a ≤ units b := by
  unfold F64.le
  rw [Bool.or_eq_true, flt ha hb, feq ha hb]
  omega

/-- between finite floats are only finite ones -/
theorem finite_between {a b f : F64} (ha : Finite a) (hb : Finite b) (h1 : a.key ≤ f.key) (h2 : f.key ≤ b.key) : Finite f := by
  unfold Value.F64.key Value.F64.neg Value.F64.mag at h1 h2
  unfold Finite at *
  simp only [decide_eq_true_eq] at h1 h2
  split at h1 <;> split at h1 <;> split at h2 <;> omega

/-- **C91.**  Floats are ordered as numbers. -/
theorem C91_order {a b : F64} (ha : Finite a) (hb : Finite b) :
    (Value.F64.lt a b = true ↔ units a < units b) ∧ (Value.F64.eq a b = true ↔ units a = units b) := ⟨flt ha hb, feq ha hb⟩
example : Finite Ex.fm25 ∧ Finite 0 ∧ Value.F64.lt Ex.fm25 0 = true := by unfold Finite; decide

theorem range_iff {a b : F64} {incl : Bool} (ha : Finite a) (hb : Finite b) (v : Val) :
    instanceOf E (.floatRange a b incl) v = true ↔ ∃ f, v = .float f ∧ Between a b incl f := by
  rw [inst_floatRange]
  constructor
  · rintro ⟨f, rfl, h1, h2⟩
    refine ⟨f, rfl, ?_⟩
    have k1 : a.key ≤ f.key := by
      unfold F64.le Value.F64.lt Value.F64.eq at h1
      simp at h1
      omega
    have k2 : f.key ≤ b.key := by
      unfold F64.le Value.F64.lt Value.F64.eq at h2
      split at h2 <;> simp at h2 <;> omega
    have hf := finite_between ha hb k1 k2
    refine ⟨hf, (fle ha hf).1 h1, ?_⟩
    split at h2
    · rename_i h; rw [if_pos h]; exact (fle hf hb).1 h2
    · rename_i h; rw [if_neg h]; exact (flt hf hb).1 h2
  · rintro ⟨f, rfl, hf, h1, h2⟩
    refine ⟨f, rfl, (fle ha hf).2 h1, ?_⟩
    split at h2
    · rename_i h; rw [if_pos h]; exact (fle hf hb).2 h2
    · rename_i h; rw [if_neg h]; exact (flt hf hb).2 h2

theorem eq_of_units {a b : F64} (ha : Finite a) (hb : Finite b) (h : units a = units b) (h0 : units a ≠ 0) : a = b := by
  rcases Value.F64.key_inj (key_eq.2 h) with h | ⟨h1, _⟩
  · exact h
  · exfalso
    apply h0
    have := natAbs_units a
    unfold Value.F64.mag at h1
    rw [h1, magUnits_zero] at this
    omega

theorem units_max : 0 < units F64.max ∧ units F64.min < 0 ∧ Finite F64.max ∧ Finite F64.min := by
  have h1 : (F64.max).toNat % 2 ^ 63 = 0x7fefffffffffffff := by decide
  have h2 : (F64.min).toNat % 2 ^ 63 = 0x7fefffffffffffff := by decide
  have h3 := magUnits_lt.2 (show 0 < 0x7fefffffffffffff by decide)
  rw [magUnits_zero] at h3
  refine ⟨?_, ?_, by decide, by decide⟩
  · unfold units
    rw [if_neg (by decide), h1]
    omega
  · unfold units
    rw [if_pos (by decide), h2]
    omega

/-- **C91.**  The type made with two numbers accepts the floats between them, with the larger one if that is asked for, in whatever order they are
given.  Left out: the smallest and the largest float as the two bounds, for which the type has all floats (`C91_all`). -/
theorem C91_range_partial {min max : F64} {inclusive : Bool} {t : Ty} (hmin : Finite min) (hmax : Finite max)
    (h : floatType min max inclusive = some t) (hb : ¬ (min = F64.min ∧ max = F64.max ∨ min = F64.max ∧ max = F64.min)) (v : Val) :
    instanceOf E t v = true ↔ ∃ f, v = .float f ∧
      if units max < units min then Between max min inclusive f else Between min max inclusive f := by
  obtain ⟨x1, x2, x3, x4⟩ := units_max
  by_cases he : Value.F64.eq min max = true
  · have hu := (feq hmin hmax).1 he
    have ht := floatType_same h he
    have hi : inclusive = true := by
      unfold floatType at h
      rw [if_pos he] at h
      cases inclusive <;> simp at h ⊢
    subst ht hi
    have hnl : ¬ units max < units min := by omega
    rw [inst_exactFloat]
    simp only [if_neg hnl]
    constructor
    · rintro ⟨f, rfl, h1⟩
      have hk := (Value.F64.eq_iff _ _).1 h1
      have hf := finite_between hmin hmin (Int.le_of_eq hk.2.2) (Int.le_of_eq hk.2.2.symm)
      have := key_eq.1 hk.2.2
      exact ⟨f, rfl, hf, by omega, by rw [if_pos rfl]; omega⟩
    · rintro ⟨f, rfl, hf, h1, h2⟩
      rw [if_pos rfl] at h2
      exact ⟨f, rfl, (feq hmin hf).2 (by omega)⟩
  · have hu : units min ≠ units max := fun hc => he ((feq hmin hmax).2 hc)
    unfold floatType at h
    rw [if_neg he] at h
    have key : ∀ lo hi : F64, Finite lo → Finite hi → (lo = F64.min ∧ hi = F64.max → False) →
        (if Value.F64.eq lo F64.min ∧ Value.F64.eq hi F64.max then some Ty.floatT else some (Ty.floatRange lo hi inclusive)) = some t →
        (instanceOf E t v = true ↔ ∃ f, v = .float f ∧ Between lo hi inclusive f) := by
      intro lo hi h1 h2 h3 h4
      rw [if_neg] at h4
      · cases h4
        exact range_iff h1 h2 v
      · rintro ⟨e1, e2⟩
        have u1 := (feq h1 x4).1 e1
        have u2 := (feq h2 x3).1 e2
        exact h3 ⟨eq_of_units h1 x4 u1 (by omega), eq_of_units h2 x3 u2 (by omega)⟩
    by_cases hlt : Value.F64.lt max min = true
    · rw [if_pos hlt] at h
      simp only [if_pos ((flt hmax hmin).1 hlt)]
      exact key max min hmax hmin (fun hc => hb (.inr ⟨hc.2, hc.1⟩)) h
    · rw [if_neg hlt] at h
      have : ¬ units max < units min := fun hc => hlt ((flt hmax hmin).2 hc)
      simp only [if_neg this]
      exact key min max hmin hmax (fun hc => hb (.inl hc)) h
example : floatType 0 Ex.fm25 false = some (.floatRange Ex.fm25 0 false) ∧ instanceOf Ex.E0 (.floatRange Ex.fm25 0 false) (.float Ex.fm25) = true ∧
    instanceOf Ex.E0 (.floatRange Ex.fm25 0 false) (.float 0) = false := by
  refine ⟨by rfl, by decide +kernel, by decide +kernel⟩

/-- **C91.**  Equal bounds with an exclusive end are refused, and nothing else. -/
theorem C91_refused {min max : F64} {inclusive : Bool} (hmin : Finite min) (hmax : Finite max) :
    floatType min max inclusive = none ↔ units min = units max ∧ inclusive = false := by
  rw [← feq hmin hmax]
  unfold floatType
  by_cases h : Value.F64.eq min max = true
  · rw [if_pos h]
    cases inclusive <;> simp [h]
  · rw [if_neg h]
    dsimp only
    split <;> split <;> simp [h]
example : floatType 0 0x8000000000000000 false = none := by rfl

/-- **C91.**  Violated: between the smallest and the largest float are all floats, with the largest one also if that is not asked for, the infinite ones
and NaN. -/
theorem C91_all {min max : F64} (inclusive : Bool) (h : min = F64.min ∧ max = F64.max ∨ min = F64.max ∧ max = F64.min) :
    ∃ t, floatType min max inclusive = some t ∧ ∀ f : F64, instanceOf E t (.float f) = true := by
  refine ⟨.floatT, ?_, fun f => inst_floatT.2 ⟨f, rfl⟩⟩
  rcases h with ⟨rfl, rfl⟩ | ⟨rfl, rfl⟩ <;> rfl
example : ∃ t, floatType F64.min F64.max false = some t ∧ instanceOf Ex.E0 t (.float F64.max) = true ∧ instanceOf Ex.E0 t (.float 0x7ff8000000000000) = true :=
  ⟨.floatT, by rfl, by decide +kernel, by decide +kernel⟩

end Verif.Types
