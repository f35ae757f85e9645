import Verif.Types.AssignNil
import Verif.Types.AssignSimple
import Verif.Types.Props
/-!
# C25 - C27, C58 and C59: assignability and equality of types

`assignable E a b` is `a.Assignable(b)`, `a.equals b` is `a.Equals(b)`, `instanceOf E t v` is `t.Instance(v)`.
-/
set_option autoImplicit false
set_option linter.unusedVariables false
set_option linter.unusedSimpArgs false
set_option linter.unnecessarySeqFocus false
namespace Verif.Types
open Verif.Value

variable {E : Env}

/-! ### For the examples -/
section
variable {p : Ty → Prop}
theorem every_iff {t : Ty} : Every p t ↔ p t ∧ ∀ c ∈ parts t, Every p c := ⟨fun h => ⟨h.here, fun _ hc => h.part hc⟩, fun h => .mk h.1 h.2⟩
theorem every_leaf {t : Ty} (h : parts t = []) : Every p t ↔ p t := by rw [every_iff, h]; simp
theorem every_any : Every p .any ↔ p .any := every_leaf rfl
theorem every_nil : Every p .nilT ↔ p .nilT := every_leaf rfl
theorem every_int : Every p .intT ↔ p .intT := every_leaf rfl
theorem every_str : Every p .strT ↔ p .strT := every_leaf rfl
theorem every_mapT : Every p .mapT ↔ p .mapT := every_leaf rfl
theorem every_exact {v : Val} : Every p (.exact v) ↔ p (.exact v) := every_leaf rfl
theorem every_exactD {o : Oid} {v : Val} : Every p (.exactD o v) ↔ p (.exactD o v) := every_leaf rfl
theorem every_intRange {a b : BitVec 64} {i : Bool} : Every p (.intRange a b i) ↔ p (.intRange a b i) := every_leaf rfl
theorem every_floatRange {a b : F64} {i : Bool} : Every p (.floatRange a b i) ↔ p (.floatRange a b i) := every_leaf rfl
theorem every_sizedArr {o : Oid} {e : Ty} {a b : Int} : Every p (.sizedArr o e a b) ↔ p (.sizedArr o e a b) ∧ Every p e := by rw [every_iff]; simp [parts]
theorem every_sizedMap {o : Oid} {k v : Ty} {a b : Int} : Every p (.sizedMap o k v a b) ↔ p (.sizedMap o k v a b) ∧ Every p k ∧ Every p v := by
  rw [every_iff]; simp [parts]
theorem every_tuple {o : Oid} {ts : List Ty} {b : Bool} : Every p (.tuple o ts b) ↔ p (.tuple o ts b) ∧ ∀ t ∈ ts, Every p t := by rw [every_iff]; simp [parts]
theorem every_struct {o : Oid} {fs : List (Val × Bool × Ty)} {b : Bool} : Every p (.struct o b fs) ↔ p (.struct o b fs) ∧ ∀ f ∈ fs, Every p f.2.2 := by
  rw [every_iff]; simp only [parts, List.forall_mem_map]
theorem every_anyOf {o : Oid} {ts : List Ty} : Every p (.anyOf o ts) ↔ p (.anyOf o ts) ∧ ∀ t ∈ ts, Every p t := by rw [every_iff]; simp [parts]
theorem every_allOf {o : Oid} {ts : List Ty} : Every p (.allOf o ts) ↔ p (.allOf o ts) ∧ ∀ t ∈ ts, Every p t := by rw [every_iff]; simp [parts]
theorem every_sens {o : Oid} {t : Ty} : Every p (.sens o t) ↔ p (.sens o t) ∧ Every p t := by rw [every_iff]; simp [parts]
theorem every_metaT {t : Ty} : Every p (.metaT t) ↔ p (.metaT t) ∧ Every p t := by rw [every_iff]; simp [parts]
theorem every_not {t : Ty} : Every p (.not t) ↔ p (.not t) ∧ Every p t := by rw [every_iff]; simp [parts]
end

attribute [local simp] every_any every_nil every_int every_str every_mapT every_exact every_exactD every_intRange every_floatRange every_sizedArr every_sizedMap
  every_tuple every_struct every_anyOf every_allOf every_sens every_metaT every_not

namespace Ex
theorem E0_apart : E0.Apart := by
  intro p q _ hne
  simpa [E0] using hne
/-- `map[string](int|string)` -/
def m1 : Ty := .sizedMap (.user 0) .strT (.anyOf (.user 1) [.intT, .strT]) 0 maxInt
/-- `{"a": 1..5, "b"?: string}` -/
def s1 : Ty := .struct (.user 2) false [(s 97, true, r15), (s 98, false, .strT)]
/-- `[](int|[]int)` -/
def a2 : Ty := .sizedArr (.user 0) (.anyOf (.user 1) [.intT, .sizedArr (.user 2) .intT 0 maxInt]) 0 maxInt
/-- `[0,3][]1..5` -/
def b2 : Ty := .sizedArr (.user 3) (.sizedArr (.user 4) r15 0 maxInt) 0 3
/-- the value `{"a": 3}` -/
def v1 : Val := .map [(s 97, i 3)]
end Ex

/-! ### C25: ranges -/

/-- **C25**, integers.  A range of integers is assignable from a range, or from the type of an integer, exactly when it accepts all that the
other accepts.  Left out: the type of one integer as the type that is assigned to, see `C25_exact_violated`. -/
theorem C25_int_partial {min max min' max' : BitVec 64} {incl incl' : Bool} {t u : Ty} (h : integerType min max incl = some t) (hne : min ≠ max)
    (h' : integerType min' max' incl' = some u) : assignable E t u = true ↔ ∀ v, instanceOf E u v = true → instanceOf E t v = true := by
  rcases integerType_ne h hne with rfl | ⟨lo, hi, rfl, hlt, hp⟩
  · by_cases hne' : min' = max'
    · subst hne'
      obtain rfl := integerType_same h'
      rw [assignable_leaf rfl rfl (by simp)]
      simp only [leafCase, Option.getD_some, true_iff, inst_exactInt, inst_intT]
      rintro v rfl; exact ⟨_, rfl⟩
    · rcases integerType_ne h' hne' with rfl | ⟨lo', hi', rfl, _, _⟩ <;> rw [assignable_leaf rfl rfl (by simp)] <;>
        simp only [leafCase, Option.getD_some, true_iff, inst_intT, inst_intRange]
      · exact fun v h => h
      · rintro v ⟨i, rfl, _⟩; exact ⟨_, rfl⟩
  · by_cases hne' : min' = max'
    · subst hne'
      obtain rfl := integerType_same h'
      rw [assignable_leaf rfl rfl (by simp)]
      simp only [leafCase, Option.getD_some, inst_exactInt, inst_intRange, Bool.and_eq_true, BitVec.sle_eq_decide, BitVec.slt_eq_decide, decide_eq_true_eq]
      constructor
      · rintro ⟨h1, h2⟩ v rfl
        refine ⟨_, rfl, h1, ?_⟩
        cases incl <;> simpa using h2
      · intro hv
        obtain ⟨i, e, h1, h2⟩ := hv _ rfl
        cases e
        refine ⟨h1, ?_⟩
        cases incl <;> simpa using h2
    · rcases integerType_ne h' hne' with rfl | ⟨lo', hi', rfl, hlt', _⟩
      · rw [assignable_leaf rfl rfl (by simp)]
        simp only [leafCase, Option.getD_none, Bool.false_eq_true, false_iff, inst_intT, inst_intRange]
        intro hv
        obtain ⟨i, e, h1, _⟩ := hv (.int minI64) ⟨_, rfl⟩
        cases e
        obtain ⟨j, e, _, h2⟩ := hv (.int maxI64) ⟨_, rfl⟩
        cases e
        have hmin : minI64.toInt = -9223372036854775808 := by decide
        have hmax : maxI64.toInt = 9223372036854775807 := by decide
        cases incl <;> simp at h2 <;> omega
      · exact int_incl_iff hlt hlt'

example : ∃ t u, integerType 1 5 true = some t ∧ integerType 2 6 false = some u ∧ assignable Ex.E0 t u = true ∧ assignable Ex.E0 u t = false :=
  ⟨_, _, rfl, rfl, by decide +kernel, by decide +kernel⟩

/-- The type of the integer 5 is not assignable from 5...6, which accepts only 5. -/
theorem C25_exact_violated : ∃ t u, integerType 5 5 true = some t ∧ integerType 5 6 false = some u ∧
    (∀ E v, instanceOf E u v = true → instanceOf E t v = true) ∧ assignable Ex.E0 t u = false := by
  refine ⟨_, _, rfl, rfl, ?_, by decide +kernel⟩
  intro E v hv
  rw [inst_intRange] at hv
  obtain ⟨i, rfl, h1, h2⟩ := hv
  rw [inst_exactInt]
  have : i = 5 := BitVec.eq_of_toInt_eq (by
    have e5 : (5 : BitVec 64).toInt = 5 := by decide
    have e6 : (6 : BitVec 64).toInt = 6 := by decide
    simp at h2
    omega)
  rw [this]

/-- **C25**, floats, sound: no number is accepted by the other and not by the one assigned to. -/
theorem C25_float_sound_partial {min max min' max' : F64} {incl incl' : Bool} {t u : Ty} (h : floatType min max incl = some t)
    (n1 : min.isNaN = false) (n2 : max.isNaN = false) (n3 : min'.isNaN = false) (n4 : max'.isNaN = false)
    (h' : floatType min' max' incl' = some u) (ha : assignable E t u = true) (v : Val) (hv : instanceOf E u v = true) : instanceOf E t v = true := by
  by_cases he : Value.F64.eq min max = true
  · obtain rfl := floatType_same h he
    by_cases he' : Value.F64.eq min' max' = true
    · obtain rfl := floatType_same h' he'
      rw [assignable_leaf rfl rfl (by simp)] at ha
      simp only [leafCase, eq] at ha
      have h1 : Value.F64.eq min min' = true := by cases hc : Value.F64.eq min min' <;> simp [hc] at ha ⊢
      rw [inst_exactFloat] at hv ⊢
      obtain ⟨f, rfl, h2⟩ := hv
      rw [Value.F64.eq_iff] at h1 h2
      exact ⟨f, rfl, (Value.F64.eq_iff _ _).2 ⟨h1.1, h2.2.1, h1.2.2.trans h2.2.2⟩⟩
    · rcases floatType_ne h' (by simpa using he') n3 n4 with rfl | ⟨lo, hi, rfl, _⟩ <;> rw [assignable_leaf rfl rfl (by simp)] at ha <;> simp [leafCase] at ha
  · rcases floatType_ne h (by simpa using he) n1 n2 with rfl | ⟨lo, hi, rfl, hlt⟩
    · rw [inst_floatT]
      by_cases he' : Value.F64.eq min' max' = true
      · obtain rfl := floatType_same h' he'
        rw [inst_exactFloat] at hv
        obtain ⟨f, rfl, _⟩ := hv
        exact ⟨f, rfl⟩
      · rcases floatType_ne h' (by simpa using he') n3 n4 with rfl | ⟨lo, hi, rfl, _⟩
        · exact inst_floatT.1 hv
        · obtain ⟨f, rfl, _⟩ := inst_floatRange.1 hv
          exact ⟨f, rfl⟩
    · by_cases he' : Value.F64.eq min' max' = true
      · obtain rfl := floatType_same h' he'
        rw [assignable_leaf rfl rfl (by simp)] at ha
        simp only [leafCase, Option.getD_some, Bool.and_eq_true] at ha
        rw [inst_exactFloat] at hv
        obtain ⟨f, rfl, h2⟩ := hv
        rw [inst_floatRange]
        refine ⟨f, rfl, ?_⟩
        rw [← (F64.le_congr (a := lo) h2).1, ← (F64.le_congr (a := hi) h2).2.1, ← (F64.le_congr (a := hi) h2).2.2]
        exact ha
      · rcases floatType_ne h' (by simpa using he') n3 n4 with rfl | ⟨lo', hi', rfl, _⟩
        · rw [assignable_leaf rfl rfl (by simp)] at ha; simp [leafCase] at ha
        · exact float_incl hlt ha v hv

/-- 0, 1 and 2 as floats -/
def Ex.f0 : F64 := 0
def Ex.f1 : F64 := 0x3ff0000000000000
def Ex.f2 : F64 := 0x4000000000000000

example : ∃ t u, floatType Ex.f0 Ex.f2 true = some t ∧ floatType Ex.f0 Ex.f1 false = some u ∧ Ex.f0.isNaN = false ∧ Ex.f1.isNaN = false ∧
    Ex.f2.isNaN = false ∧ assignable Ex.E0 t u = true ∧ instanceOf Ex.E0 u (.float Ex.f0) = true :=
  ⟨_, _, rfl, rfl, by decide, by decide, by decide, by decide +kernel, by decide +kernel⟩

/-- **C25**, floats, complete.  Left out: the type of one float as the type assigned to, and an inclusive range assigned from an exclusive one
(`C25_float_violated`). -/
theorem C25_float_complete_partial {min max min' max' : F64} {incl incl' : Bool} {t u : Ty} (h : floatType min max incl = some t)
    (hne : Value.F64.eq min max = false) (n1 : min.isNaN = false) (n2 : max.isNaN = false) (n3 : min'.isNaN = false) (n4 : max'.isNaN = false)
    (h' : floatType min' max' incl' = some u) (hi1 : incl = true → incl' = true)
    (hv : ∀ v, instanceOf E u v = true → instanceOf E t v = true) : assignable E t u = true := by
  rcases floatType_ne h hne n1 n2 with rfl | ⟨lo, hi, rfl, hlt⟩
  · rw [assignable_leaf rfl (by
      by_cases he' : Value.F64.eq min' max' = true
      · obtain rfl := floatType_same h' he'; rfl
      · rcases floatType_ne h' (by simpa using he') n3 n4 with rfl | ⟨lo', hi', rfl, _⟩ <;> rfl) (by simp)]
    by_cases he' : Value.F64.eq min' max' = true
    · obtain rfl := floatType_same h' he'; rfl
    · rcases floatType_ne h' (by simpa using he') n3 n4 with rfl | ⟨lo', hi', rfl, _⟩ <;> rfl
  · by_cases he' : Value.F64.eq min' max' = true
    · obtain rfl := floatType_same h' he'
      rw [assignable_leaf rfl rfl (by simp)]
      obtain ⟨f, e, h1, h2⟩ := inst_floatRange.1 (hv (.float min') (inst_exactFloat.2 ⟨min', rfl, (Value.F64.eq_iff _ _).2 ⟨n3, n3, rfl⟩⟩))
      cases e
      simp only [leafCase, Option.getD_some, h1, h2, Bool.and_self]
    · rcases floatType_ne h' (by simpa using he') n3 n4 with rfl | ⟨lo', hi', rfl, hlt'⟩
      · obtain ⟨x, hn⟩ : ∃ x : F64, x.isNaN = true := ⟨0x7ff8000000000000, by decide⟩
        obtain ⟨f, e, h1, _⟩ := inst_floatRange.1 (hv (.float x) (inst_floatT.2 ⟨_, rfl⟩))
        cases e
        simp [F64.le, Value.F64.lt, Value.F64.eq, hn] at h1
      · exact float_complete hlt hlt' hi1 hv

example : ∃ t u, floatType Ex.f0 Ex.f2 false = some t ∧ floatType Ex.f0 Ex.f1 true = some u ∧ Value.F64.eq Ex.f0 Ex.f2 = false ∧
    assignable Ex.E0 t u = true := ⟨_, _, rfl, rfl, by decide, by decide +kernel⟩

/-- The float next below 2 -/
def Ex.below2 : F64 := 0x3fffffffffffffff

/-- 0.0 up to the float next below 2 is not assignable from 0.0...2.0, which accepts the same floats. -/
theorem C25_float_violated : ∃ t u, floatType Ex.f0 Ex.below2 true = some t ∧ floatType Ex.f0 Ex.f2 false = some u ∧
    (∀ E v, instanceOf E u v = true → instanceOf E t v = true) ∧ assignable Ex.E0 t u = false := by
  refine ⟨.floatRange Ex.f0 Ex.below2 true, .floatRange Ex.f0 Ex.f2 false, rfl, rfl, ?_, by decide +kernel⟩
  intro E v hv
  rw [inst_floatRange] at hv ⊢
  obtain ⟨f, rfl, h1, h2⟩ := hv
  refine ⟨f, rfl, h1, ?_⟩
  have k1 : Ex.below2.key = Ex.f2.key - 1 := by decide
  have n1 : Ex.below2.isNaN = false := by decide
  have n2 : Ex.f2.isNaN = false := by decide
  simp [F64.le, Value.F64.lt, Value.F64.eq, n1, n2, k1] at h2 ⊢
  rw [← and_or_left]
  exact ⟨h2.1, by omega⟩

/-- With a NaN for a bound, a range is assignable from ranges that it accepts nothing of. -/
theorem C25_nan_violated : ∃ t u, floatType 0x7ff8000000000000 Ex.f2 true = some t ∧ floatType Ex.f0 Ex.f1 true = some u ∧
    assignable Ex.E0 t u = true ∧ instanceOf Ex.E0 u (.float Ex.f0) = true ∧ instanceOf Ex.E0 t (.float Ex.f0) = false :=
  ⟨.floatRange 0x7ff8000000000000 Ex.f2 true, .floatRange Ex.f0 Ex.f1 true, rfl, rfl, by decide +kernel, by decide +kernel,
    by decide +kernel⟩

/-! ### C26: what is accepted by a type is accepted by those that are assignable from it -/

/-- **C26**, first case: each operand of an `anyOf` or `allOf` on the left is a type without parts, and on the right neither an operation nor a
tuple or struct type has an operation as a part unless its operands are types without parts.  `Left`, `Right`: what each of the two types may
be made of.  `Made`: by the constructors.  `Env.Apart`: no value is identical to a part of it. -/
theorem C26_sound_partial {F : Feat} (hE : E.Apart) {a b : Ty} (ha : Left F a) (hb : Right F b) (hba : b.Acyc) (ma : Made a) (mb : Made b)
    (hd : ∀ o, a.occ o → ¬ b.occ o) (hl : Every L1 a) (hr : Every R1 b) (h : assignable E a b = true) (v : Val) (hv : Value.WF v) (hf : Fits v)
    (hi : instanceOf E b v = true) : instanceOf E a v = true := by
  rw [instanceOf_has hba] at hi
  rw [instanceOf_has ha.acyc]
  obtain ⟨g, e⟩ := (assignable_iff (E := E) (Nat.lt_succ_self _)).1 h
  exact (case1 hE _ a b [b] false (Nat.lt_succ_self _) ha hl (tree_of_made ma ha.acyc) (.mk' hb hr) (apart_of_made ma mb hd) (by simp) none
    (by rintro s ⟨⟩) true g e).2 rfl b (by simp) v hv hf hi

example : Left ⟨false, false, false⟩ Ex.m1 ∧ Right ⟨false, false, false⟩ Ex.s1 ∧ Ex.s1.Acyc ∧ Made Ex.m1 ∧ Made Ex.s1 ∧
    (∀ o, Ex.m1.occ o → ¬ Ex.s1.occ o) ∧ Every L1 Ex.m1 ∧ Every R1 Ex.s1 ∧ assignable Ex.E0 Ex.m1 Ex.s1 = true ∧ Ex.E0.Apart ∧
    Value.WF Ex.v1 ∧ Fits Ex.v1 ∧ instanceOf Ex.E0 Ex.s1 Ex.v1 = true := by
  have ms : Made Ex.s1 := by simp [Made, Ex.s1, Ex.r15, Ty.deep?]
  have as : Ex.s1.Acyc := by simp [Ex.s1, Ex.r15, Ty.Acyc, AcycFields, occFields, Ty.occ]
  refine ⟨⟨?_, ?_, ?_⟩, ⟨?_, tree_of_made ms as, ?_⟩, as, ?_, ms, ?_, ?_, ?_, by decide +kernel, Ex.E0_apart, ?_, ?_, by decide +kernel⟩
  · simp only [Ex.m1, every_sizedMap, every_anyOf, every_str, Lnode]
    refine ⟨⟨.mk (by simp) (by simp) (by simp), .mk (by simp) (by simp) ?_, trivial⟩, trivial, by simp, ?_⟩
    · rintro o ts ⟨⟩ c hc
      simp at hc
      rcases hc with rfl | rfl <;> exact .mk (by simp) (by simp) (by simp)
    · simp [Lnode]
  · simp [Ex.m1, Ty.Acyc, Ty.occ, occs, Acycs]
  · simp [Ex.m1, Ty.Ok, Oks]
  · simp [Ex.s1, Ex.r15, Rnode, DistinctKeys, Ex.s, eq, NoSens]
  · simp [Ex.s1, Ex.r15, Ty.Ok, OkFields, Ex.s, isScalar, Value.WF]
  · simp [Made, Ex.m1, Ty.deep?]
  · simp [Ex.m1, Ex.s1, Ex.r15, Ty.occ, occs, occFields]
    exact ⟨(fun h => by cases h), fun h => by cases h⟩
  · simp [Ex.m1, L1, LeafOps, Ty.operands?, Ty.deep?]
  · simp [Ex.s1, Ex.r15, R1, LeafOps, Ty.operands?, Ty.deep?, parts, isTernary, isTupleStruct]
  · simp [Ex.v1, Ex.s, Ex.i, Value.WF, WFes]
  · simp [Ex.v1, Ex.s, Ex.i, Fits, FitsEntries, len, maxInt]

/-- **C26**, second case: any `anyOf` and `allOf` on the left; on the right the operands of operations have no parts, tuple and struct types of
more than one member have members without parts, the members of exact arrays and maps are scalars, and there are none of these (`X = false`)
or no tuple and struct types on the left. -/
theorem C26_sound_nested_partial {F : Feat} {X : Bool} {a b : Ty} (ha : Left F a) (hb : Right F b) (hba : b.Acyc) (ma : Made a) (mb : Made b)
    (hd : ∀ o, a.occ o → ¬ b.occ o) (hl : Every (L2 X) a) (hr : Every (R2 X) b) (h : assignable E a b = true) (v : Val) (hv : Value.WF v) (hf : Fits v)
    (hi : instanceOf E b v = true) : instanceOf E a v = true := by
  rw [instanceOf_has hba] at hi
  rw [instanceOf_has ha.acyc]
  obtain ⟨g, e⟩ := (assignable_iff (E := E) (Nat.lt_succ_self _)).1 h
  exact (case2 _ a b [b] false ha hl (tree_of_made ma ha.acyc) (.mk' hb hr) (apart_of_made ma mb hd) (by simp) none (by rintro s ⟨⟩) true g e).2
    rfl b (by simp) v hv hf hi

example : Left ⟨false, false, false⟩ Ex.a2 ∧ Right ⟨false, false, false⟩ Ex.b2 ∧ Ex.b2.Acyc ∧ Made Ex.a2 ∧ Made Ex.b2 ∧
    (∀ o, Ex.a2.occ o → ¬ Ex.b2.occ o) ∧ Every (L2 true) Ex.a2 ∧ Every (R2 true) Ex.b2 ∧ assignable Ex.E0 Ex.a2 Ex.b2 = true ∧
    instanceOf Ex.E0 Ex.b2 (.arr [.arr [Ex.i 3]]) = true := by
  have ms : Made Ex.b2 := by simp [Made, Ex.b2, Ex.r15, Ty.deep?]
  have as : Ex.b2.Acyc := by simp [Ex.b2, Ex.r15, Ty.Acyc, Ty.occ]
  refine ⟨⟨?_, ?_, ?_⟩, ⟨?_, tree_of_made ms as, ?_⟩, as, ?_, ms, ?_, ?_, ?_, by decide +kernel, by decide +kernel⟩
  · simp only [Ex.a2, every_sizedArr, every_anyOf, Lnode]
    refine ⟨.mk (by simp) (by simp) ?_, by simp, ?_⟩
    · rintro o ts ⟨⟩ c hc
      simp at hc
      rcases hc with rfl | rfl <;> exact .mk (by simp) (by simp) (by simp)
    · simp [Lnode]
      exact .mk (by simp) (by simp) (by simp)
  · simp [Ex.a2, Ty.Acyc, Ty.occ, occs, Acycs]
  · simp [Ex.a2, Ty.Ok, Oks]
  · simp [Ex.b2, Ex.r15, Rnode]
  · simp [Ex.b2, Ex.r15, Ty.Ok]
  · simp [Made, Ex.a2, Ty.deep?]
  · simp [Ex.a2, Ex.b2, Ex.r15, Ty.occ, occs]
  · simp [Ex.a2, L2, isTupleStruct]
  · simp only [Ex.b2, Ex.r15, every_sizedArr, every_intRange]
    refine ⟨⟨?_, ?_, ?_, ?_⟩, ⟨?_, ?_, ?_, ?_⟩, ⟨?_, ?_, ?_, ?_⟩⟩ <;> simp [LeafOps, Ty.operands?, isTupleStruct, holds]

theorem assignable_not (t u : Ty) : assignable E (.not t) (.not u) = assignable E u t := by
  have hd : (Ty.not t).deep? = none := rfl
  have h2 : u.depth + t.depth < (Ty.not t).depth + (Ty.not u).depth + 2 := by simp only [Ty.depth]; omega
  obtain ⟨⟨r, g⟩, hr⟩ := asg_total (E := E) (g := none) h2
  have h1 : assignable E (.not t) (.not u) = r := by
    rw [assignable, asg, hd]
    simp only [leafAsg, notAsg, hr, Option.map_some]
  rw [h1, Bool.eq_iff_iff, assignable_iff h2, hr]
  simp

/-- **C26**, negations: of two negated types, it is the other way round. -/
theorem C26_sound_not_partial {F : Feat} (hE : E.Apart) {t u : Ty} (ht : Right F t) (hu : Left F u) (hta : t.Acyc) (mt : Made t) (mu : Made u)
    (hd : ∀ o, u.occ o → ¬ t.occ o) (hl : Every L1 u) (hr : Every R1 t) (h : assignable E (.not t) (.not u) = true) (v : Val) (hv : Value.WF v)
    (hf : Fits v) (hi : instanceOf E (.not u) v = true) : instanceOf E (.not t) v = true := by
  rw [assignable_not] at h
  have key := C26_sound_partial hE hu ht hta mu mt hd hl hr h v hv hf
  rw [instanceOf_has (by simpa [Ty.Acyc] using hu.acyc)] at hi
  rw [instanceOf_has (by simpa [Ty.Acyc] using hta)]
  rw [instanceOf_has hta, instanceOf_has hu.acyc] at key
  have e : ∀ x : Ty, has E (.not x) v = !has E x v := fun x => by rw [has, hasP]; rfl
  rw [e] at hi ⊢
  simp only [Bool.not_eq_true'] at hi ⊢
  cases h' : has E t v with
  | false => rfl
  | true => rw [key h'] at hi; cases hi

/-- `!0..5` from `!int` -/
example : assignable Ex.E0 (.not Ex.r15) (.not .intT) = true ∧ assignable Ex.E0 (.not .intT) (.not Ex.r15) = false ∧
    instanceOf Ex.E0 (.not .intT) (Ex.s 97) = true ∧ Right ⟨false, false, false⟩ Ex.r15 ∧ Left ⟨false, false, false⟩ .intT := by
  refine ⟨by decide +kernel, by decide +kernel, by decide +kernel, ⟨?_, tree_of_made ?_ ?_, ?_⟩, ⟨?_, ?_, ?_⟩⟩
  · simp [Ex.r15, Rnode]
  · simp [Made, Ex.r15, Ty.deep?]
  · simp [Ex.r15, Ty.Acyc]
  · simp [Ex.r15, Ty.Ok]
  · simp [Lnode]
  · simp [Ty.Acyc]
  · simp [Ty.Ok]

/-- Where the claim is false: the type assigned to, the other, and a value that only the other accepts. -/
def Ex.unsound : List (Ty × Ty × Val) :=
  let u := Oid.user
  [-- `[]int|nil` from `[]string|nil`: the guard takes the second comparison for a recursion
   (.anyOf (u 0) [.sizedArr (u 1) .intT 0 maxInt, .nilT], .anyOf (u 2) [.sizedArr (u 3) .strT 0 maxInt, .nilT], .arr [s 97]),
   -- `{string, int}|nil` from the type of `{1, 2}`
   (.anyOf (u 0) [.tuple (u 1) [.strT, .intT] false, .nilT], .exactD (u 2) (.arr [i 1, i 2]), .arr [i 1, i 2]),
   -- `{...int}` from `{...string}`
   (.tuple (u 0) [.intT] true, .tuple (u 1) [.strT] true, .arr [s 97]),
   -- `{1: int}` from `{1: int, ...}`
   (.struct (u 0) false [(i 1, true, .intT)], .struct (u 1) true [(i 1, true, .intT)], .map [(i 1, i 1), (i 2, i 2)]),
   -- `map[int]int` from `{1: int, ...}`
   (.sizedMap (u 0) .intT .intT 0 maxInt, .struct (u 1) true [(i 1, true, .intT)], .map [(i 1, i 1), (s 97, i 2)]),
   -- exactly one of `int` and `0..10`, from `5..20`
   (.oneOf (u 0) [.intT, .intRange 0 10 true], .intRange 5 20 true, i 5),
   -- not `0..10`, from `5..20`
   (.not (.intRange 0 10 true), .intRange 5 20 true, i 5),
   -- not `0..10`, from `string|0..5`, and from exactly one of these two
   (.not (.intRange 0 10 true), .anyOf (u 0) [.strT, .intRange 0 5 true], i 3),
   (.not (.intRange 0 10 true), .oneOf (u 0) [.strT, .intRange 0 5 true], i 3),
   -- `int` from the conjunction of no types
   (.intT, .allOf (u 0) [], s 97)]

theorem C26_violated : ∀ w ∈ Ex.unsound, assignable Ex.E0 w.1 w.2.1 = true ∧ instanceOf Ex.E0 w.2.1 w.2.2 = true ∧ instanceOf Ex.E0 w.1 w.2.2 = false := by
  decide +kernel

/-! ### C27: reflexive, transitive -/

/-- No bound of a range of floats is NaN. -/
def NoNaN (t : Ty) : Prop := Every (fun t => ∀ lo hi i, t = .floatRange lo hi i → lo.isNaN = false ∧ hi.isNaN = false) t

theorem tyEq_refl : ∀ (n : Nat) (t : Ty), t.depth < n → t.Ok → NoNaN t → tyEq n [] t t = true
  | 0, _, h, _, _ => by omega
  | n + 1, t, h, hok, hn => by
    rw [tyEq]
    cases hd : t.deep? with
    | some o => simp
    | none =>
      dsimp only
      cases t <;> simp only [Ty.deep?, reduceCtorEq] at hd <;> simp only [leafEq, beq_self_eq_true, Bool.and_self]
      case exact v => exact laws.refl v hok.2
      case floatRange lo hi i =>
        obtain ⟨h1, h2⟩ := hn.here _ _ _ rfl
        simp [Value.F64.eq, h1, h2]
      case not t => exact tyEq_refl n t (by simp only [Ty.depth] at h; omega) hok (hn.part (by simp [parts]))
      case metaT t => exact tyEq_refl n t (by simp only [Ty.depth] at h; omega) hok (hn.part (by simp [parts]))

theorem asg_refl : ∀ (n : Nat) (t : Ty), t.depth < n → t.Ok → NoNaN t → asg E n none t t = some (true, none)
  | 0, _, h, _, _ => by omega
  | n + 1, t, h, hok, hn => by
    rw [asg]
    cases hd : t.deep? with
    | some o => simp
    | none =>
      dsimp only
      cases t <;> simp only [Ty.deep?, reduceCtorEq] at hd <;> simp only [leafAsg, leafCase, beq_self_eq_true, Option.map_some]
      case exact v =>
        have := laws.refl v hok.2
        cases v <;> simp [leafCase, this]
      case intRange lo hi i =>
        have h1 : lo.slt lo = false := by simp [BitVec.slt]
        have h2 : ∀ x : BitVec 64, x.sle x = true := by simp [BitVec.sle]
        simp [h1, h2]
      case floatRange lo hi i =>
        obtain ⟨h1, h2⟩ := hn.here _ _ _ rfl
        simp [Value.F64.lt, Value.F64.eq, F64.le, h1, h2]
      case not t =>
        rw [notAsg, asg_refl n t (by simp only [Ty.depth] at h; omega) hok (hn.part (by simp [parts]))]; rfl
      case metaT t => rw [tyEq_refl n t (by simp only [Ty.depth] at h; omega) hok (hn.part (by simp [parts]))]
      all_goals simp

/-- **C27**, reflexive.  Every type is assignable from itself; not so a range of floats with a NaN for a bound (`C27_nan_violated`). -/
theorem C27_reflexive_partial {t : Ty} (hok : t.Ok) (hn : NoNaN t) : assignable E t t = true := by
  rw [assignable, asg_refl _ t (by omega) hok hn]

example : Ty.Ok (.not (.metaT (.anyOf (.user 0) [.exact (Ex.i 3), .floatRange Ex.f0 Ex.f1 true]))) ∧
    NoNaN (.not (.metaT (.anyOf (.user 0) [.exact (Ex.i 3), .floatRange Ex.f0 Ex.f1 true]))) := by
  refine ⟨by simp [Ty.Ok, Oks, Ex.i, isScalar, Value.WF], .mk (by simp) ?_⟩
  simp only [parts, List.mem_singleton]
  rintro _ rfl
  refine .mk (by simp) ?_
  simp only [parts, List.mem_singleton]
  rintro _ rfl
  refine .mk (by simp) ?_
  simp only [parts, List.mem_cons, List.not_mem_nil, or_false]
  rintro _ (rfl | rfl)
  · exact .leaf (by simp) rfl
  · refine .leaf ?_ rfl
    rintro lo hi i ⟨⟩
    decide

theorem C27_nan_violated : ∃ t, floatType Ex.f0 0x7ff8000000000000 true = some t ∧ assignable Ex.E0 t t = false :=
  ⟨.floatRange Ex.f0 0x7ff8000000000000 true, rfl, by decide +kernel⟩

/-- The first loop of `lessRestrictive` marks all types of the other list if they are assignable one by one. -/
theorem lessLoop_inOrder {rec : G → Ty → Ty → Check} {g : G} : ∀ {as bs : List Ty} (done : List Ty), List.Forall₂ (fun a b => rec g a b = some (true, g)) as bs →
    lessLoop rec g as (done.map (fun b => (b, true)) ++ bs.map fun b => (b, false)) = some (some ((done ++ bs).map fun b => (b, true)), g)
  | _, _, done, .nil => by simp [lessLoop]
  | _, _, done, .cons (a := a) (b := b) (l₁ := as) (l₂ := bs) h hs => by
    have key : ∀ done : List Ty, markFirst (fun g b => rec g a b) false g (done.map (fun b => (b, true)) ++ (b :: bs).map fun b => (b, false)) =
        some (some ((done ++ [b]).map (fun b => (b, true)) ++ bs.map fun b => (b, false)), g) := by
      intro done
      induction done with
      | nil => simp [markFirst, h]
      | cons d ds ih => simp only [List.map_cons, List.cons_append, markFirst] at ih ⊢; simp [ih]
    rw [lessLoop, key]
    have := lessLoop_inOrder (done ++ [b]) hs
    simpa using this

/-- **C27**, `allOf`.  `allOf` of types that are assignable one by one, in order, is assignable; so `allOf` of the same types in the same order is.
For operands that have no parts. -/
theorem C27_all_of_in_order {o o' : Oid} {ts us : List Ty} (hl : ∀ t ∈ ts, t.deep? = none)
    (h : List.Forall₂ (fun t u => assignable E t u = true) ts us) : assignable E (.allOf o ts) (.allOf o' us) = true := by
  by_cases ho : o = o'
  · subst ho
    rw [assignable, asg]
    simp [Ty.deep?]
  · have hd : ∀ t ∈ ts, ∀ u ∈ us, t.depth + u.depth < (Ty.allOf o ts).depth + (Ty.allOf o' us).depth + 2 := by
      intro t ht u hu
      have := depth_mem ht
      have := depth_mem hu
      simp only [Ty.depth]
      omega
    rw [assignable, asg]
    simp only [Ty.deep?, ho, if_false, deepAsg]
    generalize hg : (some _ : G) = g
    have h' : List.Forall₂ (fun t u => asg E ((Ty.allOf o ts).depth + (Ty.allOf o' us).depth + 2) g t u = some (true, g)) ts us := by
      generalize (Ty.allOf o ts).depth + (Ty.allOf o' us).depth + 2 = n at hd
      clear hg
      induction h with
      | nil => exact .nil
      | cons h _ ih =>
        refine .cons ?_ (ih (fun t ht => hl t (List.mem_cons_of_mem _ ht)) fun t ht u hu => hd t (List.mem_cons_of_mem _ ht) u (List.mem_cons_of_mem _ hu))
        have hn := hd _ List.mem_cons_self _ List.mem_cons_self
        obtain ⟨g', e⟩ := (assignable_iff hn).1 h
        cases n with
        | zero => omega
        | succ n =>
          rw [asg, hl _ List.mem_cons_self] at e ⊢
          dsimp only at e ⊢
          cases hx : leafAsg E (tyEq n []) (fun a b => (asg E n none a b).map (·.1)) _ _ with
          | none => rw [hx] at e; cases e
          | some r => rw [hx] at e; cases e; rfl
    have := lessLoop_inOrder [] h'
    simp only [List.map_nil, List.nil_append] at this
    rw [lessRestrictive, this]
    simp [List.filter_map, anyG, Function.comp_def]

example : assignable Ex.E0 (.allOf (.user 0) [Ex.r15, .intT]) (.allOf (.user 1) [Ex.r15, .intT]) = true :=
  C27_all_of_in_order (by simp [Ex.r15, Ty.deep?]) (.cons (by decide +kernel) (.cons (by decide +kernel) .nil))

/-- Equal types need not be assignable from each other: here, `allOf` of the same types in another order. -/
theorem C27_equal_violated : ∃ t u : Ty, t.equals u = true ∧ assignable Ex.E0 t u = false :=
  ⟨.allOf (.user 0) [.intT, Ex.r15], .allOf (.user 1) [Ex.r15, .intT], by decide +kernel, by decide +kernel⟩

/-- **C27**, transitive, for the types of scalars, arrays, maps and sensitive values made by the constructors.  Missing: operations, tuples, structs
and exact arrays and maps, and case insensitive strings, where it is false (`C27_struct_violated`, `C27_ci_violated`). -/
theorem C27_transitive_partial {a b c : Ty} (ha : a.Ok) (hb : b.Ok) (hc : c.Ok) (na : Every transNode a) (nb : Every transNode b)
    (nc : Every transNode c) (sa : Simple a) (sb : Simple b) (sc : Simple c) (ma : Made a) (mb : Made b) (mc : Made c) (aa : a.Acyc) (ab : b.Acyc)
    (dab : ∀ o, a.occ o → ¬ b.occ o) (dbc : ∀ o, b.occ o → ¬ c.occ o) (dac : ∀ o, a.occ o → ¬ c.occ o)
    (h1 : assignable E a b = true) (h2 : assignable E b c = true) : assignable E a c = true := by
  have ta := tree_of_made ma aa
  rw [assignable_sub sa sb ta (apart_of_made ma mb dab)] at h1
  rw [assignable_sub sb sc (tree_of_made mb ab) (apart_of_made mb mc dbc)] at h2
  rw [assignable_sub sa sc ta (apart_of_made ma mc dac)]
  exact sub_trans a b c ha hb hc na nb nc sa sb sc h1 h2

/-- Any map type is assignable from `map[string]int`, and that from `{a: int}`, but not the first from the last. -/
theorem C27_struct_violated : ∃ a b c : Ty, assignable Ex.E0 a b = true ∧ assignable Ex.E0 b c = true ∧ assignable Ex.E0 a c = false :=
  ⟨.mapT, .sizedMap (.user 0) .strT .intT 0 maxInt, .struct (.user 1) false [(Ex.s 97, true, .intT)],
    by decide +kernel, by decide +kernel, by decide +kernel⟩

example : ∃ a b c : Ty, (∀ t ∈ [a, b, c], t.Ok ∧ Every transNode t ∧ Simple t ∧ Made t ∧ t.Acyc) ∧ (∀ o, a.occ o → ¬ b.occ o) ∧ (∀ o, b.occ o → ¬ c.occ o) ∧
    (∀ o, a.occ o → ¬ c.occ o) ∧ assignable Ex.E0 a b = true ∧ assignable Ex.E0 b c = true := by
  refine ⟨.sizedArr (.user 0) .intT 0 maxInt, .sizedArr (.user 1) (.intRange 0 9 true) 0 8, .sizedArr (.user 2) Ex.r15 1 3, ?_, ?_, ?_, ?_,
    by decide +kernel, by decide +kernel⟩ <;> simp [Ty.Ok, Ex.r15, transNode, Simple, Made, Ty.Acyc, Ty.occ, Ty.deep?]

/-- A string type of size 1 is assignable from the case insensitive "k", and that from the type of the Kelvin sign, which folds to it and takes three
bytes. -/
theorem C27_ci_violated (h : E.fold [0x6b] [0xe2, 0x84, 0xaa] = true) : ∃ a b c : Ty, assignable E a b = true ∧ assignable E b c = true ∧ assignable E a c = false := by
  refine ⟨.sizedStr 1 1, .ciStr [0x6b], .exact (.str [0xe2, 0x84, 0xaa]), ?_, ?_, ?_⟩ <;> rw [assignable_leaf rfl rfl (by simp)] <;> simp [leafCase, h, len]

/-! ### C58: equal types accept the same values -/

/-- **C58.**  Types that are equal accept the same values.  Left out: types that share parts with each other, and sensitive values in exact types, where
it is false (`C58_violated`). -/
theorem C58_same_partial {a b : Ty} (ha : a.Acyc) (hb : b.Acyc) (ma : Made a) (mb : Made b) (oa : a.Ok) (ob : b.Ok) (ea : Every eqNode a) (eb : Every eqNode b)
    (hd : ∀ o, a.occ o → ¬ b.occ o) (h : a.equals b = true) (v : Val) (hv : Value.WF v) : instanceOf E a v = instanceOf E b v := by
  rw [instanceOf_has ha, instanceOf_has hb]
  exact tyEq_sound _ [] a b ⟨tree_of_made ma ha, oa, ea⟩ ⟨tree_of_made mb hb, ob, eb⟩ (apart_of_made ma mb hd) (by simp) h v hv

example : ∃ a b : Ty, (∀ t ∈ [a, b], t.Ok ∧ Every eqNode t ∧ Made t ∧ t.Acyc) ∧ (∀ o, a.occ o → ¬ b.occ o) ∧ a.equals b = true ∧ a ≠ b := by
  refine ⟨.anyOf (.user 0) [.exactD (.user 1) (.arr [Ex.i 1]), .strT], .anyOf (.user 2) [.strT, .exactD (.user 3) (.arr [Ex.i 1])], ?_, ?_,
    by decide +kernel, by simp⟩ <;>
  simp [Ty.Ok, Oks, eqNode, Made, Ty.Acyc, Acycs, Ty.occ, occs, Ty.deep?, Ex.i, isScalar, isDeepExact, Value.WF, Value.WFs, NoSens, NoSensAll]

/-- Equal types, and a value that only one of them accepts.  First, a type with a part that is the other; second, a sensitive value, whose type
is that of all sensitive integers. -/
theorem C58_violated : ∀ w ∈ [
    (let x := Ty.oneOf (.user 0) [.intT, .strT]; (x, Ty.oneOf (.user 1) [x, .strT], Ex.s 97)),
    (Ty.tuple (.user 0) [.sens (.user 1) .intT] false, Ty.exactD (.user 2) (.arr [.sens (Ex.i 1)]), .arr [.sens (Ex.i 2)])],
    w.1.equals w.2.1 = true ∧ instanceOf Ex.E0 w.1 w.2.2 ≠ instanceOf Ex.E0 w.2.1 w.2.2 := by decide +kernel

/-- A tuple type and the type of an array can be equal in one direction only. -/
theorem C58_asymmetric : ∃ a b : Ty, a.equals b = true ∧ b.equals a = false :=
  ⟨.tuple (.user 0) [.exact (Ex.i 1)] false, .exactD (.user 1) (.arr [Ex.i 1]), by decide +kernel, by decide +kernel⟩

/-! ### C59: types do not tell equal values apart -/

/-- **C59.**  Equal values are instances of the same types. -/
theorem C59_congruence {t : Ty} (ha : t.Acyc) (hok : t.Ok) {v w : Val} (hv : Value.WF v) (hw : Value.WF w) (h : eq v w = true) :
    instanceOf E t v = instanceOf E t w := by
  rw [instanceOf_has ha, instanceOf_has ha]
  exact has_congr hok hv hw h

example : ∃ v w : Val, v ≠ w ∧ Value.WF v ∧ Value.WF w ∧ eq v w = true ∧ Ex.m1.Acyc ∧ Ex.m1.Ok ∧ instanceOf Ex.E0 Ex.m1 v = true :=
  ⟨.map [(Ex.s 97, Ex.i 1), (Ex.s 98, Ex.i 2)], .map [(Ex.s 98, Ex.i 2), (Ex.s 97, Ex.i 1)], by simp [Ex.s],
    by simp [Ex.s, Ex.i, Value.WF, WFes, eq], by simp [Ex.s, Ex.i, Value.WF, WFes, eq], by decide +kernel,
    by simp [Ex.m1, Ty.Acyc, Ty.occ, occs, Acycs], by simp [Ex.m1, Ty.Ok, Oks], by decide +kernel⟩

end Verif.Types
