import Verif.Types.StructLemmas
import Verif.Types.New
/-!
# C24 and C28 - C34: what types accept, Validate, New and the conversion of Go integers

`instanceOf E t v` is `t.Instance(v)`, `none` is a panic.  `Ty.Acyc`: no type object is a part of itself; that holds of every
type that the constructors make.  `Value.WF`: no NaN, and maps have distinct keys.  `Fits`: sizes are `int`s.
-/
set_option autoImplicit false
set_option linter.unusedSimpArgs false
set_option linter.unnecessarySimpa false
namespace Verif.Types
open Verif.Value

variable {E : Env}

/-! ### For the examples -/
namespace Ex
def E0 : Env := { rx := fun _ _ => false, fold := fun a b => a == b, same := fun a b => a == b }
def i (n : Int) : Val := .int (BitVec.ofInt 64 n)
def s (n : Nat) : Val := .str [n.toUInt8]
/-- the type 1..5 -/
def r15 : Ty := .intRange 1 5 true
end Ex

/-! ### C24: integer ranges -/

/-- What the bounds say, after they have been put in order. -/
def InRange (min max : BitVec 64) (inclusive : Bool) (v : BitVec 64) : Prop :=
  Min.min min.toInt max.toInt ≤ v.toInt ∧
    (if inclusive then v.toInt ≤ Max.max min.toInt max.toInt else v.toInt < Max.max min.toInt max.toInt)

/-- **C24.**  An integer type accepts exactly the integers in the range.  Left out: the range of all 64-bit integers with an
exclusive end, for which the claim is false (`C24_violated`). -/
theorem C24_instance_partial {min max : BitVec 64} {inclusive : Bool} {t : Ty} (h : integerType min max inclusive = some t)
    (hfull : inclusive = true ∨ ¬ (Min.min min.toInt max.toInt = -2 ^ 63 ∧ Max.max min.toInt max.toInt = 2 ^ 63 - 1)) (v : Val) :
    instanceOf E t v = true ↔ ∃ i, v = .int i ∧ InRange min max inclusive i := by
  have hmin : minI64.toInt = -2 ^ 63 := by decide
  have hmax : maxI64.toInt = 2 ^ 63 - 1 := by decide
  unfold integerType at h
  unfold InRange
  by_cases hmm : min = max
  · subst hmm
    rw [if_pos rfl] at h
    cases inclusive with
    | false => simp at h
    | true =>
      simp only [Bool.not_true, Bool.false_eq_true, if_false, Option.some.injEq] at h
      subst h
      rw [instanceOf_has (by simp [Ty.Acyc])]
      cases v <;> simp [has, hasP, eq]
      rename_i i
      constructor
      · rintro rfl; omega
      · rintro ⟨h1, h2⟩; exact BitVec.eq_of_toInt_eq (by omega)
  · rw [if_neg hmm] at h
    have hne : min.toInt ≠ max.toInt := fun hc => hmm (BitVec.eq_of_toInt_eq hc)
    have key : ∀ lo hi : BitVec 64, lo.toInt = Min.min min.toInt max.toInt → hi.toInt = Max.max min.toInt max.toInt →
        (if lo = minI64 ∧ hi = maxI64 then some Ty.intT else some (Ty.intRange lo hi inclusive)) = some t →
        (instanceOf E t v = true ↔ ∃ i, v = .int i ∧ Min.min min.toInt max.toInt ≤ i.toInt ∧
          (if inclusive then i.toInt ≤ Max.max min.toInt max.toInt else i.toInt < Max.max min.toInt max.toInt)) := by
      intro lo hi hlo hhi h
      rw [← hlo, ← hhi] at hfull ⊢
      split at h
      · rename_i hb
        obtain ⟨rfl, rfl⟩ := hb
        cases h
        rw [hmin, hmax] at hfull ⊢
        have : inclusive = true := by simpa using hfull
        subst this
        rw [instanceOf_has (by simp [Ty.Acyc])]
        cases v <;> simp [has, hasP]
        rename_i i
        have h1 := i.le_toInt
        have h2 := i.toInt_lt
        omega
      · cases h
        rw [instanceOf_has (by simp [Ty.Acyc])]
        cases v <;> simp [has, hasP, BitVec.sle, BitVec.slt]
    by_cases hlt : max.slt min = true
    · rw [if_pos hlt] at h
      have : max.toInt < min.toInt := by simpa [BitVec.slt] using hlt
      exact key max min (by omega) (by omega) h
    · rw [if_neg hlt] at h
      have : ¬ max.toInt < min.toInt := by simpa [BitVec.slt] using hlt
      exact key min max (by omega) (by omega) h

example : integerType 5 1 false = some (.intRange 1 5 false) ∧ instanceOf Ex.E0 (.intRange 1 5 false) (Ex.i 4) = true ∧
    instanceOf Ex.E0 (.intRange 1 5 false) (Ex.i 5) = false := ⟨rfl, by decide +kernel⟩

/-- **C24.**  Equal bounds with an exclusive end are refused, and nothing else is. -/
theorem C24_refused (min max : BitVec 64) (inclusive : Bool) :
    integerType min max inclusive = none ↔ min = max ∧ inclusive = false := by
  unfold integerType
  by_cases h : min = max
  · rw [if_pos h]; cases inclusive <;> simp [h]
  · rw [if_neg h]
    simp only [h, false_and, iff_false]
    split <;> simp <;> split <;> simp

example : integerType 3 3 false = none ∧ integerType 3 3 true = some (.exact (.int 3)) := ⟨rfl, rfl⟩

/-- **C24 is violated** by the range of all 64-bit integers with an exclusive end: the end is accepted, because the code returns
the type of all integers. -/
theorem C24_violated : ∃ t, integerType minI64 maxI64 false = some t ∧ instanceOf E t (.int maxI64) = true ∧
    ¬ InRange minI64 maxI64 false maxI64 := by
  refine ⟨.intT, rfl, ?_, ?_⟩
  · rw [instanceOf_has (by simp [Ty.Acyc])]; simp [has, hasP]
  · unfold InRange; decide

/-! ### C28: the type of a value -/

/-- **C28.**  A value is an instance of its own type. -/
theorem C28_own_type (o : Oid) {v : Val} (h : Value.WF v) (hf : Fits v) : instanceOf E (typeOf o v) v = true := by
  rw [instanceOf_has (typeOf_ok o v).acyc]
  exact has_typeOf E o h hf

/-- `sensitive([1, {"a": [2]}])` -/
def Ex.deep : Val := .sens (.arr [Ex.i 1, .map [(Ex.s 97, .arr [Ex.i 2])]])
example : Value.WF Ex.deep ∧ Fits Ex.deep := by
  simp [Ex.deep, Value.WF, WFs, WFes, Fits, FitsAll, FitsEntries, Ex.i, Ex.s, len, maxInt]
example : instanceOf Ex.E0 (typeOf (.user 0) Ex.deep) Ex.deep = true := by decide +kernel

/-- NaN is not an instance of its own type. -/
theorem C28_nan_excluded : instanceOf E (typeOf (.user 0) (.float 0x7ff8000000000001#64)) (.float 0x7ff8000000000001#64) = false := by
  rw [instanceOf_has (typeOf_ok _ _).acyc]
  simp only [typeOf, has, hasP, eq]
  decide

/-! ### C29: logical types -/

/-- **C29.**  `AnyOf` accepts what at least one operand accepts. -/
theorem C29_any_of {o : Oid} {ts : List Ty} (h : (anyOfType o ts).Acyc) (v : Val) :
    instanceOf E (anyOfType o ts) v = true ↔ ∃ t ∈ ts, instanceOf E t v = true := by
  rw [instanceOf_has h]
  unfold anyOfType at h ⊢
  split at h
  · simp [has_not, has, hasP]
  · rw [List.exists_mem_cons_iff]; simp [instanceOf_has h]
  · rw [has_anyOf]
    exact ⟨fun ⟨t, ht, hv⟩ => ⟨t, ht, by rw [instanceOf_has (Acycs_iff.1 h.2 t ht)]; exact hv⟩,
      fun ⟨t, ht, hv⟩ => ⟨t, ht, by rw [instanceOf_has (Acycs_iff.1 h.2 t ht)] at hv; exact hv⟩⟩

/-- **C29.**  `AllOf` accepts what all operands accept. -/
theorem C29_all_of {o : Oid} {ts : List Ty} (h : (allOfType o ts).Acyc) (v : Val) :
    instanceOf E (allOfType o ts) v = true ↔ ∀ t ∈ ts, instanceOf E t v = true := by
  rw [instanceOf_has h]
  unfold allOfType at h ⊢
  split at h
  · simp [has, hasP]
  · simp [instanceOf_has h]
  · rw [has_allOf]
    exact forall_congr' fun t => forall_congr' fun ht => by rw [instanceOf_has (Acycs_iff.1 h.2 t ht)]

/-- **C29.**  `OneOf` accepts what exactly one operand accepts. -/
theorem C29_one_of {o : Oid} {ts : List Ty} (h : (oneOfType o ts).Acyc) (v : Val) :
    instanceOf E (oneOfType o ts) v = true ↔ ts.countP (fun t => instanceOf E t v) = 1 := by
  rw [instanceOf_has h]
  unfold oneOfType at h ⊢
  split at h
  · simp [has_not, has, hasP]
  · rename_i t; rw [List.countP_cons, List.countP_nil, instanceOf_has h]; cases has E t v <;> simp
  · rw [has_oneOf]
    have e : ts.countP (fun t => instanceOf E t v) = ts.countP (fun t => has E t v) :=
      List.countP_congr fun t ht => by rw [instanceOf_has (Acycs_iff.1 h.2 t ht)]
    rw [e]

/-- **C29.**  `Not` accepts what its operand does not accept. -/
theorem C29_not {t : Ty} (h : t.Acyc) (v : Val) : instanceOf E (notType t) v = !instanceOf E t v := by
  unfold notType
  split
  · rename_i u
    rw [instanceOf_has (E := E) (t := .not u) h, instanceOf_has (E := E) (t := u) h, has_not]
    simp
  · rw [instanceOf_has (E := E) (t := .not t) h, instanceOf_has h, has_not]

/-- `[]int | string` and `1..5 ^ int` -/
def Ex.union : List Ty := [.sizedArr (.user 1) .intT 0 maxInt, .strT]
example : (anyOfType (.user 0) Ex.union).Acyc ∧ (allOfType (.user 0) Ex.union).Acyc ∧ (oneOfType (.user 0) [Ex.r15, .intT]).Acyc := by
  simp [anyOfType, allOfType, oneOfType, Ex.union, Ty.Acyc, Acycs, occs, Ty.occ, Ex.r15]
example : instanceOf Ex.E0 (anyOfType (.user 0) Ex.union) (.arr [Ex.i 1]) = true ∧
    instanceOf Ex.E0 (anyOfType (.user 0) Ex.union) (.arr [Ex.s 97]) = false ∧
    instanceOf Ex.E0 (oneOfType (.user 0) [Ex.r15, .intT]) (Ex.i 7) = true ∧
    instanceOf Ex.E0 (oneOfType (.user 0) [Ex.r15, .intT]) (Ex.i 3) = false ∧
    instanceOf Ex.E0 (notType (.not .intT)) (Ex.i 3) = true := by decide +kernel

/-! ### C30: sizes -/

/-- The length lies between the sizes, negative ones taken as zero, in either order. -/
def InSize (min max n : Int) : Prop :=
  Min.min (Max.max 0 min) (Max.max 0 max) ≤ n ∧ n ≤ Max.max (Max.max 0 min) (Max.max 0 max)

/-- The sizes that the constructors of sized strings and binaries use: the lower one may be negative. -/
theorem sizes_swap (min max : Int) :
    ∃ lo hi : Int, (∀ n : Int, 0 ≤ n → (InSize min max n ↔ lo ≤ n ∧ n ≤ hi)) ∧
      sizedStringType min max = (if lo = 0 ∧ hi = maxInt then .strT else .sizedStr lo hi) ∧
      sizedBinaryType min max = .bin lo hi := by
  unfold InSize sizedStringType sizedBinaryType
  dsimp only
  by_cases h1 : min < 0
  · rw [if_pos h1]
    by_cases h2 : max < 0
    · rw [if_pos h2]
      refine ⟨max, 0, by intro n _; omega, rfl, ?_⟩
      split <;> simp_all
    · rw [if_neg h2]
      refine ⟨0, max, by intro n _; omega, rfl, ?_⟩
      split <;> simp_all
  · rw [if_neg h1]
    by_cases h2 : max < min
    · rw [if_pos h2]
      refine ⟨max, min, by intro n _; omega, rfl, ?_⟩
      split <;> simp_all
    · rw [if_neg h2]
      refine ⟨min, max, by intro n _; omega, rfl, ?_⟩
      split <;> simp_all

/-- **C30.**  Sized strings. -/
theorem C30_string (min max : Int) {v : Val} (hf : Fits v) :
    instanceOf E (sizedStringType min max) v = true ↔ ∃ s : Str, v = .str s ∧ InSize min max (len s) := by
  obtain ⟨lo, hi, hin, h, _⟩ := sizes_swap min max
  rw [h, instanceOf_has (by split <;> simp [Ty.Acyc])]
  cases v with
  | str s =>
    have hf : len s ≤ maxInt := hf
    have h0 : 0 ≤ len s := by simp [len]
    simp only [Val.str.injEq, exists_eq_left', hin _ h0]
    split <;> simp only [has, hasP, Bool.and_eq_true, decide_eq_true_eq, true_iff]
    omega
  | _ => split <;> simp [has, hasP]

/-- **C30.**  Sized binaries. -/
theorem C30_binary (min max : Int) (v : Val) :
    instanceOf E (sizedBinaryType min max) v = true ↔ ∃ b : List UInt8, v = .bin b ∧ InSize min max (len b) := by
  obtain ⟨lo, hi, hin, _, h⟩ := sizes_swap min max
  rw [h, instanceOf_has (by simp [Ty.Acyc])]
  cases v with
  | bin s =>
    have h0 : 0 ≤ len s := by simp [len]
    simp only [Val.bin.injEq, exists_eq_left', hin _ h0]
    simp only [has, hasP, Bool.and_eq_true, decide_eq_true_eq]
  | _ => simp [has, hasP]

theorem clampSizes_eq (min max : Int) :
    clampSizes min max = (Min.min (Max.max 0 min) (Max.max 0 max), Max.max (Max.max 0 min) (Max.max 0 max)) := by
  unfold clampSizes
  dsimp only
  generalize h1 : (if min < 0 then 0 else min) = a
  generalize h2 : (if max < 0 then 0 else max) = b
  have e1 : Max.max 0 min = a := by split at h1 <;> omega
  have e2 : Max.max 0 max = b := by split at h2 <;> omega
  rw [e1, e2]
  split <;> simp only [Prod.mk.injEq] <;> omega

/-- **C30.**  Arrays. -/
theorem C30_array {o : Oid} {e t : Ty} {min max : Int} (h : newArrayType o e min max = some t) (ha : e.Acyc) (ho : ¬ e.occ o)
    {v : Val} (hf : Fits v) :
    instanceOf E t v = true ↔ ∃ vs, v = .arr vs ∧ InSize min max (len vs) ∧ ∀ x ∈ vs, instanceOf E e x = true := by
  unfold newArrayType at h
  rw [clampSizes_eq] at h
  unfold InSize
  simp only [instanceOf_has ha]
  generalize hlo : Min.min (Max.max 0 min) (Max.max 0 max) = lo at h ⊢
  generalize hhi : Max.max (Max.max 0 min) (Max.max 0 max) = hi at h ⊢
  dsimp only at h
  split at h
  · rename_i hc
    obtain ⟨rfl, rfl, he⟩ := hc
    cases h
    cases e <;> simp only [Ty.isAny, Bool.false_eq_true] at he
    rw [instanceOf_has (by simp [Ty.Acyc])]
    cases v <;> simp [has, hasP]
    rename_i xs
    have := hf.1
    have : 0 ≤ len xs := by simp [len]
    omega
  · split at h
    · rename_i hc
      obtain ⟨rfl, rfl, he⟩ := hc
      cases hv : e.exactValue with
      | none => rw [hv] at h; cases h
      | some w =>
        rw [hv] at h
        cases h
        simp only [has_exactValue hv]
        rw [instanceOf_has (by simp [Ty.Acyc])]
        cases v with
        | arr vs =>
          simp only [has, hasP, eq, Val.arr.injEq, exists_eq_left']
          cases vs with
          | nil => simp [eqSlice, len]
          | cons x xs =>
            cases xs with
            | nil => simp [eqSlice, len]
            | cons y ys => simp [eqSlice, len]; omega
        | _ => simp [has, hasP, eq]
    · cases h
      rw [instanceOf_has (show (Ty.sizedArr o e lo hi).Acyc from ⟨ho, ha⟩), has_sizedArr]
      simp only [and_assoc]

/-- **C30.**  The array type constructor panics for one element of the nil type, and only then (in the code, `nilType` counts as
an exact type but has no exact value). -/
theorem C30_array_panics (o : Oid) (e : Ty) (min max : Int) :
    newArrayType o e min max = none ↔ e = .nilT ∧ Max.max 0 min = 1 ∧ Max.max 0 max = 1 := by
  unfold newArrayType
  rw [clampSizes_eq]
  dsimp only
  split
  · rename_i hc
    simp only [false_iff, reduceCtorEq, not_and]
    rintro rfl
    simp [Ty.isAny] at hc
  · split
    · rename_i h1 h2
      cases e <;> simp [Ty.isExact, Ty.exactValue] at h2 ⊢
      omega
    · rename_i h1 h2
      simp only [false_iff, reduceCtorEq, not_and]
      rintro rfl h3 h4
      exact h2 ⟨by omega, by omega, rfl⟩

/-- **C30.**  Maps. -/
theorem C30_map {o : Oid} {kt vt : Ty} {min max : Int} (hk : kt.Acyc) (hv : vt.Acyc) (hk' : ¬ kt.occ o) (hv' : ¬ vt.occ o)
    {v : Val} (hf : Fits v) :
    instanceOf E (newMapType o kt vt min max) v = true ↔
      ∃ es, v = .map es ∧ InSize min max (len es) ∧ ∀ e ∈ es, instanceOf E kt e.1 = true ∧ instanceOf E vt e.2 = true := by
  unfold newMapType InSize
  rw [clampSizes_eq]
  simp only [instanceOf_has hk, instanceOf_has hv]
  generalize hlo : Min.min (Max.max 0 min) (Max.max 0 max) = lo
  generalize hhi : Max.max (Max.max 0 min) (Max.max 0 max) = hi
  split
  · rename_i hc
    obtain ⟨rfl, rfl, he, he'⟩ := hc
    cases kt <;> simp only [Ty.isAny, Bool.false_eq_true] at he
    cases vt <;> simp only [Ty.isAny, Bool.false_eq_true] at he'
    rw [instanceOf_has (by simp [Ty.Acyc])]
    cases v <;> simp [has, hasP]
    rename_i xs
    have := hf.1
    have : 0 ≤ len xs := by simp [len]
    omega
  · rw [instanceOf_has (show (Ty.sizedMap o kt vt lo hi).Acyc from ⟨hk', hv', hk, hv⟩), has_sizedMap]
    simp only [and_assoc]

example : sizedStringType 5 (-3) = .sizedStr (-3) 5 ∧ instanceOf Ex.E0 (sizedStringType 5 (-3)) (.str []) = true := by
  constructor
  · simp [sizedStringType]
  · decide +kernel
example : newArrayType (.user 0) Ex.r15 3 (-1) = some (.sizedArr (.user 0) Ex.r15 0 3) ∧
    instanceOf Ex.E0 (.sizedArr (.user 0) Ex.r15 0 3) (.arr [Ex.i 1, Ex.i 5]) = true ∧
    instanceOf Ex.E0 (.sizedArr (.user 0) Ex.r15 0 3) (.arr [Ex.i 1, Ex.i 6]) = false := by
  refine ⟨by simp [newArrayType, clampSizes, Ex.r15, Ty.isExact, Ty.isAny], ?_⟩
  decide +kernel
example : instanceOf Ex.E0 (newMapType (.user 0) .strT Ex.r15 0 maxInt) (.map [(Ex.s 97, Ex.i 3)]) = true ∧
    instanceOf Ex.E0 (newMapType (.user 0) .strT Ex.r15 2 maxInt) (.map [(Ex.s 97, Ex.i 3)]) = false := by decide +kernel

/-! ### C31: tuples -/

/-- **C31.**  A tuple type accepts an array exactly when each element is an instance of the type at its position, and there are
as many elements as types. -/
theorem C31_tuple {o : Oid} {ts : List Ty} {t : Ty} (h : newTupleType o ts false = some t) (ha : Acycs ts) (ho : ¬ occs o ts)
    (v : Val) :
    instanceOf E t v = true ↔ ∃ vs, v = .arr vs ∧ List.Forall₂ (fun t x => instanceOf E t x = true) ts vs := by
  have e : ∀ vs, List.Forall₂ (fun t x => instanceOf E t x = true) ts vs ↔ List.Forall₂ (fun t x => has E t x = true) ts vs := by
    have ha := Acycs_iff.1 ha
    clear h ho
    intro vs
    induction ts generalizing vs with
    | nil => cases vs <;> simp
    | cons a ts ih =>
      cases vs with
      | nil => simp
      | cons x vs =>
        rw [List.forall₂_cons, List.forall₂_cons, instanceOf_has (ha a (by simp)),
          ih (by rw [Acycs_iff]; intro t ht; exact ha t (by simp [ht])) fun t ht => ha t (by simp [ht])]
  simp only [e]
  unfold newTupleType at h
  split at h
  · rename_i hl
    cases h
    have := List.eq_nil_of_length_eq_zero hl
    subst this
    rw [instanceOf_has (show (Ty.tuple o [] false).Acyc from ⟨fun h => h, trivial⟩), has_tuple]
  · rw [if_neg (by simp)] at h
    split at h
    · rw [Option.map_eq_some_iff] at h
      obtain ⟨ws, hw, rfl⟩ := h
      rw [instanceOf_has (by simp [Ty.Acyc])]
      rw [exactValues_iff] at hw
      cases v with
      | arr vs =>
        simp only [has, hasP, eq, Val.arr.injEq, exists_eq_left']
        rw [eqSlice_iff]
        clear e ha ho
        rename_i hne hx
        clear hne hx
        induction ts generalizing ws vs with
        | nil => cases ws <;> simp at hw ⊢
        | cons t ts ih =>
          cases ws with
          | nil => simp at hw
          | cons w ws =>
            simp only [List.map_cons, List.cons.injEq] at hw
            cases vs with
            | nil => simp
            | cons x vs =>
              rw [List.forall₂_cons, List.forall₂_cons]
              have h1 := ih ws hw.2 vs
              have h2 := has_exactValue (E := E) hw.1 x
              rw [has] at h2
              rw [h2]
              exact and_congr_right' h1
      | _ => simp [has, hasP, eq]
    · cases h
      rw [instanceOf_has (show (Ty.tuple o ts false).Acyc from ⟨ho, ha⟩), has_tuple]

/-- **C31.**  A variadic tuple type: any number of trailing elements of the last type. -/
theorem C31_variadic {o : Oid} {ts : List Ty} {last t : Ty} (h : variadicTupleType o (ts ++ [last]) = some t)
    (ha : Acycs (ts ++ [last])) (ho : ¬ occs o (ts ++ [last])) (v : Val) :
    instanceOf E t v = true ↔ ∃ vs ws, v = .arr (vs ++ ws) ∧
      List.Forall₂ (fun t x => instanceOf E t x = true) ts vs ∧ ∀ x ∈ ws, instanceOf E last x = true := by
  have e : ∀ vs, List.Forall₂ (fun t x => instanceOf E t x = true) ts vs ↔ List.Forall₂ (fun t x => has E t x = true) ts vs := by
    have ha : ∀ t ∈ ts, t.Acyc := fun t ht => Acycs_iff.1 ha t (by simp [ht])
    clear h ho
    intro vs
    induction ts generalizing vs with
    | nil => cases vs <;> simp
    | cons a ts ih =>
      cases vs with
      | nil => simp
      | cons x vs =>
        rw [List.forall₂_cons, List.forall₂_cons, instanceOf_has (ha a (by simp))]
        rename_i ha'
        rw [ih (by rw [Acycs_iff] at ha' ⊢; intro t ht; exact ha' t (by simp at ht ⊢; tauto)) fun t ht => ha t (by simp [ht])]
  have hl : last.Acyc := Acycs_iff.1 ha last (by simp)
  simp only [e, instanceOf_has hl]
  unfold variadicTupleType newTupleType at h
  rw [if_neg (by simp), if_neg (by simp)] at h
  have key : instanceOf E (.tuple o (ts ++ [last]) true) v = true ↔ ∃ vs ws, v = .arr (vs ++ ws) ∧
      List.Forall₂ (fun t x => has E t x = true) ts vs ∧ ∀ x ∈ ws, has E last x = true := by
    rw [instanceOf_has (show (Ty.tuple o (ts ++ [last]) true).Acyc from ⟨ho, ha⟩), has_variadic]
  split at h
  · rename_i hc
    cases h
    have : ts = [] := by
      have := hc.2.1
      simp at this
      exact this
    subst this
    have hany : last = .any := by
      have := hc.2.2
      simp only [List.nil_append, List.all_cons, List.all_nil, Bool.and_true] at this
      cases last <;> simp [Ty.isAny] at this ⊢
    subst hany
    exact key
  · simp only [Bool.not_true, Bool.false_and, Bool.false_eq_true, if_false, Option.some.injEq] at h
    subst h
    exact key

example : instanceOf Ex.E0 (.tuple (.user 0) [.strT, Ex.r15] true) (.arr [Ex.s 97]) = true ∧
    instanceOf Ex.E0 (.tuple (.user 0) [.strT, Ex.r15] true) (.arr [Ex.s 97, Ex.i 1, Ex.i 9]) = false ∧
    instanceOf Ex.E0 (.tuple (.user 0) [.strT, Ex.r15] false) (.arr [Ex.s 97]) = false ∧
    instanceOf Ex.E0 (.tuple (.user 0) [.strT, Ex.r15] false) (.arr [Ex.s 97, Ex.i 1]) = true := by decide +kernel
example : variadicTupleType (.user 0) [] = none := rfl

/-! ### C32: struct map types -/

/-- The value that a map has for a key -/
def lookupV (es : List (Val × Val)) (k : Val) : Option Val := (es.find? fun e => eq k e.1).map (·.2)

/-- Every required key is present, every declared key that is present holds an instance of its type, and there are no other
keys unless that is allowed. -/
def Matches (E : Env) (additional : Bool) (fs : List (Val × Bool × Ty)) (es : List (Val × Val)) : Prop :=
  (∀ f ∈ fs, f.2.1 = true → ∃ w, lookupV es f.1 = some w) ∧
  (∀ f ∈ fs, ∀ w, lookupV es f.1 = some w → instanceOf E f.2.2 w = true) ∧
  (additional = false → ∀ e ∈ es, ∃ f ∈ fs, eq f.1 e.1 = true)

theorem matches_iff {additional : Bool} {fs : List (Val × Bool × Ty)} {es : List (Val × Val)} (ha : AcycFields fs) :
    Matches E additional fs es ↔
      (∀ f ∈ fs, (f.2.1 = true → (mapGet es f.1).isSome = true) ∧ ∀ w, mapGet es f.1 = some w → has E f.2.2 w = true) ∧
      (additional = true ∨ ∀ e ∈ es, hasEntry fs e.1 = true) := by
  unfold Matches
  have ha := AcycFields_iff.1 ha
  have h3 : (additional = false → ∀ e ∈ es, ∃ f ∈ fs, eq f.1 e.1 = true) ↔ (additional = true ∨ ∀ e ∈ es, hasEntry fs e.1 = true) := by
    cases additional <;> simp [hasEntry]
  rw [h3, ← and_assoc]
  apply and_congr_left'
  constructor
  · rintro ⟨h1, h2⟩ f hf
    refine ⟨fun hr => ?_, fun w hw => ?_⟩
    · obtain ⟨w, hw⟩ := h1 f hf hr
      rw [show mapGet es f.1 = some w from hw]; rfl
    · rw [← instanceOf_has (ha f hf)]; exact h2 f hf w hw
  · intro h
    refine ⟨fun f hf hr => Option.isSome_iff_exists.1 ((h f hf).1 hr), fun f hf w hw => ?_⟩
    rw [instanceOf_has (ha f hf)]; exact (h f hf).2 w hw

/-- **C32.**  A struct map type accepts exactly the matching maps.  The keys must be declared once: the constructor does not
refuse a key that is declared twice, and then the claim is false (`C32_duplicates_violated`). -/
theorem C32_instance_partial {o : Oid} {additional : Bool} {fs : List (Val × Bool × Ty)} {t : Ty}
    (h : structMapType o additional fs = some t) (hw : ∀ f ∈ fs, Value.WF f.1) (hd : DistinctKeys fs) (ha : AcycFields fs)
    (ho : ¬ occFields o fs) {v : Val} (hv : Value.WF v) :
    instanceOf E t v = true ↔ ∃ es, v = .map es ∧ Matches E additional fs es := by
  have key : has E (.struct o additional fs) v = true ↔ ∃ es, v = .map es ∧ Matches E additional fs es := by
    cases v with
    | map es =>
      rw [has_struct hw (fun e he => ((WFes_iff es).1 hv.1 e he).1) hd hv.2]
      simp only [Val.map.injEq, exists_eq_left', matches_iff ha]
    | _ => simp [has, hasP]
  unfold structMapType at h
  split at h
  · rename_i hc
    simp only [Bool.and_eq_true, Bool.not_eq_true', List.all_eq_true] at hc
    obtain ⟨rfl, hall⟩ := hc
    cases hx : exactValues (fs.map (·.2.2)) with
    | none => rw [hx] at h; cases h
    | some vs =>
      rw [hx] at h
      cases h
      have hzip : ∀ (fs : List (Val × Bool × Ty)) (vs : List Val), (∀ e ∈ ((fs.map (·.1)).zip vs), ∃ f ∈ fs, e.1 = f.1) ∧
          (DistinctKeys fs → DistinctKeys ((fs.map (·.1)).zip vs)) := by
        intro fs
        induction fs with
        | nil => intro vs; exact ⟨by simp, fun _ => by simp [DistinctKeys]⟩
        | cons f fs ih =>
          intro vs
          cases vs with
          | nil => exact ⟨by simp, fun _ => by simp [DistinctKeys]⟩
          | cons w ws =>
            rw [List.map_cons, List.zip_cons_cons]
            refine ⟨fun e he => ?_, fun hd => ?_⟩
            · rcases List.mem_cons.1 he with rfl | he
              · exact ⟨f, by simp, rfl⟩
              · obtain ⟨g, hg, e'⟩ := (ih ws).1 e he
                exact ⟨g, by simp [hg], e'⟩
            · refine List.pairwise_cons.2 ⟨fun e he => ?_, (ih ws).2 hd.tail⟩
              obtain ⟨g, hg, e'⟩ := (ih ws).1 e he
              rw [e']
              exact (List.pairwise_cons.1 hd).1 g hg
      rw [putAll_distinct (by simpa using (hzip fs vs).2 hd) (by
        intro e he
        simp only [List.nil_append] at he
        obtain ⟨f, hf, e'⟩ := (hzip fs vs).1 e he
        rw [e']; exact hw f hf), instanceOf_has (by simp [Ty.Acyc]), List.nil_append,
        has_exact_struct (o' := o) hx fun f hf => (hall f hf).1]
      exact key
  · cases h
    rw [instanceOf_has (show (Ty.struct o additional fs).Acyc from ⟨ho, ha⟩)]
    exact key

/-- `{a: 1..5, b?: string}` -/
def Ex.fields : List (Val × Bool × Ty) := [(Ex.s 97, true, Ex.r15), (Ex.s 98, false, .strT)]
example : structMapType (.user 0) false Ex.fields = some (.struct (.user 0) false Ex.fields) ∧
    instanceOf Ex.E0 (.struct (.user 0) false Ex.fields) (.map [(Ex.s 97, Ex.i 2)]) = true ∧
    instanceOf Ex.E0 (.struct (.user 0) false Ex.fields) (.map [(Ex.s 98, Ex.s 97), (Ex.s 97, Ex.i 2)]) = true ∧
    instanceOf Ex.E0 (.struct (.user 0) false Ex.fields) (.map [(Ex.s 97, Ex.i 7)]) = false ∧
    instanceOf Ex.E0 (.struct (.user 0) false Ex.fields) (.map [(Ex.s 97, Ex.i 2), (Ex.s 99, Ex.i 2)]) = false ∧
    instanceOf Ex.E0 (.struct (.user 0) true Ex.fields) (.map [(Ex.s 97, Ex.i 2), (Ex.s 99, Ex.i 2)]) = true := by
  refine ⟨by simp [structMapType, Ex.fields], ?_⟩
  decide +kernel
example : (∀ f ∈ Ex.fields, Value.WF f.1) ∧ DistinctKeys Ex.fields ∧ AcycFields Ex.fields ∧ ¬ occFields (.user 0) Ex.fields := by
  refine ⟨by simp [Ex.fields, Ex.s, Value.WF], ?_, by simp [Ex.fields, AcycFields, Ex.r15, Ty.Acyc],
    by simp [Ex.fields, occFields, Ex.r15, Ty.occ]⟩
  simp only [DistinctKeys, Ex.fields]
  decide +kernel

/-- **C32 is violated** when a key is declared twice: `{a?: int, a?: int}` refuses `{a: 1}` and accepts `{a: 1, b: 2}`. -/
theorem C32_duplicates_violated : ∃ (t : Ty) (fs : List (Val × Bool × Ty)) (es es' : List (Val × Val)),
    structMapType (.user 0) false fs = some t ∧
    Matches Ex.E0 false fs es ∧ instanceOf Ex.E0 t (.map es) = false ∧
    ¬ Matches Ex.E0 false fs es' ∧ instanceOf Ex.E0 t (.map es') = true := by
  refine ⟨_, [(Ex.s 97, false, .intT), (Ex.s 97, false, .intT)], [(Ex.s 97, Ex.i 1)], [(Ex.s 97, Ex.i 1), (Ex.s 98, Ex.i 2)],
    by simp [structMapType]; rfl, ?_, by decide +kernel, ?_, by decide +kernel⟩
  · refine ⟨by simp, ?_, ?_⟩
    · intro f hf w hw
      have : w = Ex.i 1 := by
        simp only [List.mem_cons, List.not_mem_nil, or_false, or_self] at hf
        subst hf
        simp [lookupV, Ex.s, eq] at hw
        exact hw.symm
      subst this
      simp only [List.mem_cons, List.not_mem_nil, or_false, or_self] at hf
      subst hf
      decide +kernel
    · intro _ e he
      simp only [List.mem_cons, List.not_mem_nil, or_false] at he
      subst he
      exact ⟨_, List.mem_cons_self, by decide +kernel⟩
  · rintro ⟨_, _, h3⟩
    obtain ⟨f, hf, h⟩ := h3 rfl (Ex.s 98, Ex.i 2) (by simp)
    simp only [List.mem_cons, List.not_mem_nil, or_false, or_self] at hf
    subst hf
    revert h
    decide +kernel

/-- Are additional keys allowed? -/
def Ty.additional : Ty → Bool
  | .struct _ a _ => a
  | _ => false

/-- **C32.**  `Validate` reports no error exactly when `Instance` is true, for types that do not allow additional keys, declare a
key once and (for an exact map type) have no sensitive value in them.  Without these conditions it is false:
`C32_validate_violated`. -/
theorem C32_validate_partial {t : Ty} {fs : List (Val × Bool × Ty)} (h : t.structEntries = some fs) (hadd : t.additional = false)
    (hd : DistinctKeys fs) (hw : ∀ f ∈ fs, Value.WF f.1) (ha : t.Acyc)
    (hs : ∀ o zs, t = .exactD o (.map zs) → ∀ e ∈ zs, ∀ w, e.2 ≠ .sens w) {v : Val} (hv : Value.WF v) :
    validate E t v = some [] ↔ instanceOf E t v = true := by
  have key : ∀ o, AcycFields fs → ((match v with
      | .map es => validateEntries E es fs ++ validateKeys fs es
      | _ => [Err.notMap]) = [] ↔ has E (.struct o false fs) v = true) := by
    intro o ha
    cases v with
    | map es =>
      rw [has_struct hw (fun e he => ((WFes_iff es).1 hv.1 e he).1) hd hv.2]
      simp only [List.append_eq_nil_iff, validateEntries_nil, validateKeys_nil, Bool.false_eq_true, false_or]
      apply and_congr_left'
      refine forall_congr' fun f => forall_congr' fun hf => ?_
      simp only [instanceOf_has (AcycFields_iff.1 ha f hf)]
    | _ => simp [has, hasP]
  have hval : validate E t v = some [] ↔ (match v with
      | .map es => validateEntries E es fs ++ validateKeys fs es
      | _ => [Err.notMap]) = [] := by
    unfold validate
    rw [h]
    cases v <;> simp
  rw [hval]
  cases t <;> simp only [Ty.structEntries, reduceCtorEq] at h
  case struct o add gs =>
    cases h
    simp only [Ty.additional] at hadd
    subst hadd
    rw [instanceOf_has ha, ← key o ha.2]
  case exactD o w =>
    split at h
    case h_1 => rename_i he; cases he
    case h_3 => cases h
    rename_i o' zs he
    cases he
    split at h
    · cases h
      rw [instanceOf_has ha, has_exact_entries (o' := o) (hs o zs rfl), ← key o ?_]
      rw [AcycFields_iff]
      intro f hf
      obtain ⟨_, e, _, _, o', h⟩ := entriesOf_mem hf
      rw [h]
      exact (typeOf_ok _ _).acyc
    · cases h

/-- **C32.**  `ValidateVerbose` returns true exactly when `Validate` reports no error. -/
theorem C32_verbose_agrees (t : Ty) (v : Val) : validateVerbose E t v = (validate E t v).map List.isEmpty := by
  unfold validateVerbose validate
  cases v with
  | map es =>
    cases t.structEntries with
    | none => rfl
    | some fs =>
      simp only [Option.map_some]
      rw [verboseKeys_eq, verboseEntries_eq]
      cases validateEntries E es fs <;> simp
  | _ => simp only; split <;> rfl

/-- **C32.**  `Validate` and `ValidateVerbose` answer for every struct map type whose keys have exact types. -/
theorem C32_validate_answers {t : Ty} {fs : List (Val × Bool × Ty)} (h : t.structEntries = some fs) (v : Val) :
    ∃ errs, validate E t v = some errs ∧ validateVerbose E t v = some errs.isEmpty := by
  rw [C32_verbose_agrees]
  have hsm : t.isStructMap = true := by
    cases t <;> simp only [Ty.structEntries, reduceCtorEq] at h <;> try rfl
    split at h
    · rename_i he; cases he
    · rename_i he; cases he; rfl
    · cases h
  have : ∃ errs, validate E t v = some errs := by
    unfold validate
    rw [h, hsm]
    cases v <;> exact ⟨_, rfl⟩
  obtain ⟨errs, he⟩ := this
  exact ⟨errs, he, by rw [he]; rfl⟩

example : (validate Ex.E0 (.struct (.user 0) false Ex.fields) (.map [(Ex.s 98, Ex.i 1), (Ex.s 99, Ex.i 2)])).map List.length = some 3 ∧
    validateVerbose Ex.E0 (.struct (.user 0) false Ex.fields) (.map [(Ex.s 98, Ex.i 1), (Ex.s 99, Ex.i 2)]) = some false ∧
    (validate Ex.E0 (.struct (.user 0) false Ex.fields) (.map [(Ex.s 97, Ex.i 2)])).map List.length = some 0 := by decide +kernel

/-- **C32 is violated**: a struct type that allows additional keys accepts a map that `Validate` reports an unknown key for, and
`Validate` of the exact type of `{a: sensitive(1)}` reports nothing for `{a: sensitive(2)}`, which is not an instance. -/
theorem C32_validate_violated :
    (∃ t v, instanceOf Ex.E0 t v = true ∧ t.additional = true ∧ (validate Ex.E0 t v).map List.length = some 1) ∧
    (∃ t v, instanceOf Ex.E0 t v = false ∧ (validate Ex.E0 t v).map List.length = some 0) :=
  ⟨⟨.struct (.user 0) true Ex.fields, .map [(Ex.s 97, Ex.i 2), (Ex.s 99, Ex.i 2)], by decide +kernel, rfl, by decide +kernel⟩,
   ⟨.exactD (.user 0) (.map [(Ex.s 97, .sens (Ex.i 1))]), .map [(Ex.s 97, .sens (Ex.i 2))], by decide +kernel, by decide +kernel⟩⟩

/-- **C32 is violated: keys whose type is not exact.**  For the exact type of a map with a key that is nil or sensitive both panic, whatever map they are given,
that map included; only for other values they answer. -/
theorem C32_keys_violated (o : Oid) (zs : List (Val × Val)) (k w : Val) (hk : (k, w) ∈ zs) (h : k = .nil ∨ ∃ u, k = .sens u) :
    (∀ es, validate E (.exactD o (.map zs)) (.map es) = none ∧ validateVerbose E (.exactD o (.map zs)) (.map es) = none) ∧
    ∀ v, (∀ es, v ≠ .map es) → validate E (.exactD o (.map zs)) v = some [.notMap] ∧ validateVerbose E (.exactD o (.map zs)) v = some false := by
  have hn : Ty.structEntries (.exactD o (.map zs)) = none := by
    unfold Ty.structEntries
    dsimp only
    rw [if_neg]
    simp only [List.all_eq_true, Bool.not_eq_true]
    intro hall
    have := hall _ hk
    rcases h with rfl | ⟨u, rfl⟩ <;> simp [Ty.structEntries.keyHasExact] at this
  constructor
  · intro es
    unfold validate validateVerbose
    rw [hn]; exact ⟨rfl, rfl⟩
  · intro v hv
    unfold validate validateVerbose
    cases v <;> first | exact ⟨rfl, rfl⟩ | exact absurd rfl (hv _)

/-- The map from nil to 1 is an instance of its type, and cannot be validated. -/
example : instanceOf Ex.E0 (.exactD (.user 0) (.map [(.nil, Ex.i 1)])) (.map [(.nil, Ex.i 1)]) = true ∧
    validate Ex.E0 (.exactD (.user 0) (.map [(.nil, Ex.i 1)])) (.map [(.nil, Ex.i 1)]) = none :=
  ⟨by decide +kernel, ((C32_keys_violated (.user 0) _ .nil (Ex.i 1) (by simp) (.inl rfl)).1 _).1⟩

/-! ### C33: New -/

theorem check_some {t : Ty} {v w : Val} (h : check E t v = some w) : instanceOf E t w = true := by
  unfold check at h
  split at h
  · cases h; assumption
  · cases h

/-- **C33.**  `New` returns an instance of the type, or panics.  Left out: the sensitive types, for which that is false
(`C33_sensitive_violated`). -/
theorem C33_new_partial (C : Conv) {t : Ty} {a : Arg} {v : Val} (hs : ∀ o u, t ≠ .sens o u) (h : new E C t a = some v) :
    instanceOf E t v = true := by
  have bind : ∀ {α : Type} {o : Option α} {f : α → Option Val}, o.bind f = some v → ∃ x, f x = some v := by
    intro α o f h
    cases o with
    | none => cases h
    | some x => exact ⟨x, h⟩
  have hBool : newBoolean E C t a = some v → instanceOf E t v = true := by
    intro h
    obtain ⟨x, h⟩ := bind h
    obtain ⟨y, h⟩ := bind h
    exact check_some h
  have hInt : newInt E C t a = some v → instanceOf E t v = true := by
    intro h
    unfold newInt at h
    split at h
    · obtain ⟨x, h⟩ := bind h; exact check_some h
    · obtain ⟨x, h⟩ := bind h; exact check_some h
    · split at h
      · obtain ⟨x, h⟩ := bind h; exact check_some h
      · cases h
    · cases h
  have hFloat : newFloat E C t a = some v → instanceOf E t v = true := by
    intro h
    obtain ⟨x, h⟩ := bind h
    obtain ⟨y, h⟩ := bind h
    exact check_some h
  have hStr : newString E C t a = some v → instanceOf E t v = true := by
    intro h
    unfold newString at h
    split at h
    · obtain ⟨x, h⟩ := bind h; exact check_some h
    · obtain ⟨x, h⟩ := bind h
      split at h <;> exact check_some h
  have hBin : newBinary E C t a = some v → instanceOf E t v = true := by
    intro h
    unfold newBinary at h
    split at h
    · obtain ⟨x, h⟩ := bind h; exact check_some h
    · obtain ⟨x, h⟩ := bind h
      split at h
      · exact check_some h
      · obtain ⟨x, h⟩ := bind h; exact check_some h
      · obtain ⟨x, h⟩ := bind h; exact check_some h
      · cases h
  have hTime : newTime E C t a = some v → instanceOf E t v = true := by
    intro h
    obtain ⟨x, h⟩ := bind h
    split at h
    · exact check_some h
    · exact check_some h
    · exact check_some h
    · obtain ⟨x, h⟩ := bind h; exact check_some h
    · cases h
  have hArr : newArray E C t a = some v → instanceOf E t v = true := by
    intro h
    obtain ⟨x, h⟩ := bind h
    split at h
    · exact check_some h
    · obtain ⟨x, h⟩ := bind h; exact check_some h
  have hMap : newMap E C t a = some v → instanceOf E t v = true := by
    intro h
    obtain ⟨x, h⟩ := bind h
    split at h
    · exact check_some h
    · obtain ⟨x, h⟩ := bind h; exact check_some h
  unfold new at h
  split at h
  all_goals first
    | exact hBool h | exact hInt h | exact hFloat h | exact hStr h | exact hBin h | exact hTime h | exact hArr h | exact hMap h
    | exact absurd rfl (hs _ _)
    | cases h
    | (obtain ⟨x, h⟩ := bind h; exact check_some h)

namespace Ex
/-- conversions for the examples -/
def C0 : Conv where
  parseInt s _ := if s = [52] then some 4 else none
  parseFloat _ := none
  unix _ := 0
  seconds _ := 0
  ofUnix _ := 0
  ofSeconds _ := 0
  parseTime _ := none
  isBoolString _ := false
  isTrueString _ := false
  toStr _ := []
  sprintf _ _ := none
  decode _ _ := none
  toArray _ := none
  toMap _ := none
/-- is it the integer? -/
def isInt (n : Int) : Option Val → Bool
  | some (.int j) => j == BitVec.ofInt 64 n
  | _ => false
end Ex

example : Ex.isInt 4 (new Ex.E0 Ex.C0 Ex.r15 (.one (.str [52]))) = true ∧ (new Ex.E0 Ex.C0 Ex.r15 (.one (Ex.i 6))).isNone = true ∧
    Ex.isInt 1 (new Ex.E0 Ex.C0 Ex.r15 (.args [.bool true, Ex.i 16])) = true ∧
    (new Ex.E0 Ex.C0 Ex.r15 (.args [.bool true, Ex.i 7])).isNone = true := by decide +kernel

/-- **C33.**  An instance of the type is returned as it is, so `New` is not a way to always panic. -/
theorem C33_keeps_instances (C : Conv) {t : Ty} (ha : t.Acyc) {v : Val} (h : instanceOf E t v = true) :
    new E C t (.one v) = some v := by
  have hc : check E t v = some v := if_pos h
  have hh := h
  rw [instanceOf_has ha] at hh
  unfold new
  split
  all_goals first
    | (cases v <;> simp only [has, hasP, eq, Bool.false_eq_true] at hh; done)
    | (cases v <;> simp only [has, hasP, eq, Bool.false_eq_true, reduceCtorEq] at hh <;>
        simpa [newBoolean, newInt, newFloat, newString, newBinary, newTime, newArray, newMap, newSensitive, Arg.single, intFrom,
          floatFrom, -BitVec.ofNat_eq_ofNat] using hc)

/-- **C33 is violated** by the sensitive types: `sensitive[int].New("a")` returns `sensitive("a")`. -/
theorem C33_sensitive_violated : ∃ (t : Ty) (v w : Val), new Ex.E0 Ex.C0 t (.one v) = some w ∧ instanceOf Ex.E0 t w = false :=
  ⟨.sens (.user 0) .intT, Ex.s 97, .sens (Ex.s 97), rfl, by decide +kernel⟩

/-! ### C34: Go integers -/

/-- The number that a Go integer is -/
def GoInt.num : GoInt → Int
  | .int v => v.toInt
  | .int64 v => v.toInt
  | .int32 v => v.toInt
  | .int16 v => v.toInt
  | .int8 v => v.toInt
  | .uint v => v.toNat
  | .uint64 v => v.toNat
  | .uint32 v => v.toNat
  | .uint16 v => v.toNat
  | .uint8 v => v.toNat

/-- **C34.**  Conversion keeps the number, if it is at most `MaxInt64`.  The code panics for the largest unsigned number only;
for the others above `MaxInt64` the claim is false (`C34_wraps_violated`). -/
theorem C34_keeps_partial (i : GoInt) (h : i.num < 2 ^ 63) : ∃ v, toInt i = some v ∧ v.toInt = i.num := by
  have big : ∀ v : BitVec 64, (v.toNat : Int) < 2 ^ 63 → v ≠ 0xffffffffffffffff ∧ v.toInt = v.toNat := by
    intro v hv
    refine ⟨?_, ?_⟩
    · rintro rfl; revert hv; decide
    · rw [BitVec.toInt_eq_toNat_cond, if_pos (by omega)]
  have ze : ∀ (w : Nat) (v : BitVec w), w < 64 → (v.zeroExtend 64).toInt = v.toNat := by
    intro w v hw
    have h1 := v.isLt
    have h2 : (2 : Nat) ^ w ≤ 2 ^ 63 := Nat.pow_le_pow_right (by omega) (by omega)
    have h3 : (v.zeroExtend 64).toNat = v.toNat := by
      rw [BitVec.toNat_setWidth]; exact Nat.mod_eq_of_lt (by omega)
    rw [BitVec.toInt_eq_toNat_cond, if_pos (by omega), h3]
  cases i with
  | int v => exact ⟨v, rfl, rfl⟩
  | int64 v => exact ⟨v, rfl, rfl⟩
  | int32 v => exact ⟨_, rfl, BitVec.toInt_signExtend_of_le (by omega)⟩
  | int16 v => exact ⟨_, rfl, BitVec.toInt_signExtend_of_le (by omega)⟩
  | int8 v => exact ⟨_, rfl, BitVec.toInt_signExtend_of_le (by omega)⟩
  | uint v => exact ⟨v, by rw [toInt, if_neg (big v h).1], (big v h).2⟩
  | uint64 v => exact ⟨v, by rw [toInt, if_neg (big v h).1], (big v h).2⟩
  | uint32 v => exact ⟨_, rfl, ze _ v (by omega)⟩
  | uint16 v => exact ⟨_, rfl, ze _ v (by omega)⟩
  | uint8 v => exact ⟨_, rfl, ze _ v (by omega)⟩

example : (GoInt.uint64 0x7fffffffffffffff).num = 2 ^ 63 - 1 ∧ toInt (.uint64 0x7fffffffffffffff) = some maxI64 ∧
    (GoInt.int8 0x80).num = -128 ∧ toInt (.int8 0x80) = some (-128) := by decide +kernel

/-- **C34.**  Only the largest unsigned number is refused. -/
theorem C34_refused (i : GoInt) : toInt i = none ↔ i.num = 2 ^ 64 - 1 := by
  cases i <;> simp only [toInt, GoInt.num, reduceCtorEq, false_iff, ite_eq_left_iff, ite_eq_right_iff]
  case uint v =>
    rw [← BitVec.toNat_inj, show (0xffffffffffffffff : BitVec 64).toNat = 18446744073709551615 from rfl]
    rw [show ∀ p : Prop, (¬ p → False) ↔ p from fun p => Classical.not_not]
    omega
  case uint64 v =>
    rw [← BitVec.toNat_inj, show (0xffffffffffffffff : BitVec 64).toNat = 18446744073709551615 from rfl]
    rw [show ∀ p : Prop, (¬ p → False) ↔ p from fun p => Classical.not_not]
    omega
  all_goals rename_i v
  case int => have := v.toInt_lt; omega
  case int64 => have := v.toInt_lt; omega
  case int32 => have := v.toInt_lt; omega
  case int16 => have := v.toInt_lt; omega
  case int8 => have := v.toInt_lt; omega
  case uint32 => have := v.isLt; omega
  case uint16 => have := v.isLt; omega
  case uint8 => have := v.isLt; omega

/-- **C34 is violated** by every unsigned number from 2^63 to 2^64 - 2: the result is another, negative number. -/
theorem C34_wraps_violated (n : BitVec 64) (h1 : 2 ^ 63 ≤ n.toNat) (h2 : n.toNat < 2 ^ 64 - 1) :
    ∃ v, toInt (.uint64 n) = some v ∧ v.toInt = (GoInt.uint64 n).num - 2 ^ 64 ∧ v.toInt ≠ (GoInt.uint64 n).num := by
  refine ⟨n, ?_, ?_, ?_⟩
  · rw [toInt, if_neg]
    rintro rfl
    simp at h2
  · rw [BitVec.toInt_eq_toNat_cond, if_neg (by omega)]; rfl
  · rw [BitVec.toInt_eq_toNat_cond, if_neg (by omega)]; simp only [GoInt.num]; omega

example : toInt (.uint64 0x8000000000000000) = some minI64 := by decide

end Verif.Types
