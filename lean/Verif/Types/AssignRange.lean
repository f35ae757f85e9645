import Verif.Types.AssignGuard
/-!
# Ranges: lemmas for C25
-/
set_option autoImplicit false
set_option linter.unusedVariables false
set_option linter.unusedSimpArgs false
set_option linter.unnecessarySeqFocus false
namespace Verif.Types
open Verif.Value

variable {E : Env}

/-- What `IntegerType` makes of two different numbers -/
theorem integerType_ne {min max : BitVec 64} {incl : Bool} {t : Ty} (h : integerType min max incl = some t) (hne : min ≠ max) :
    t = .intT ∨ ∃ lo hi, t = .intRange lo hi incl ∧ lo.toInt < hi.toInt ∧ (minI64.toInt < lo.toInt ∨ hi.toInt < maxI64.toInt) := by
  have hi : min.toInt ≠ max.toInt := fun h => hne (BitVec.eq_of_toInt_eq h)
  have key : ∀ lo hi : BitVec 64, lo.toInt < hi.toInt → (if lo = minI64 ∧ hi = maxI64 then some Ty.intT else some (Ty.intRange lo hi incl)) = some t →
      t = .intT ∨ ∃ lo hi, t = .intRange lo hi incl ∧ lo.toInt < hi.toInt ∧ (minI64.toInt < lo.toInt ∨ hi.toInt < maxI64.toInt) := by
    intro lo hi hlt h
    split at h
    · cases h; exact .inl rfl
    · rename_i hf
      cases h
      refine .inr ⟨lo, hi, rfl, hlt, ?_⟩
      have h1 := lo.le_toInt
      have h2 := hi.toInt_lt
      have hmin : minI64.toInt = -9223372036854775808 := by decide
      have hmax : maxI64.toInt = 9223372036854775807 := by decide
      by_cases hl : lo = minI64
      · have hh : hi.toInt ≠ maxI64.toInt := fun h => hf ⟨hl, BitVec.eq_of_toInt_eq h⟩
        omega
      · have hh : lo.toInt ≠ minI64.toInt := fun h => hl (BitVec.eq_of_toInt_eq h)
        omega
  unfold integerType at h
  rw [if_neg hne] at h
  by_cases hlt : max.slt min = true
  · rw [if_pos hlt] at h
    exact key max min (by simpa [BitVec.slt] using hlt) h
  · rw [if_neg hlt] at h
    have : ¬ max.toInt < min.toInt := by simpa [BitVec.slt] using hlt
    exact key min max (by omega) h

theorem integerType_same {m : BitVec 64} {incl : Bool} {t : Ty} (h : integerType m m incl = some t) : t = .exact (.int m) := by
  unfold integerType at h
  rw [if_pos rfl] at h
  cases incl <;> simp at h
  exact h.symm

theorem toInt_pred {x : BitVec 64} (hx : minI64.toInt < x.toInt) : (x - 1).toInt = x.toInt - 1 := by
  have hm : minI64.toInt = -9223372036854775808 := by decide
  have := x.toInt_lt
  have := x.le_toInt
  rw [BitVec.toInt_sub, Int.bmod_eq_of_le] <;> simp only [show (1 : BitVec 64).toInt = 1 by decide] <;> omega

theorem inst_intRange {lo hi : BitVec 64} {incl : Bool} {v : Val} : instanceOf E (.intRange lo hi incl) v = true ↔
    ∃ i, v = .int i ∧ lo.toInt ≤ i.toInt ∧ (if incl then i.toInt ≤ hi.toInt else i.toInt < hi.toInt) := by
  rw [instanceOf_has (by simp [Ty.Acyc])]
  cases v <;> simp [has, hasP, BitVec.sle, BitVec.slt]

theorem inst_intT {v : Val} : instanceOf E .intT v = true ↔ ∃ i, v = .int i := by
  rw [instanceOf_has (by simp [Ty.Acyc])]
  cases v <;> simp [has, hasP]

theorem inst_exactInt {m : BitVec 64} {v : Val} : instanceOf E (.exact (.int m)) v = true ↔ v = .int m := by
  rw [instanceOf_has (by simp [Ty.Acyc])]
  cases v <;> simp [has, hasP, eq]
  exact eq_comm

theorem assignable_leaf {a b : Ty} (ha : a.deep? = none) (hb : b.operands? = none) (hn : ∀ t, a ≠ .not t) :
    assignable E a b = (leafCase E (tyEq (a.depth + b.depth + 2) []) a b).getD false := by
  unfold assignable
  rw [asg, ha]
  dsimp only
  have : leafAsg E (tyEq (a.depth + b.depth + 2) []) (fun a' b' => (asg E (a.depth + b.depth + 2) none a' b').map (·.1)) a b =
      some ((leafCase E (tyEq (a.depth + b.depth + 2) []) a b).getD false) := by
    unfold leafAsg
    split
    · exact absurd rfl (hn _)
    · rw [hb]
      split <;> rename_i h <;> rw [h] <;> rfl
  rw [this]
  rfl

theorem int_incl_iff {lo hi lo' hi' : BitVec 64} {incl incl' : Bool} (h : lo.toInt < hi.toInt) (h' : lo'.toInt < hi'.toInt) :
    assignable E (.intRange lo hi incl) (.intRange lo' hi' incl') = true ↔
      ∀ v, instanceOf E (.intRange lo' hi' incl') v = true → instanceOf E (.intRange lo hi incl) v = true := by
  rw [assignable_leaf rfl rfl (by simp)]
  simp only [leafCase, Option.getD_some, inst_intRange]
  have hmin : minI64.toInt = -9223372036854775808 := by decide
  have b1 := lo.le_toInt
  have b2 := lo'.le_toInt
  have p1 : (hi - 1).toInt = hi.toInt - 1 := toInt_pred (by omega)
  have p2 : (hi' - 1).toInt = hi'.toInt - 1 := toInt_pred (by omega)
  constructor
  · intro e v
    rintro ⟨i, rfl, h1, h2⟩
    refine ⟨i, rfl, ?_⟩
    cases incl <;> cases incl' <;> simp only [BitVec.sle_eq_decide, BitVec.slt_eq_decide, decide_eq_true_eq, Bool.false_eq_true, if_false, if_true, p1, p2] at e h1 h2 ⊢ <;>
      split at e <;> simp at e <;> omega
  · intro e
    obtain ⟨i, hi1, e1, _⟩ := e (.int lo') ⟨lo', rfl, by omega, by split <;> omega⟩
    cases hi1
    obtain ⟨j, hj, e2, e3⟩ := e (.int (if incl' then hi' else hi' - 1)) ⟨_, rfl, by cases incl' <;> simp only [Bool.false_eq_true, if_false, if_true, p2] <;> omega, by cases incl' <;> simp only [Bool.false_eq_true, if_false, if_true, p2] <;> omega⟩
    cases hj
    cases incl <;> cases incl' <;> simp only [BitVec.sle_eq_decide, BitVec.slt_eq_decide, decide_eq_true_eq, Bool.false_eq_true, if_false, if_true, p1, p2] at e1 e2 e3 ⊢ <;>
      (rw [if_neg (by omega)]; simp; omega)

/-! ## Floats -/

theorem floatType_ne {min max : F64} {incl : Bool} {t : Ty} (h : floatType min max incl = some t) (hne : Value.F64.eq min max = false)
    (h1 : Value.F64.isNaN min = false) (h2 : Value.F64.isNaN max = false) :
    t = .floatT ∨ ∃ lo hi, t = .floatRange lo hi incl ∧ Value.F64.lt lo hi = true := by
  have h3 : min.key ≠ max.key := fun hk => by rw [(Value.F64.eq_iff _ _).2 ⟨h1, h2, hk⟩] at hne; cases hne
  unfold floatType at h
  rw [if_neg (by simp [hne])] at h
  have key : ∀ lo hi : F64, Value.F64.lt lo hi = true → (if Value.F64.eq lo F64.min ∧ Value.F64.eq hi F64.max then some Ty.floatT else some (Ty.floatRange lo hi incl)) = some t →
      t = .floatT ∨ ∃ lo hi, t = .floatRange lo hi incl ∧ Value.F64.lt lo hi = true := by
    intro lo hi hlt h
    split at h
    · cases h; exact .inl rfl
    · cases h; exact .inr ⟨lo, hi, rfl, hlt⟩
  by_cases hlt : Value.F64.lt max min = true
  · rw [if_pos hlt] at h; exact key max min hlt h
  · rw [if_neg hlt] at h
    refine key min max ?_ h
    simp [Value.F64.lt, h1, h2] at hlt ⊢
    omega

theorem floatType_same {min max : F64} {incl : Bool} {t : Ty} (h : floatType min max incl = some t) (he : Value.F64.eq min max = true) : t = .exact (.float min) := by
  unfold floatType at h
  rw [if_pos he] at h
  cases incl <;> simp at h
  exact h.symm

theorem inst_floatRange {lo hi : F64} {incl : Bool} {v : Val} : instanceOf E (.floatRange lo hi incl) v = true ↔
    ∃ f, v = .float f ∧ F64.le lo f = true ∧ (if incl then F64.le f hi else Value.F64.lt f hi) = true := by
  rw [instanceOf_has (by simp [Ty.Acyc])]
  cases v <;> simp [has, hasP]

theorem inst_floatT {v : Val} : instanceOf E .floatT v = true ↔ ∃ f, v = .float f := by
  rw [instanceOf_has (by simp [Ty.Acyc])]
  cases v <;> simp [has, hasP]

theorem inst_exactFloat {m : F64} {v : Val} : instanceOf E (.exact (.float m)) v = true ↔ ∃ f, v = .float f ∧ Value.F64.eq m f = true := by
  rw [instanceOf_has (by simp [Ty.Acyc])]
  cases v <;> simp [has, hasP, eq]

theorem float_incl {lo hi lo' hi' : F64} {incl incl' : Bool} (h : Value.F64.lt lo hi = true)
    (e : assignable E (.floatRange lo hi incl) (.floatRange lo' hi' incl') = true) (v : Val) (hv : instanceOf E (.floatRange lo' hi' incl') v = true) :
    instanceOf E (.floatRange lo hi incl) v = true := by
  rw [assignable_leaf rfl rfl (by simp)] at e
  simp only [leafCase, Option.getD_some] at e
  rw [inst_floatRange] at hv ⊢
  obtain ⟨f, rfl, h1, h2⟩ := hv
  refine ⟨f, rfl, ?_⟩
  split at e
  · cases e
  · rename_i hn
    refine floatRange_incl (incl' := incl') ?_ (by simpa using hn) e h1 h2
    simp [Value.F64.lt] at h; exact h.1.1

theorem float_complete {lo hi lo' hi' : F64} {incl incl' : Bool} (h : Value.F64.lt lo hi = true) (h' : Value.F64.lt lo' hi' = true) (hi1 : incl = true → incl' = true)
    (hv : ∀ v, instanceOf E (.floatRange lo' hi' incl') v = true → instanceOf E (.floatRange lo hi incl) v = true) :
    assignable E (.floatRange lo hi incl) (.floatRange lo' hi' incl') = true := by
  rw [assignable_leaf rfl rfl (by simp)]
  simp only [leafCase, Option.getD_some, inst_floatRange] at *
  simp only [Value.F64.lt, Bool.and_eq_true, Bool.not_eq_true', decide_eq_true_eq] at h h'
  obtain ⟨⟨n1, n2⟩, k⟩ := h
  obtain ⟨⟨n1', n2'⟩, k'⟩ := h'
  have low : lo.key ≤ lo'.key := by
    obtain ⟨f, hf, e1, _⟩ := hv (.float lo') ⟨lo', rfl, by simp [F64.le, Value.F64.eq, Value.F64.lt, n1'], by simp [F64.le, Value.F64.eq, Value.F64.lt, n1', n2']; split <;> omega⟩
    cases hf
    simp [F64.le, Value.F64.eq, Value.F64.lt, n1, n1'] at e1
    omega
  rw [if_neg (by simp [Value.F64.lt, n1, n1']; omega)]
  have up : ∀ f : F64, Value.F64.isNaN f = false → lo'.key ≤ f.key → (if incl' then f.key ≤ hi'.key else f.key < hi'.key) → (if incl then f.key ≤ hi.key else f.key < hi.key) := by
    intro f nf h1 h2
    obtain ⟨f', hf, _, e1⟩ := hv (.float f) ⟨f, rfl, by simp [F64.le, Value.F64.eq, Value.F64.lt, n1', nf]; omega,
      by cases incl' <;> simp [F64.le, Value.F64.eq, Value.F64.lt, n1', n2', nf] at h2 ⊢ <;> omega⟩
    cases hf
    cases incl <;> simp [F64.le, Value.F64.eq, Value.F64.lt, n2, nf] at e1 ⊢ <;> omega
  cases incl <;> cases incl' <;> simp at hi1 up ⊢ <;> simp [F64.le, Value.F64.eq, Value.F64.lt, n2, n2']
  · have u1 := up lo' n1' (by omega) (by omega)
    have u2 := up hi n2
    omega
  · exact up hi' n2' (by omega) (by omega)
  · have := up hi' n2' (by omega) (by omega); omega

end Verif.Types
