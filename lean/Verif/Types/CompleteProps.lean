import Verif.Types.Complete
import Verif.Types.AssignProps
/-!
# C107: a type accepts every type whose values it accepts
-/
set_option autoImplicit false
set_option linter.unusedSimpArgs false
namespace Verif.Types
open Verif.Value

variable {E : Env}

/-- **C107** When every value of `u` is a value of `t`, then `t.Assignable(u)`: unions, arrays, tuples, maps and sensitive types on the right at any
depth, whatever objects the two share.  Missing: unions, `float`, patterns, struct types, variadic tuples, exact types of collections and `not` on
the left, which do refuse such types (`C107_violated`), and `allOf`, `oneOf`, struct types and types with fewer than two values on the right. -/
theorem C107_complete_partial {t u : Ty} (ht : Solid t) (hu : Ample u) (hta : t.Acyc) (hua : u.Acyc)
    (h : ∀ v, Value.WF v → Fits v → instanceOf E u v = true → instanceOf E t v = true) : assignable E t u = true := by
  rw [assignable_iff (Nat.lt_succ_self _)]
  exact complete _ (Nat.lt_succ_self _) ht hu (fun v h1 h2 h3 => by
    have := h v h1 h2 (by rwa [instanceOf_has hua])
    rwa [instanceOf_has hta] at this) none

/-- `[]int[0,9]`, `[0..5|10..20, int]` -/
def Ex.ca : Ty := .sizedArr (.user 1) .intT 0 9
def Ex.cb : Ty := .tuple (.user 2) [.anyOf (.user 3) [.intRange 0 5 true, .intRange 10 20 true], .intT] false

example : Solid Ex.ca ∧ Ample Ex.cb ∧ Ex.ca.Acyc ∧ Ex.cb.Acyc ∧ (∀ v, Value.WF v → Fits v → instanceOf Ex.E0 Ex.cb v = true → instanceOf Ex.E0 Ex.ca v = true) := by
  refine ⟨.sizedArr .intT (.inl (by simp)), .tuple (by simp) ?_ (by decide), by simp [Ty.Acyc, Ex.ca, Ty.occ], by simp [Ty.Acyc, Ex.cb, Acycs, Ty.occ, occs], ?_⟩
  · intro t ht
    simp only [List.mem_cons, List.not_mem_nil, or_false] at ht
    rcases ht with rfl | rfl
    · refine .anyOf (by simp) fun u hu => ?_
      simp only [List.mem_cons, List.not_mem_nil, or_false] at hu
      rcases hu with rfl | rfl <;> exact .intRange (by decide)
    · exact .intT
  · intro v _ _
    rw [instanceOf_has (by simp [Ty.Acyc, Ex.cb, Acycs, Ty.occ, occs]), instanceOf_has (by simp [Ty.Acyc, Ex.ca, Ty.occ]), Ex.cb, Ex.ca, has_tuple, has_sizedArr]
    rintro ⟨vs, rfl, h⟩
    cases h with
    | cons h1 h =>
      cases h with
      | cons h2 h =>
        cases h
        refine ⟨_, rfl, by simp [len], by simp [len], ?_⟩
        intro x hx
        simp only [List.mem_cons, List.not_mem_nil, or_false] at hx
        rcases hx with rfl | rfl
        · rw [has_anyOf] at h1
          obtain ⟨t, ht, h1⟩ := h1
          simp only [List.mem_cons, List.not_mem_nil, or_false] at ht
          rcases ht with rfl | rfl <;> cases x <;> simp [has, hasP] at h1 ⊢
        · exact h2

/-- **C107** So a refusal always has a reason: a value of the one type that is not one of the other. -/
theorem C107_reason_partial {t u : Ty} (ht : Solid t) (hu : Ample u) (hta : t.Acyc) (hua : u.Acyc) (h : assignable E t u = false) :
    ∃ v, Value.WF v ∧ Fits v ∧ instanceOf E u v = true ∧ instanceOf E t v = false := by
  apply Classical.byContradiction
  intro hne
  rw [C107_complete_partial ht hu hta hua fun v h1 h2 h3 => by
    cases h4 : instanceOf E t v with
    | true => rfl
    | false => exact absurd ⟨v, h1, h2, h3, h4⟩ hne] at h
  cases h

example : Solid (.sizedStr 1 5) ∧ Ample (.anyOf (.user 1) [.strT, .exact (.str [65])]) ∧ (Ty.sizedStr 1 5).Acyc ∧
    (Ty.anyOf (.user 1) [.strT, .exact (.str [65])]).Acyc ∧ assignable Ex.E0 (.sizedStr 1 5) (.anyOf (.user 1) [.strT, .exact (.str [65])]) = false := by
  refine ⟨.sizedStr (by decide), .anyOf (by simp) fun t ht => ?_, by simp [Ty.Acyc], by simp [Ty.Acyc, Acycs, Ty.occ, occs], by decide +kernel⟩
  simp only [List.mem_cons, List.not_mem_nil, or_false] at ht
  rcases ht with rfl | rfl
  · exact .strT
  · exact .exact (by simp [Scalar, len, maxInt])

/-- A type, and a type all of whose values it accepts -/
def Ex.refused : List (Ty × Ty) :=
  [ -- `float` and `1.0|2.0`
    (.floatT, .anyOf (.user 1) [.exact (.float 0x3FF0000000000000#64), .exact (.float 0x4000000000000000#64)]),
    -- `int` and `int&any`
    (.intT, .allOf (.user 1) [.intT, .any]),
    -- `0..5|6..10` and `0..10`
    (.anyOf (.user 1) [.intRange 0 5 true, .intRange 6 10 true], .intRange 0 10 true),
    -- `true|false` and `bool`
    (.anyOf (.user 1) [.exact (.bool true), .exact (.bool false)], .boolT),
    -- `5` and `5...6`
    (.exact (.int 5), .intRange 5 6 false),
    -- `map` and `{"a":int}`
    (.mapT, .struct (.user 1) false [(Ex.s 97, true, .intT)]),
    -- `[]string` and the type of the empty array
    (.sizedArr (.user 1) .strT 0 maxInt, .exactD (.user 2) (.arr [])),
    -- `[]string` and `[0,0]int`
    (.sizedArr (.user 1) .strT 0 maxInt, .sizedArr (.user 2) .intT 0 0),
    -- the type of the array `{1}` and the tuple `{1}`
    (.exactD (.user 1) (.arr [.int 1]), .tuple (.user 2) [.exact (.int 1)] false) ]

/-- **C107** With what C26 says about the other direction: `Assignable` decides whether every value of the one type is one of the other.  The
objects of the two types are different ones, and operands and elements of tuples on the right have operands without parts only, so that the
recursion guard isn't hit. -/
theorem C107_iff_partial (hE : E.Apart) {t u : Ty} (ht : Solid t) (hu : Ample u) (hr : Right ⟨false, false, false⟩ u) (hta : t.Acyc) (hua : u.Acyc)
    (mt : Made t) (mu : Made u) (hd : ∀ o, t.occ o → ¬ u.occ o) (hr1 : Every R1 u) :
    assignable E t u = true ↔ ∀ v, Value.WF v → Fits v → instanceOf E u v = true → instanceOf E t v = true :=
  ⟨fun h v hv hf hi => C26_sound_partial hE (ht.left hta) hr hua mt mu hd (ht.every fun _ h _ _ ho => by rw [h.operands] at ho; cases ho) hr1 h v hv hf hi,
    C107_complete_partial ht hu hta hua⟩

/-- `[1,2](0..5|8)` -/
def Ex.cc : Ty := .sizedArr (.user 2) (.anyOf (.user 3) [.intRange 0 5 true, .exact (.int 8)]) 1 2

theorem Ex.cc_ok : Ample Ex.cc ∧ Right ⟨false, false, false⟩ Ex.cc ∧ Ex.cc.Acyc ∧ Made Ex.cc ∧ Every R1 Ex.cc := by
  have mc : Made Ex.cc := by simp [Made, Ex.cc, every_sizedArr, every_anyOf, every_intRange, every_exact, Ty.deep?]
  have ac : Ex.cc.Acyc := by simp [Ty.Acyc, Acycs, Ex.cc, Ty.occ, occs]
  refine ⟨.sizedArr (.anyOf (by simp) ?_) (by decide) (by decide) (by decide) (by decide), ⟨?_, tree_of_made mc ac, ?_⟩, ac, mc, ?_⟩
  · intro t ht
    simp only [List.mem_cons, List.not_mem_nil, or_false] at ht
    rcases ht with rfl | rfl
    · exact .intRange (by decide)
    · exact .exact (by simp [Scalar])
  · simp [Ex.cc, every_sizedArr, every_anyOf, every_exact, every_intRange, Rnode]
  · simp [Ex.cc, Ty.Ok, Oks, isScalar, Value.WF]
  · simp [Ex.cc, every_sizedArr, every_anyOf, every_exact, every_intRange, R1, isTernary, isTupleStruct, parts, LeafOps, Ty.operands?]

example : Ex.E0.Apart ∧ Solid Ex.ca ∧ Ample Ex.cc ∧ Right ⟨false, false, false⟩ Ex.cc ∧ Ex.ca.Acyc ∧ Ex.cc.Acyc ∧ Made Ex.ca ∧ Made Ex.cc ∧
    (∀ o, Ex.ca.occ o → ¬ Ex.cc.occ o) ∧ Every R1 Ex.cc ∧ assignable Ex.E0 Ex.ca Ex.cc = true :=
  ⟨Ex.E0_apart, .sizedArr .intT (.inl (by simp)), Ex.cc_ok.1, Ex.cc_ok.2.1, by simp [Ty.Acyc, Ex.ca, Ty.occ], Ex.cc_ok.2.2.1,
    by simp [Made, Ex.ca, every_sizedArr, every_int, Ty.deep?], Ex.cc_ok.2.2.2.1, by simp [Ex.ca, Ex.cc, Ty.occ, occs], Ex.cc_ok.2.2.2.2, by decide +kernel⟩

/-- **C27** Transitivity, from what C26 and C107 say: `c` may have unions and tuples. -/
theorem C27_transitive_values_partial (hE : E.Apart) {a b c : Ty} (ha : Solid a) (hb : Solid b) (hb' : Right ⟨false, false, false⟩ b) (hc : Ample c)
    (hc' : Right ⟨false, false, false⟩ c) (aa : a.Acyc) (ab : b.Acyc) (ac : c.Acyc) (ma : Made a) (mb : Made b) (mc : Made c)
    (dab : ∀ o, a.occ o → ¬ b.occ o) (dbc : ∀ o, b.occ o → ¬ c.occ o) (rb : Every R1 b) (rc : Every R1 c)
    (h1 : assignable E a b = true) (h2 : assignable E b c = true) : assignable E a c = true :=
  have l1 : ∀ {t : Ty}, Solid t → Every L1 t := fun h => h.every fun _ h _ _ ho => by rw [h.operands] at ho; cases ho
  C107_complete_partial ha hc aa ac fun v hv hf hi =>
    C26_sound_partial hE (ha.left aa) hb' ab ma mb dab (l1 ha) rb h1 v hv hf
      (C26_sound_partial hE (hb.left ab) hc' ac mb mc dbc (l1 hb) rc h2 v hv hf hi)

/-- `[]0..9` -/
def Ex.cd : Ty := .sizedArr (.user 4) (.intRange 0 9 true) 0 9

example : Solid Ex.ca ∧ Solid Ex.cd ∧ Right ⟨false, false, false⟩ Ex.cd ∧ Ex.cd.Acyc ∧ Made Ex.cd ∧ (∀ o, Ex.ca.occ o → ¬ Ex.cd.occ o) ∧
    (∀ o, Ex.cd.occ o → ¬ Ex.cc.occ o) ∧ Every R1 Ex.cd ∧ assignable Ex.E0 Ex.ca Ex.cd = true ∧ assignable Ex.E0 Ex.cd Ex.cc = true := by
  have mc : Made Ex.cd := by simp [Made, Ex.cd, every_sizedArr, every_intRange, Ty.deep?]
  have ac : Ex.cd.Acyc := by simp [Ty.Acyc, Ex.cd, Ty.occ]
  refine ⟨.sizedArr .intT (.inl (by simp)), .sizedArr (.intRange (by decide) ⟨-1, by decide⟩) (.inl (by simp)), ⟨?_, tree_of_made mc ac, ?_⟩, ac, mc,
    by simp [Ex.ca, Ex.cd, Ty.occ], by simp [Ex.cd, Ex.cc, Ty.occ, occs], ?_, by decide +kernel, by decide +kernel⟩
  · simp [Ex.cd, every_sizedArr, every_intRange, Rnode]
  · simp [Ex.cd, Ty.Ok]
  · simp [Ex.cd, every_sizedArr, every_intRange, R1, isTernary, isTupleStruct]

/-- **C107** What is refused although every value of the type is accepted. -/
theorem C107_violated : ∀ w ∈ Ex.refused, assignable Ex.E0 w.1 w.2 = false ∧ ∀ v, Value.WF v → Fits v → instanceOf Ex.E0 w.2 v = true → instanceOf Ex.E0 w.1 v = true := by
  intro w hw
  simp only [Ex.refused, List.mem_cons, List.not_mem_nil, or_false] at hw
  rcases hw with rfl | rfl | rfl | rfl | rfl | rfl | rfl | rfl | rfl
  all_goals refine ⟨by decide +kernel, fun v hv hf => ?_⟩
  all_goals rw [instanceOf_has (by simp [Ty.Acyc, Acycs, AcycFields, Ty.occ, occs, occFields]), instanceOf_has (by simp [Ty.Acyc, Acycs, AcycFields, Ty.occ, occs, occFields])]
  · simp only [has_anyOf, List.mem_cons, List.not_mem_nil, or_false]
    rintro ⟨t, rfl | rfl, h⟩ <;> cases v <;> simp [has, hasP, eq] at h ⊢
  · simp only [has_allOf]
    exact fun h => h .intT (by simp)
  · simp only [has_anyOf]
    cases v with
    | int i =>
      simp [has, hasP, BitVec.sle]
      omega
    | _ => simp [has, hasP]
  · simp only [has_anyOf]
    cases v with
    | bool b => cases b <;> simp [has, hasP, eq]
    | _ => simp [has, hasP]
  · cases v with
    | int i =>
      simp only [has, hasP, eq, BitVec.sle_eq_decide, BitVec.slt_eq_decide, Bool.false_eq_true, if_false, Bool.and_eq_true, decide_eq_true_eq, beq_iff_eq]
      rintro ⟨h1, h2⟩
      have e1 : (5#64).toInt = 5 := by decide
      have e2 : (6#64).toInt = 6 := by decide
      exact BitVec.eq_of_toInt_eq (by simp only [BitVec.ofNat_eq_ofNat, e1, e2] at *; omega)
    | _ => simp [has, hasP]
  · cases v <;> simp [has, hasP]
  · rw [has_sizedArr]
    intro h
    cases v <;> simp [has, hasP, eq] at h
    rename_i vs
    cases vs <;> simp [eqSlice, len] at h ⊢
  · rw [has_sizedArr, has_sizedArr]
    rintro ⟨vs, rfl, _, h, _⟩
    refine ⟨vs, rfl, by simp [len], by simp only [maxInt]; omega, ?_⟩
    cases vs <;> simp [len] at h ⊢
    omega
  · rw [has_tuple]
    rintro ⟨vs, rfl, h⟩
    cases h with
    | cons h1 h =>
      cases h
      rename_i x
      cases x <;> simp [has, hasP, eq, eqSlice] at h1 ⊢
      exact h1

end Verif.Types
