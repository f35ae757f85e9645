import Verif.Types.CompleteSpec
import Verif.Types.AssignFuel
import Verif.Types.AssignRange
/-!
# `Assignable` is complete: lemmas for C107
-/
set_option autoImplicit false
set_option linter.unusedVariables false
set_option linter.unusedSimpArgs false
set_option linter.unusedTactic false
set_option linter.unreachableTactic false
namespace Verif.Types
open Verif.Value

variable {E : Env}

/-- a value of the type -/
def Hold (E : Env) (t : Ty) (v : Val) : Prop := Value.WF v ∧ Fits v ∧ has E t v = true

theorem eq_self {v : Val} (h : Scalar v) : eq v v = true := by
  cases v <;> simp [Scalar] at h <;> simp [eq, Value.F64.eq, h]

theorem Scalar.ok {v : Val} (h : Scalar v) : Value.WF v ∧ Fits v := by
  cases v <;> simp [Scalar] at h <;> simp [Value.WF, Fits, h]

theorem forall₂_of {R : Ty → Val → Prop} : ∀ {ts : List Ty}, (∀ t ∈ ts, ∃ v, R t v) → ∃ vs, List.Forall₂ R ts vs
  | [], _ => ⟨[], .nil⟩
  | t :: ts, h => by
    obtain ⟨v, hv⟩ := h t (by simp)
    obtain ⟨vs, hvs⟩ := forall₂_of (ts := ts) fun t ht => h t (by simp [ht])
    exact ⟨v :: vs, .cons hv hvs⟩

theorem len_replicate {α : Type} {n : Int} (h : 0 ≤ n) (a : α) : len (List.replicate n.toNat a) = n := by
  simp [len, h]

theorem hold_str {n lo hi : Int} (h0 : 0 ≤ lo) (h1 : lo ≤ n) (h2 : n ≤ hi) (h3 : hi ≤ maxInt) (c : UInt8) : Hold E (.sizedStr lo hi) (.str (List.replicate n.toNat c)) := by
  have := len_replicate (α := UInt8) (n := n) (by omega) c
  refine ⟨by simp [Value.WF], by simp only [Fits, this]; omega, ?_⟩
  simp [has, hasP, this, h1, h2]

theorem hold_bin {n lo hi : Int} (h0 : 0 ≤ lo) (h1 : lo ≤ n) (h2 : n ≤ hi) (h3 : hi ≤ maxInt) (c : UInt8) : Hold E (.bin lo hi) (.bin (List.replicate n.toNat c)) := by
  have := len_replicate (α := UInt8) (n := n) (by omega) c
  refine ⟨by simp [Value.WF], by simp only [Fits, this]; omega, ?_⟩
  simp [has, hasP, this, h1, h2]

theorem hold_arr {o : Oid} {e : Ty} {n lo hi : Int} {v : Val} (hv : Hold E e v) (h0 : 0 ≤ lo) (h1 : lo ≤ n) (h2 : n ≤ hi) (h3 : hi ≤ maxInt) :
    Hold E (.sizedArr o e lo hi) (.arr (List.replicate n.toNat v)) := by
  have := len_replicate (α := Val) (n := n) (by omega) v
  refine ⟨?_, ?_, ?_⟩
  · rw [Value.WF, WFs_iff]; intro x hx; rw [List.eq_of_mem_replicate hx]; exact hv.1
  · rw [Fits, FitsAll_iff, this]; exact ⟨by omega, fun x hx => by rw [List.eq_of_mem_replicate hx]; exact hv.2.1⟩
  · rw [has_sizedArr]; exact ⟨_, rfl, by omega, by omega, fun x hx => by rw [List.eq_of_mem_replicate hx]; exact hv.2.2⟩

theorem hold_tuple {o : Oid} {ts : List Ty} {vs : List Val} (hl : len ts ≤ maxInt) (h : List.Forall₂ (Hold E) ts vs) : Hold E (.tuple o ts false) (.arr vs) := by
  have hm : ∀ {ts vs}, List.Forall₂ (Hold E) ts vs → ∀ v ∈ vs, ∃ t, Hold E t v := by
    intro ts vs h
    induction h with
    | nil => simp
    | cons h _ ih => intro v hv; rcases List.mem_cons.1 hv with rfl | hv; exacts [⟨_, h⟩, ih v hv]
  refine ⟨?_, ?_, ?_⟩
  · rw [Value.WF, WFs_iff]; intro x hx; exact (hm h x hx).choose_spec.1
  · rw [Fits, FitsAll_iff, len, ← h.length_eq]; exact ⟨hl, fun x hx => (hm h x hx).choose_spec.2.1⟩
  · rw [has_tuple]; exact ⟨_, rfl, h.imp fun _ _ h => h.2.2⟩

theorem hold_map {o : Oid} {k t : Ty} {lo hi : Int} {x y : Val} (hx : Hold E k x) (hy : Hold E t y) (h1 : lo ≤ 1) (h2 : 1 ≤ hi) :
    Hold E (.sizedMap o k t lo hi) (.map [(x, y)]) := by
  refine ⟨by simp [Value.WF, WFes, hx.1, hy.1], by simp [Fits, FitsEntries, hx.2.1, hy.2.1, len, maxInt], ?_⟩
  rw [has_sizedMap]
  exact ⟨_, rfl, by simpa [len] using h1, by simpa [len] using h2, by simp [hx.2.2, hy.2.2]⟩

theorem hold_sens {o : Oid} {t : Ty} {v : Val} (h : Hold E t v) : Hold E (.sens o t) (.sens v) :=
  ⟨by simpa [Value.WF] using h.1, by simpa [Fits] using h.2.1, by rw [has_sens]; exact ⟨_, rfl, h.2.2⟩⟩

theorem hold_any_of {o : Oid} {ts : List Ty} {t : Ty} {v : Val} (ht : t ∈ ts) (h : Hold E t v) : Hold E (.anyOf o ts) v :=
  ⟨h.1, h.2.1, by rw [has_anyOf]; exact ⟨t, ht, h.2.2⟩⟩

theorem lt_le {a b : F64} (h : Value.F64.lt a b = true) : a.isNaN = false ∧ b.isNaN = false ∧ F64.le a b = true ∧ F64.le a a = true ∧ F64.le b b = true ∧ eq (.float a) (.float b) = false := by
  simp [Value.F64.lt, F64.le, eq, Value.F64.eq] at h ⊢
  simp [h]
  omega

theorem le_iff_ {a b : F64} : F64.le a b = true ↔ a.isNaN = false ∧ b.isNaN = false ∧ a.key ≤ b.key := by
  simp only [F64.le, Bool.or_eq_true, Value.F64.eq_iff, Value.F64.lt, Bool.and_eq_true, Bool.not_eq_true', decide_eq_true_eq]
  constructor
  · rintro (⟨⟨h1, h2⟩, h3⟩ | ⟨h1, h2, h3⟩) <;> exact ⟨h1, h2, by omega⟩
  · rintro ⟨h1, h2, h3⟩
    by_cases h : a.key = b.key
    · exact .inr ⟨h1, h2, h⟩
    · exact .inl ⟨⟨h1, h2⟩, by omega⟩

theorem lt_iff_ {a b : F64} : Value.F64.lt a b = true ↔ a.isNaN = false ∧ b.isNaN = false ∧ a.key < b.key := by
  simp [Value.F64.lt, and_assoc]

/-- Every ample type has a value. -/
theorem Ample.hold {t : Ty} (h : Ample t) : ∃ v, Hold E t v := by
  induction h with
  | any => exact ⟨.nil, by simp [Hold, Value.WF, Fits, has, hasP]⟩
  | nilT => exact ⟨.nil, by simp [Hold, Value.WF, Fits, has, hasP]⟩
  | boolT => exact ⟨.bool true, by simp [Hold, Value.WF, Fits, has, hasP]⟩
  | intT => exact ⟨.int 0, by simp [Hold, Value.WF, Fits, has, hasP]⟩
  | floatT => exact ⟨.float ⟨0⟩, by simp only [Value.WF]; decide, by simp [Fits], by simp [has, hasP]⟩
  | strT => exact ⟨.str [], by simp [Hold, Value.WF, Fits, has, hasP, len]⟩
  | regexpT => exact ⟨.regexp [], by simp [Hold, Value.WF, Fits, has, hasP]⟩
  | timeT => exact ⟨.time 0, by simp [Hold, Value.WF, Fits, has, hasP]⟩
  | arrT => exact ⟨.arr [], by simp [Hold, Value.WF, WFs, Fits, FitsAll, has, hasP, len]⟩
  | mapT => exact ⟨.map [], by simp [Hold, Value.WF, WFes, Fits, FitsEntries, has, hasP, len]⟩
  | @exact v h => exact ⟨v, h.ok.1, h.ok.2, by simp [has, hasP, eq_self h]⟩
  | @intRange lo hi incl h =>
    refine ⟨.int lo, by simp [Value.WF], by simp [Fits], ?_⟩
    cases incl <;> simp [has, hasP, BitVec.sle, BitVec.slt] at h ⊢ <;> omega
  | @floatRange lo hi h =>
    have := lt_le h
    exact ⟨.float lo, by simp [Value.WF, this], by simp [Fits], by simp [has, hasP, this]⟩
  | @sizedStr lo hi h0 h1 h2 h3 => exact ⟨_, hold_str h0 (Int.le_refl _) h1 h3 0⟩
  | @bin lo hi h0 h1 h2 h3 => exact ⟨_, hold_bin h0 (Int.le_refl _) h1 h3 0⟩
  | @sizedArr o e lo hi _ h0 h1 h2 h3 ih => obtain ⟨v, hv⟩ := ih; exact ⟨_, hold_arr hv h0 (Int.le_refl _) h1 h3⟩
  | @tuple o ts hn _ hl ih => obtain ⟨vs, h⟩ := forall₂_of ih; exact ⟨_, hold_tuple hl h⟩
  | @sizedMap o k v lo hi _ _ h0 h1 h2 _ ih1 ih2 => obtain ⟨x, hx⟩ := ih1; obtain ⟨y, hy⟩ := ih2; exact ⟨_, hold_map hx hy h1 h2⟩
  | sens _ ih => obtain ⟨v, hv⟩ := ih; exact ⟨_, hold_sens hv⟩
  | @anyOf o ts hn _ ih =>
    cases ts with
    | nil => exact absurd rfl hn
    | cons t ts => obtain ⟨v, hv⟩ := ih t (by simp); exact ⟨v, hold_any_of (by simp) hv⟩

/-- Every solid type but `any` lacks a value. -/
theorem Solid.lacks {t : Ty} (h : Solid t) (hne : t ≠ .any) : ∃ v, Value.WF v ∧ Fits v ∧ has E t v = false := by
  cases h with
  | any => exact absurd rfl hne
  | nilT => exact ⟨.bool true, by simp [Value.WF, Fits, has, hasP]⟩
  | @exact v h => exact ⟨.nil, by cases v <;> simp [Scalar] at h <;> simp [Value.WF, Fits, has, hasP, eq]⟩
  | _ => exact ⟨.nil, by simp [Value.WF, Fits, has, hasP]⟩

/-! ## Types without parts -/

theorem two_strs {lo hi : Int} (h0 : 0 ≤ lo) (h1 : lo ≤ hi) (h2 : 1 ≤ hi) (h3 : hi ≤ maxInt) (v : Val) : ∃ w, Hold E (.sizedStr lo hi) w ∧ eq v w = false := by
  have hn : ∃ n, hi.toNat = n + 1 := ⟨hi.toNat - 1, by omega⟩
  obtain ⟨n, hn⟩ := hn
  by_cases hv : v = .str (List.replicate hi.toNat 0)
  · refine ⟨_, hold_str h0 h1 (Int.le_refl _) h3 1, ?_⟩
    rw [hv, hn]
    simp [eq, List.replicate_succ]
  · refine ⟨_, hold_str h0 h1 (Int.le_refl _) h3 0, ?_⟩
    cases v <;> simp [eq] at hv ⊢
    exact hv

theorem two_bins {lo hi : Int} (h0 : 0 ≤ lo) (h1 : lo ≤ hi) (h2 : 1 ≤ hi) (h3 : hi ≤ maxInt) (v : Val) : ∃ w, Hold E (.bin lo hi) w ∧ eq v w = false := by
  have hn : ∃ n, hi.toNat = n + 1 := ⟨hi.toNat - 1, by omega⟩
  obtain ⟨n, hn⟩ := hn
  by_cases hv : v = .bin (List.replicate hi.toNat 0)
  · refine ⟨_, hold_bin h0 h1 (Int.le_refl _) h3 1, ?_⟩
    rw [hv, hn]
    simp [eq, List.replicate_succ]
  · refine ⟨_, hold_bin h0 h1 (Int.le_refl _) h3 0, ?_⟩
    cases v <;> simp [eq] at hv ⊢
    exact hv

theorem two_floats {lo hi : F64} (h : Value.F64.lt lo hi = true) (v : Val) : ∃ w, Hold E (.floatRange lo hi true) w ∧ eq v w = false := by
  have h' := lt_le h
  by_cases hv : eq v (.float lo) = true
  · refine ⟨.float hi, ⟨by simp [Value.WF, h'], by simp [Fits], by simp [has, hasP, h']⟩, ?_⟩
    cases v <;> simp [eq, Value.F64.eq, Value.F64.lt] at hv h ⊢
    intro _ _
    omega
  · exact ⟨.float lo, ⟨by simp [Value.WF, h'], by simp [Fits], by simp [has, hasP, h']⟩, by simpa using hv⟩

theorem two_ints {lo hi : BitVec 64} {incl : Bool} (h : lo.toInt + (if incl then 0 else 1) < hi.toInt) (v : Val) :
    ∃ w, Hold E (.intRange lo hi incl) w ∧ eq v w = false := by
  have p : (hi - 1).toInt = hi.toInt - 1 := toInt_pred (by have := lo.le_toInt; have hmin : minI64.toInt = -9223372036854775808 := by decide
                                                           split at h <;> omega)
  by_cases hv : v = .int lo
  · subst hv
    cases incl
    · refine ⟨.int (hi - 1), ⟨by simp [Value.WF], by simp [Fits], ?_⟩, ?_⟩
      · simp only [Bool.false_eq_true, if_false] at h
        simp only [has, hasP, BitVec.sle_eq_decide, BitVec.slt_eq_decide, p, Bool.and_eq_true, decide_eq_true_eq, Bool.false_eq_true, if_false]; omega
      · simp only [eq, beq_eq_false_iff_ne, ne_eq]
        intro e
        have := congrArg BitVec.toInt e
        rw [p] at this
        simp only [Bool.false_eq_true, if_false] at h
        omega
    · refine ⟨.int hi, ⟨by simp [Value.WF], by simp [Fits], ?_⟩, ?_⟩
      · simp [has, hasP, BitVec.sle, BitVec.slt] at h ⊢; omega
      · simp [eq] at h ⊢; intro e; rw [e] at h; omega
  · refine ⟨.int lo, ⟨by simp [Value.WF], by simp [Fits], ?_⟩, ?_⟩
    · cases incl <;> simp [has, hasP, BitVec.sle, BitVec.slt] at h ⊢ <;> omega
    · cases v <;> simp [eq] at hv ⊢; exact hv

theorem leaf_exact {eqT : Ty → Ty → Bool} {v : Val} {u : Ty} (hs : Scalar v) (hu : Ample u) (hnu : ∀ o ts, u ≠ .anyOf o ts) (hi : Incl E u (.exact v)) :
    leafCase E eqT (.exact v) u = some true := by
  have key : ∀ w, Hold E u w → eq v w = true := by
    intro w h
    have e1 := hi w h.1 h.2.1 h.2.2
    rwa [has, hasP] at e1
  have no : (∃ w, Hold E u w ∧ eq v w = false) → leafCase E eqT (.exact v) u = some true := by
    rintro ⟨w, h1, h2⟩; rw [key w h1] at h2; cases h2
  cases hu with
  | exact hw =>
    rename_i w
    have := key w ⟨hw.ok.1, hw.ok.2, by simp [has, hasP, eq_self hw]⟩
    simp [leafCase, this]
  | any => exact no ⟨.nil, by simp [Hold, Value.WF, Fits, has, hasP], by cases v <;> simp [Scalar] at hs <;> simp [eq]⟩
  | nilT => exact no ⟨.nil, by simp [Hold, Value.WF, Fits, has, hasP], by cases v <;> simp [Scalar] at hs <;> simp [eq]⟩
  | boolT =>
    have h1 := key (.bool true) (by simp [Hold, Value.WF, Fits, has, hasP])
    have h2 := key (.bool false) (by simp [Hold, Value.WF, Fits, has, hasP])
    cases v <;> simp [eq] at h1 h2; rw [h1] at h2; cases h2
  | intT =>
    have h1 := key (.int 0) (by simp [Hold, Value.WF, Fits, has, hasP])
    have h2 := key (.int 1) (by simp [Hold, Value.WF, Fits, has, hasP])
    cases v <;> simp [eq] at h1 h2; rw [h1] at h2; cases h2
  | floatT =>
    have h1 := key (.float ⟨0⟩) ⟨by simp only [Value.WF]; decide, by simp [Fits], by simp [has, hasP]⟩
    have h2 := key (.float 1#64) ⟨by simp only [Value.WF]; decide, by simp [Fits], by simp [has, hasP]⟩
    exfalso
    cases v with
    | float f =>
      simp only [eq] at h1 h2
      rw [Value.F64.eq_iff] at h1 h2
      have := h1.2.2.symm.trans h2.2.2
      revert this; decide
    | _ => simp [eq] at h1
  | strT =>
    have h1 := key (.str []) (by simp [Hold, Value.WF, Fits, has, hasP, len, maxInt])
    have h2 := key (.str [0]) (by simp [Hold, Value.WF, Fits, has, hasP, len, maxInt])
    cases v <;> simp [eq] at h1 h2; rw [h1] at h2; cases h2
  | regexpT =>
    have h1 := key (.regexp []) (by simp [Hold, Value.WF, Fits, has, hasP, len])
    have h2 := key (.regexp [0]) (by simp [Hold, Value.WF, Fits, has, hasP, len])
    cases v <;> simp [eq] at h1 h2; rw [h1] at h2; cases h2
  | timeT =>
    have h1 := key (.time 0) (by simp [Hold, Value.WF, Fits, has, hasP, len])
    have h2 := key (.time 1) (by simp [Hold, Value.WF, Fits, has, hasP, len])
    cases v <;> simp [eq] at h1 h2; rw [h1] at h2; cases h2
  | intRange h => exact no (two_ints h v)
  | floatRange h => exact no (two_floats h v)
  | sizedStr h0 h1 h2 h3 => exact no (two_strs h0 h1 h2 h3 v)
  | bin h0 h1 h2 h3 => exact no (two_bins h0 h1 h2 h3 v)
  | anyOf => exact absurd rfl (hnu _ _)
  | arrT =>
    have h1 := key (.arr []) (by simp [Hold, Value.WF, WFs, Fits, FitsAll, has, hasP, len, maxInt])
    cases v <;> simp [Scalar] at hs <;> simp [eq] at h1
  | mapT =>
    have h1 := key (.map []) (by simp [Hold, Value.WF, WFes, Fits, FitsEntries, has, hasP, len, maxInt])
    cases v <;> simp [Scalar] at hs <;> simp [eq] at h1
  | @sizedArr o e lo hi he h0 h1 h2 h3 =>
    obtain ⟨w, hw⟩ := (Ample.sizedArr (o := o) he h0 h1 h2 h3).hold (E := E)
    have h1 := key w hw
    have h2 := hw.2.2
    rw [has_sizedArr] at h2
    obtain ⟨_, rfl, _⟩ := h2
    cases v <;> simp [Scalar] at hs <;> simp [eq] at h1
  | @tuple o ts h0 h1 h2 =>
    obtain ⟨w, hw⟩ := (Ample.tuple (o := o) h0 h1 h2).hold (E := E)
    have h1 := key w hw
    have h2 := hw.2.2
    rw [has_tuple] at h2
    obtain ⟨_, rfl, _⟩ := h2
    cases v <;> simp [Scalar] at hs <;> simp [eq] at h1
  | @sizedMap o k t lo hi hk ht h0 h1 h2 h3 =>
    obtain ⟨w, hw⟩ := (Ample.sizedMap (o := o) hk ht h0 h1 h2 h3).hold (E := E)
    have h1 := key w hw
    have h2 := hw.2.2
    rw [has_sizedMap] at h2
    obtain ⟨_, rfl, _⟩ := h2
    cases v <;> simp [Scalar] at hs <;> simp [eq] at h1
  | @sens o t ht =>
    obtain ⟨w, hw⟩ := (Ample.sens (o := o) ht).hold (E := E)
    have h1 := key w hw
    have h2 := hw.2.2
    rw [has_sens] at h2
    obtain ⟨_, rfl, _⟩ := h2
    cases v <;> simp [Scalar] at hs <;> simp [eq] at h1

theorem leaf_step {eqT : Ty → Ty → Bool} {t u : Ty} (hs : Solid t) (hd : t.deep? = none) (hu : Ample u) (hnu : ∀ o ts, u ≠ .anyOf o ts) (hinc : Incl E u t) :
    leafCase E eqT t u = some true := by
  have hw : ∃ w, Hold E u w := hu.hold
  cases hs with
  | any => rfl
  | exact h => exact leaf_exact h hu hnu hinc
  | nilT | boolT | intT | strT | regexpT | timeT | arrT | mapT =>
    obtain ⟨w, hw⟩ := hw
    have h1 := hw.2.2
    have h2 := hinc w hw.1 hw.2.1 h1
    have h3 := hinc .nil (by simp [Value.WF]) (by simp [Fits])
    have h4 := hinc (.bool true) (by simp [Value.WF]) (by simp [Fits])
    clear hinc
    cases hu <;> first
      | rfl
      | exact absurd rfl (hnu _ _)
      | (exfalso; clear hd hnu; revert h3 h4; simp [has, hasP]; done)
      | (exfalso; clear h3 h4 hd hnu; cases w <;> simp [has, hasP] at h1 h2; done)
      | (rename_i v hv; cases v <;> first | rfl | (exfalso; simp [Scalar] at hv; done) | (exfalso; clear h3 h4 hd hnu; cases w <;> simp [has, hasP, eq] at h1 h2 <;> done))
      | skip
  | @intRange lo hi incl hlt hn =>
    obtain ⟨w, hw⟩ := hw
    have h1 := hw.2.2
    have h2 := hinc w hw.1 hw.2.1 h1
    have h3 := hinc .nil (by simp [Value.WF]) (by simp [Fits])
    cases hu <;> first
      | exact absurd rfl (hnu _ _)
      | (exfalso; clear hd hnu hinc hn; revert h3; simp [has, hasP]; done)
      | (exfalso; clear h3 hd hnu hinc hn; cases w <;> simp [has, hasP] at h1 h2; done)
      | skip
    · obtain ⟨i, hn⟩ := hn
      have := hinc (.int i) (by simp [Value.WF]) (by simp [Fits]) (by simp [has, hasP])
      exfalso
      cases incl <;> simp [has, hasP, BitVec.sle, BitVec.slt] at this hn
      · rcases hn with hn | hn | rfl <;> omega
      · omega
    · rename_i v hv
      cases v with
      | int i =>
        have := hinc (.int i) (by simp [Value.WF]) (by simp [Fits]) (by simp [has, hasP, eq])
        rw [has, hasP] at this
        simp [leafCase, this]
      | _ => first | (exfalso; simp [Scalar] at hv; done) | (exfalso; clear h3 hd hnu hinc hn; cases w <;> simp [has, hasP, eq] at h1 h2 <;> done)
    · rename_i lo' hi' incl' h'
      have h4 := (int_incl_iff (E := E) (incl := incl) (incl' := incl') hlt (lo' := lo') (hi' := hi') (by split at h' <;> omega)).2 fun v hv => by
        rw [instanceOf_has (by simp [Ty.Acyc])] at hv ⊢
        have : ∃ i, v = .int i := by cases v <;> simp [has, hasP] at hv ⊢
        obtain ⟨i, rfl⟩ := this
        exact hinc _ (by simp [Value.WF]) (by simp [Fits]) hv
      rw [assignable_leaf rfl rfl (by simp)] at h4
      simpa [leafCase] using h4
  | @floatRange lo hi hnan hn =>
    obtain ⟨w, hw⟩ := hw
    have h1 := hw.2.2
    have h2 := hinc w hw.1 hw.2.1 h1
    have h3 := hinc .nil (by simp [Value.WF]) (by simp [Fits])
    cases hu <;> first
      | exact absurd rfl (hnu _ _)
      | (exfalso; clear hd hnu hinc hn; revert h3; simp [has, hasP]; done)
      | (exfalso; clear h3 hd hnu hinc hn; cases w <;> simp [has, hasP] at h1 h2; done)
      | skip
    · obtain ⟨f, hf, hn⟩ := hn
      have := hinc (.float f) (by simp [Value.WF, hf]) (by simp [Fits]) (by simp [has, hasP])
      exfalso
      simp only [has, hasP, Bool.and_eq_true, le_iff_, lt_iff_, if_true] at this hn
      obtain ⟨⟨_, _, h5⟩, _, _, h6⟩ := this
      rcases hn with ⟨_, _, hn⟩ | ⟨_, _, hn⟩ <;> omega
    · rename_i v hv
      cases v with
      | float f =>
        have := hinc (.float f) (by simp [Value.WF]; simpa [Scalar] using hv) (by simp [Fits]) (by rw [has, hasP]; exact eq_self hv)
        rw [has, hasP] at this
        simp [leafCase] at this ⊢
        simp [this]
      | _ => first | (exfalso; simp [Scalar] at hv; done) | (exfalso; clear h3 hd hnu hinc hn; cases w <;> simp [has, hasP, eq] at h1 h2 <;> done)
    · rename_i lo' hi' h'
      have hl := lt_le h'
      have e1 := hinc (.float lo') (by simp [Value.WF, hl]) (by simp [Fits]) (by simp [has, hasP, hl])
      have e2 := hinc (.float hi') (by simp [Value.WF, hl]) (by simp [Fits]) (by simp [has, hasP, hl])
      simp only [has, hasP, Bool.and_eq_true, le_iff_, if_true] at e1 e2
      have h5 : Value.F64.lt lo' lo = false := by rw [← Bool.not_eq_true, lt_iff_]; omega
      have h6 : F64.le hi' hi = true := by rw [le_iff_]; exact e2.2
      simp [leafCase, h5, h6]
  | @sizedStr lo hi hn =>
    obtain ⟨w, hw⟩ := hw
    have h1 := hw.2.2
    have h2 := hinc w hw.1 hw.2.1 h1
    have h3 := hinc .nil (by simp [Value.WF]) (by simp [Fits])
    cases hu <;> first
      | exact absurd rfl (hnu _ _)
      | (exfalso; clear hd hnu hinc hn; revert h3; simp [has, hasP]; done)
      | (exfalso; clear h3 hd hnu hinc hn; cases w <;> simp [has, hasP] at h1 h2; done)
      | skip
    · exfalso
      have e1 := hinc (.str []) (by simp [Value.WF]) (by simp [Fits, len, maxInt]) (by simp [has, hasP])
      have hl := len_replicate (α := UInt8) (n := maxInt) (by decide) 0
      have e2 := hinc (.str (List.replicate maxInt.toNat 0)) (by simp [Value.WF]) (by rw [Fits, hl]) (by rw [has, hasP])
      rw [has, hasP, hl] at e2
      simp [has, hasP, len] at e1 e2
      have p1 := of_decide_eq_true e1.1
      have p2 := of_decide_eq_true e1.2
      omega
    · rename_i v hv
      cases v with
      | str s =>
        have := hinc (.str s) (by simp [Value.WF]) hv.ok.2 (by simp [has, hasP, eq])
        rw [has, hasP] at this
        simp [leafCase] at this ⊢
        simp [this]
      | _ => first | (exfalso; simp [Scalar] at hv; done) | (exfalso; clear h3 hd hnu hinc hn; cases w <;> simp [has, hasP, eq] at h1 h2 <;> done)
    · rename_i lo' hi' g0 g1 g2 g3
      have l := hold_str (E := E) g0 (Int.le_refl _) g1 g3 0
      have r := hold_str (E := E) g0 g1 (Int.le_refl _) g3 0
      have e1 := hinc _ l.1 l.2.1 l.2.2
      have e2 := hinc _ r.1 r.2.1 r.2.2
      rw [has, hasP, len_replicate (by omega)] at e1 e2
      simp [leafCase] at e1 e2 ⊢
      omega
  | @bin lo hi =>
    obtain ⟨w, hw⟩ := hw
    have h1 := hw.2.2
    have h2 := hinc w hw.1 hw.2.1 h1
    have h3 := hinc .nil (by simp [Value.WF]) (by simp [Fits])
    cases hu <;> first
      | exact absurd rfl (hnu _ _)
      | (exfalso; clear hd hnu hinc; revert h3; simp [has, hasP]; done)
      | (exfalso; clear h3 hd hnu hinc; cases w <;> simp [has, hasP] at h1 h2; done)
      | skip
    · rename_i v hv
      cases v with
      | bin s =>
        have := hinc (.bin s) (by simp [Value.WF]) hv.ok.2 (by simp [has, hasP, eq])
        rw [has, hasP] at this
        simp [leafCase] at this ⊢
        simp [this]
      | _ => first | (exfalso; simp [Scalar] at hv; done) | (exfalso; clear h3 hd hnu hinc; cases w <;> simp [has, hasP, eq] at h1 h2 <;> done)
    · rename_i lo' hi' g0 g1 g2 g3
      have l := hold_bin (E := E) g0 (Int.le_refl _) g1 g3 0
      have r := hold_bin (E := E) g0 g1 (Int.le_refl _) g3 0
      have e1 := hinc _ l.1 l.2.1 l.2.2
      have e2 := hinc _ r.1 r.2.1 r.2.2
      rw [has, hasP, len_replicate (by omega)] at e1 e2
      simp [leafCase] at e1 e2 ⊢
      omega
  | _ => simp [Ty.deep?] at hd

/-! ## Types with parts -/

theorem allG_yes {α : Type} {f : G → α → Check} : ∀ {xs : List α}, (∀ x ∈ xs, ∀ g, ∃ g', f g x = some (true, g')) → ∀ g, ∃ g', allG f g xs = some (true, g')
  | [], _, g => ⟨g, rfl⟩
  | x :: xs, h, g => by
    obtain ⟨g1, h1⟩ := h x (by simp) g
    obtain ⟨g2, h2⟩ := allG_yes (xs := xs) (fun y hy => h y (by simp [hy])) g1
    exact ⟨g2, by rw [allG, h1]; exact h2⟩

theorem allO_yes {α : Type} {f : α → Option Bool} : ∀ {xs : List α}, (∀ x ∈ xs, f x = some true) → allO f xs = some true
  | [], _ => rfl
  | x :: xs, h => by
    rw [allO, h x (by simp)]
    exact allO_yes fun y hy => h y (by simp [hy])

/-- The answer is yes. -/
def Yes (c : G → Check) : Prop := ∀ g, ∃ g', c g = some (true, g')

theorem asg_deep {n : Nat} {a b : Ty} (hd : a.deep? ≠ none) (h : Yes fun g => deepAsg E (tyEq n []) (asg E n) (inst E n) g a b) : Yes fun g => asg E (n + 1) g a b := by
  intro g
  dsimp only
  rw [asg]
  cases ha : a.deep? with
  | none => exact absurd ha hd
  | some o =>
    dsimp only
    cases hb : b.deep? with
    | none => exact h g
    | some o' =>
      dsimp only
      split
      · exact ⟨_, rfl⟩
      · cases g with
        | none =>
          obtain ⟨g', h'⟩ := h (some { aSeen := [.ty o], bSeen := [.ty o'], seenInA := false, seenInB := false })
          exact ⟨none, by dsimp only at h' ⊢; rw [h']; rfl⟩
        | some s =>
          dsimp only
          split
          · exact ⟨_, rfl⟩
          · obtain ⟨g', h'⟩ := h (some (s.append E (.ty o) (.ty o')).2)
            exact ⟨_, by dsimp only at h' ⊢; rw [h']; rfl⟩

theorem asg_leaf' {n : Nat} {a b : Ty} (hd : a.deep? = none) (h : leafAsg E (tyEq n []) (fun a b => (asg E n none a b).map (·.1)) a b = some true) :
    Yes fun g => asg E (n + 1) g a b := by
  intro g
  refine ⟨g, ?_⟩
  dsimp only
  rw [asg, hd]
  dsimp only
  rw [h]
  rfl

theorem checkTo_yes {rec : G → Ty → Ty → Check} {a b : Ty} {us : List Ty} {ne : Bool} (ho : b.operands? = some (us, ne)) (hne : ne = true → us ≠ [])
    (h : ∀ u ∈ us, Yes fun g => rec g a u) : Yes fun g => checkTo rec g a b := by
  intro g
  obtain ⟨g', h'⟩ := allG_yes (f := fun g t => rec g a t) h (g.map Guard.swap)
  refine ⟨g, ?_⟩
  dsimp only
  rw [checkTo, ho]
  dsimp only
  rw [h']
  cases ne <;> simp
  exact hne rfl

/-- The type accepts what is put together from types that it accepts. -/
theorem asg_operands {n : Nat} {t b : Ty} {us : List Ty} {ne : Bool} (hs : Solid t) (ho : b.operands? = some (us, ne)) (hb : (∃ o, b = .anyOf o us) ∨ ∃ o, b = .allOf o us)
    (hne : ne = true → us ≠ []) (h : ∀ u ∈ us, Yes fun g => asg E n g t u) : Yes fun g => asg E (n + 1) g t b := by
  cases hd : t.deep? with
  | none =>
    refine asg_leaf' hd ?_
    have key : leafCase E (tyEq n []) t b = none ∨ t = .any := by
      rcases hb with ⟨o, rfl⟩ | ⟨o, rfl⟩ <;> cases hs <;> first | exact .inr rfl | exact .inl rfl
    have hnot : ∀ x, t ≠ .not x := by cases hs <;> simp
    rcases key with key | rfl
    · have hall : allO (fun u => (asg E n none t u).map (·.1)) us = some true := allO_yes fun u hu => by
        obtain ⟨g', h'⟩ := h u hu none
        dsimp only at h'
        rw [h']; rfl
      unfold leafAsg
      split
      · exact absurd rfl (hnot _)
      · rw [key, ho]
        dsimp only
        rw [hall]
        cases ne <;> simp
        exact hne rfl
    · rfl
  | some o =>
    refine asg_deep (by simp [hd]) ?_
    have h' := checkTo_yes ho hne h
    intro g
    obtain ⟨g', h'⟩ := h' g
    refine ⟨g', ?_⟩
    rw [← h']
    rcases hb with ⟨o, rfl⟩ | ⟨o, rfl⟩ <;> cases hs <;> first | rfl | (simp [Ty.deep?] at hd; done)

theorem uniqueTy_ne {E : Env} {r : Ty → Ty → Bool} {ts : List Ty} : ∀ {u : List Ty}, u ++ ts ≠ [] → uniqueTy E r u ts ≠ [] := by
  induction ts with
  | nil => intro u h; simpa [uniqueTy] using h
  | cons t ts ih =>
    intro u _
    rw [uniqueTy]
    split
    · rename_i h
      cases u with
      | nil => simp at h
      | cons x u => exact ih (by simp)
    · exact ih (by simp)

theorem incl_arr {o o' : Oid} {e e' : Ty} {lo hi lo' hi' : Int} (he : Ample e') (h0 : 0 ≤ lo') (h1 : lo' ≤ hi') (h2 : 1 ≤ hi') (h3 : hi' ≤ maxInt)
    (hinc : Incl E (.sizedArr o' e' lo' hi') (.sizedArr o e lo hi)) : lo ≤ lo' ∧ hi' ≤ hi ∧ Incl E e' e := by
  obtain ⟨v, hv⟩ := he.hold (E := E)
  have l := hold_arr (o := o') hv h0 (Int.le_refl _) h1 h3
  have r := hold_arr (o := o') hv h0 h1 (Int.le_refl _) h3
  have e1 := hinc _ l.1 l.2.1 l.2.2
  have e2 := hinc _ r.1 r.2.1 r.2.2
  rw [has_sizedArr] at e1 e2
  obtain ⟨_, a1, a2, a3, _⟩ := e1
  obtain ⟨_, b1, b2, b3, _⟩ := e2
  cases a1; cases b1
  rw [len_replicate (by omega)] at a2 a3 b2 b3
  refine ⟨a2, b3, fun w hw hf hh => ?_⟩
  have r := hold_arr (o := o') ⟨hw, hf, hh⟩ h0 h1 (Int.le_refl _) h3
  have e2 := hinc _ r.1 r.2.1 r.2.2
  rw [has_sizedArr] at e2
  obtain ⟨_, b1, _, _, b⟩ := e2
  cases b1
  exact b w (by simp; omega)

theorem forall₂_with {R : Ty → Val → Prop} : ∀ {ts : List Ty} {vs : List Val} {i : Nat} {t : Ty} {v : Val}, List.Forall₂ R ts vs → ts[i]? = some t → R t v →
    ∃ vs', List.Forall₂ R ts vs' ∧ vs'[i]? = some v
  | _, _, _, _, _, .nil, h, _ => by simp at h
  | _, _, 0, _, _, .cons h hs, e, hr => by simp at e; subst e; exact ⟨_, .cons hr hs, by simp⟩
  | _, _, i + 1, _, _, .cons h hs, e, hr => by
    obtain ⟨vs', h1, h2⟩ := forall₂_with hs (by simpa using e) hr
    exact ⟨_, .cons h h1, by simpa using h2⟩

theorem forall₂_at {R : Ty → Val → Prop} : ∀ {ts : List Ty} {vs : List Val} {i : Nat} {t : Ty} {v : Val}, List.Forall₂ R ts vs → ts[i]? = some t → vs[i]? = some v → R t v
  | _, _, _, _, _, .nil, h, _ => by simp at h
  | _, _, 0, _, _, .cons h hs, e, e' => by simp at e e'; subst e; subst e'; exact h
  | _, _, i + 1, _, _, .cons h hs, e, e' => forall₂_at hs (by simpa using e) (by simpa using e')

/-- a value of the tuple with this value at the position -/
theorem tuple_with {o : Oid} {us : List Ty} {i : Nat} {u : Ty} {v : Val} (hp : ∀ u ∈ us, Ample u) (hl : len us ≤ maxInt) (hu : us[i]? = some u) (hv : Hold E u v) :
    ∃ vs, Hold E (.tuple o us false) (.arr vs) ∧ vs[i]? = some v ∧ vs.length = us.length := by
  obtain ⟨vs, h⟩ := forall₂_of fun t ht => (hp t ht).hold (E := E)
  obtain ⟨vs', h1, h2⟩ := forall₂_with h hu hv
  exact ⟨vs', hold_tuple hl h1, h2, h1.length_eq.symm⟩

theorem incl_arr_tuple {o o' : Oid} {e : Ty} {us : List Ty} {lo hi : Int} (hn : us ≠ []) (hp : ∀ u ∈ us, Ample u) (hl : len us ≤ maxInt)
    (hinc : Incl E (.tuple o' us false) (.sizedArr o e lo hi)) : lo ≤ len us ∧ len us ≤ hi ∧ ∀ u ∈ us, Incl E u e := by
  have key : ∀ u ∈ us, ∀ v, Hold E u v → lo ≤ len us ∧ len us ≤ hi ∧ has E e v = true := by
    intro u hu v hv
    obtain ⟨i, hi'⟩ := List.mem_iff_getElem?.1 hu
    obtain ⟨vs, h1, h2, h3⟩ := tuple_with (o := o') hp hl hi' hv
    have e1 := hinc _ h1.1 h1.2.1 h1.2.2
    rw [has_sizedArr] at e1
    obtain ⟨_, a1, a2, a3, a4⟩ := e1
    cases a1
    rw [len, h3] at a2 a3
    exact ⟨a2, a3, a4 v (List.mem_of_getElem? h2)⟩
  cases us with
  | nil => exact absurd rfl hn
  | cons u us =>
    obtain ⟨v, hv⟩ := (hp u (by simp)).hold (E := E)
    have := key u (by simp) v hv
    exact ⟨this.1, this.2.1, fun u hu v h1 h2 h3 => (key u hu v ⟨h1, h2, h3⟩).2.2⟩

theorem depth_mem' {ts : List Ty} {t : Ty} (h : t ∈ ts) : t.depth ≤ depths ts := by
  induction ts with
  | nil => cases h
  | cons x ts ih =>
    rw [depths]
    rcases List.mem_cons.1 h with rfl | h
    · omega
    · have := ih h; omega

theorem complete : ∀ (n : Nat) {t u : Ty}, t.depth + u.depth < n → Solid t → Ample u → Incl E u t → Yes fun g => asg E n g t u
  | 0, _, _, h, _, _, _ => by omega
  | n + 1, t, u, hn, hs, hu, hinc => by
    have ih := @complete n
    by_cases hany : ∃ o us, u = .anyOf o us
    · obtain ⟨o, us, rfl⟩ := hany
      cases hu with
      | anyOf hne hp =>
        refine asg_operands hs rfl (.inl ⟨o, rfl⟩) (fun _ => hne) fun u hu => ih ?_ hs (hp u hu) fun v h1 h2 h3 => hinc v h1 h2 (hold_any_of hu ⟨h1, h2, h3⟩).2.2
        have := depth_mem' hu
        simp only [Ty.depth] at hn
        omega
    have hnu : ∀ o ts, u ≠ .anyOf o ts := fun o ts h => hany ⟨o, ts, h⟩
    clear hany
    cases hd : t.deep? with
    | none =>
      refine asg_leaf' hd ?_
      have hnot : ∀ x, t ≠ .not x := by cases hs <;> simp
      unfold leafAsg
      split
      · exact absurd rfl (hnot _)
      · rw [leaf_step hs hd hu hnu hinc]
    | some o0 =>
      refine asg_deep (by simp [hd]) ?_
      obtain ⟨w, hw⟩ := hu.hold (E := E)
      have h1 := hw.2.2
      have h2 := hinc w hw.1 hw.2.1 h1
      have h3 := hinc .nil (by simp [Value.WF]) (by simp [Fits])
      cases hs with
      | @sizedArr o e lo hi he hne =>
        cases hu <;> first
          | exact absurd rfl (hnu _ _)
          | (exfalso; clear hd hnu hinc ih; revert h3; simp [has, hasP]; done)
          | (exfalso; clear h3 hd hnu hinc ih; cases w <;> simp [has, hasP] at h1 h2; done)
          | (rename_i v hv; exfalso; clear h3 hd hnu hinc ih; cases v <;> simp [Scalar] at hv <;> cases w <;> simp [has, hasP, eq] at h1 h2 <;> done)
          | skip
        · exfalso
          have e1 := hinc (.arr []) (by simp [Value.WF, WFs]) (by simp [Fits, FitsAll, len, maxInt]) (by simp [has, hasP])
          have r := hold_arr (E := E) (o := .user 0) (e := .any) (v := .nil) (lo := 0) (by simp [Hold, Value.WF, Fits, has, hasP]) (by decide) (show 0 ≤ maxInt by decide) (Int.le_refl _) (Int.le_refl _)
          have e2 := hinc _ r.1 r.2.1 (by simp [has, hasP])
          rw [has_sizedArr] at e1 e2
          obtain ⟨_, a1, a2, a3, _⟩ := e1
          obtain ⟨_, b1, b2, b3, _⟩ := e2
          cases a1; cases b1
          rw [len_replicate (by decide)] at b2 b3
          rcases hne with hne | hne | hne
          · obtain ⟨v, l1, l2, l3⟩ := he.lacks (E := E) hne
            have e3 := hinc (.arr [v]) (by simp [Value.WF, WFs, l1]) (by simp [Fits, FitsAll, len, maxInt, l2]) (by simp [has, hasP])
            rw [has_sizedArr] at e3
            obtain ⟨_, c1, _, _, c⟩ := e3
            cases c1
            rw [c v (by simp)] at l3
            cases l3
          · simp only [len, List.length_nil] at a2; omega
          · omega
        · rename_i o' e' lo' hi' he' g0 g1 g2 g3
          obtain ⟨k1, k2, k3⟩ := incl_arr he' g0 g1 g2 g3 hinc
          intro g
          simp only [Ty.depth] at hn
          obtain ⟨g', h'⟩ := ih (t := e) (u := e') (by omega) he he' k3 none
          refine ⟨g, ?_⟩
          dsimp only at h' ⊢
          rw [deepAsg.eq_def]
          simp only [Ty.arrayType?]
          rw [if_pos ⟨k1, k2⟩, h']
          rfl
        · rename_i o' us gn gp gl
          obtain ⟨k1, k2, k3⟩ := incl_arr_tuple gn gp gl hinc
          intro g
          simp only [Ty.depth] at hn
          have one : ∀ u ∈ us, Yes fun g => asg E n g e u := fun u hu => ih (by have := depth_mem' hu; omega) he (gp u hu) (k3 u hu)
          have many : ∀ us' : List Ty, (∀ u ∈ us', u ∈ us) → Yes fun g => asg E n g e (.allOf (.part o' 0) us') := fun us' hus => by
            cases n with
            | zero => omega
            | succ m =>
              refine asg_operands he rfl (.inr ⟨_, rfl⟩) (by simp) fun u hu => ?_
              exact complete m (by have := depth_mem' (hus u hu); omega) he (gp u (hus u hu)) (k3 u (hus u hu))
          have key : ∃ x, (Ty.tuple o' us false).arrayType? E (tyEq n []) = some (len us, len us, x) ∧ Yes fun g => asg E n g e x := by
            cases us with
            | nil => exact absurd rfl gn
            | cons u us =>
              cases us with
              | nil => exact ⟨u, rfl, one u (by simp)⟩
              | cons u' us =>
                simp only [Ty.arrayType?]
                have sub := uniqueTy_sub (E := E) (r := tyEq n []) (ts := u :: u' :: us) (u := [])
                simp only [List.nil_append] at sub
                revert sub
                generalize uniqueTy E (tyEq n []) [] (u :: u' :: us) = xs
                intro sub
                match xs, sub with
                | [], sub => exact ⟨_, rfl, many _ sub⟩
                | [x], sub => exact ⟨x, rfl, one x (sub x (by simp))⟩
                | x :: y :: zs, sub => exact ⟨_, rfl, many _ sub⟩
          obtain ⟨x, hx, hy⟩ := key
          obtain ⟨g', h'⟩ := hy none
          refine ⟨g, ?_⟩
          dsimp only at h' ⊢
          rw [deepAsg.eq_def]
          dsimp only
          rw [hx]
          dsimp only
          rw [if_pos ⟨k1, k2⟩, h']
          rfl
      | @tuple o ts hts hl =>
        cases hu <;> first
          | exact absurd rfl (hnu _ _)
          | (exfalso; clear hd hnu hinc ih; revert h3; simp [has, hasP]; done)
          | (exfalso; clear h3 hd hnu hinc ih; cases w <;> simp [has, hasP] at h1 h2; done)
          | (rename_i v hv; exfalso; clear h3 hd hnu hinc ih; cases v <;> simp [Scalar] at hv <;> cases w <;> simp [has, hasP, eq] at h1 h2 <;> done)
          | skip
        · exfalso
          have hlen : 0 ≤ len ts := by simp [len]
          have r := hold_arr (E := E) (o := .user 0) (e := .any) (v := .nil) (n := len ts + 1) (hi := maxInt) (by simp [Hold, Value.WF, Fits, has, hasP]) (Int.le_refl 0) (by omega) (by omega) (Int.le_refl _)
          have e2 := hinc _ r.1 r.2.1 (by simp [has, hasP])
          rw [has_tuple] at e2
          obtain ⟨_, b1, b2⟩ := e2
          cases b1
          have := b2.length_eq
          simp only [len, List.length_replicate] at this
          omega
        · rename_i o' e' lo' hi' he' g0 g1 g2 g3
          have key : ∀ m, lo' ≤ m → m ≤ hi' → ∀ v, Hold E e' v → len ts = m ∧ ∀ t ∈ ts, 0 < m → has E t v = true := by
            intro m m1 m2 v hv
            have r := hold_arr (o := o') hv g0 m1 m2 g3
            have e2 := hinc _ r.1 r.2.1 r.2.2
            rw [has_tuple] at e2
            obtain ⟨_, b1, b2⟩ := e2
            cases b1
            have := b2.length_eq
            rw [List.length_replicate] at this
            refine ⟨by simp only [len]; omega, fun t ht hm => ?_⟩
            obtain ⟨i, hi1⟩ := List.mem_iff_getElem?.1 ht
            have hlt : i < ts.length := (List.getElem?_eq_some_iff.1 hi1).1
            refine forall₂_at b2 hi1 ?_
            rw [List.getElem?_replicate, if_pos (by omega)]
          obtain ⟨v, hv⟩ := he'.hold (E := E)
          have k1 := (key lo' (Int.le_refl _) g1 v hv).1
          have k2 := (key hi' g1 (Int.le_refl _) v hv).1
          simp only [Ty.depth] at hn
          have hall : ∀ t ∈ ts, Yes fun g => asg E n g t e' := fun t ht =>
            ih (by have := depth_mem' ht; omega) (hts t ht) he' fun v h1 h2 h3 => (key hi' g1 (Int.le_refl _) v ⟨h1, h2, h3⟩).2 t ht (by omega)
          intro g
          obtain ⟨g', h'⟩ := allG_yes (f := fun g t => asg E n g t e') hall g
          refine ⟨g', ?_⟩
          dsimp only
          rw [deepAsg.eq_def]
          dsimp only
          rw [tupleArray, if_pos (by simp only [Bool.false_eq_true, if_false]; omega), h']
        · rename_i o' us gn gp gl
          have key : ∀ (i : Nat) (u : Ty), us[i]? = some u → ts.length = us.length ∧ ∀ t, ts[i]? = some t → Incl E u t := by
            intro i u hi1
            have step : ∀ v, Hold E u v → ts.length = us.length ∧ ∀ t, ts[i]? = some t → has E t v = true := by
              intro v hv
              obtain ⟨vs, c1, c2, c3⟩ := tuple_with (o := o') gp gl hi1 hv
              have e1 := hinc _ c1.1 c1.2.1 c1.2.2
              rw [has_tuple] at e1
              obtain ⟨_, b1, b2⟩ := e1
              cases b1
              exact ⟨by rw [b2.length_eq, c3], fun t ht => forall₂_at b2 ht c2⟩
            obtain ⟨v, hv⟩ := (gp u (List.mem_of_getElem? hi1)).hold (E := E)
            exact ⟨(step v hv).1, fun t ht v h1 h2 h3 => (step v ⟨h1, h2, h3⟩).2 t ht⟩
          have hlen : ts.length = us.length := by
            cases us with
            | nil => exact absurd rfl gn
            | cons u us => exact (key 0 u rfl).1
          simp only [Ty.depth] at hn
          have hall : ∀ i ∈ List.range (max ts.length us.length), Yes fun g => (match elemAt ts false i, elemAt us false i with
              | some t, some u => asg E n g t u
              | _, _ => some (false, g) : Check) := by
            intro i hi1
            have hi2 := List.mem_range.1 hi1
            have l1 : i < ts.length := by omega
            have l2 : i < us.length := by omega
            have m1 : ts[i]? = some ts[i] := List.getElem?_eq_getElem l1
            have m2 : us[i]? = some us[i] := List.getElem?_eq_getElem l2
            have q1 : elemAt ts false i = some ts[i] := by simp [elemAt, l1]
            have q2 : elemAt us false i = some us[i] := by simp [elemAt, l2]
            rw [q1, q2]
            refine ih ?_ (hts _ (List.getElem_mem l1)) (gp _ (List.getElem_mem l2)) ((key i _ m2).2 _ m1)
            have := depth_mem' (List.getElem_mem l1)
            have := depth_mem' (List.getElem_mem l2)
            omega
          intro g
          obtain ⟨g', h'⟩ := allG_yes (f := fun g i => (match elemAt ts false i, elemAt us false i with
              | some t, some u => asg E n g t u
              | _, _ => some (false, g) : Check)) hall g
          refine ⟨g', ?_⟩
          dsimp only
          rw [deepAsg.eq_def]
          dsimp only
          rw [tupleTuple]
          simp only [Bool.false_eq_true, if_false]
          rw [if_neg (by simp only [len]; omega)]
          exact h'
      | @sizedMap o k v lo hk hv hlo0 hlo =>
        cases hu <;> first
          | exact absurd rfl (hnu _ _)
          | (exfalso; clear hd hnu hinc ih; revert h3; simp [has, hasP]; done)
          | (exfalso; clear h3 hd hnu hinc ih; cases w <;> simp [has, hasP] at h1 h2; done)
          | (rename_i v hv; exfalso; clear h3 hd hnu hinc ih; cases v <;> simp [Scalar] at hv <;> cases w <;> simp [has, hasP, eq] at h1 h2 <;> done)
          | skip
        · have k1 := hinc (.map []) (by simp [Value.WF, WFes]) (by simp [Fits, FitsEntries, len, maxInt]) (by simp [has, hasP])
          rw [has_sizedMap] at k1
          obtain ⟨_, b1, b2, _, _⟩ := k1
          cases b1
          have two : ∀ x y, Value.WF x → Fits x → Value.WF y → Fits y → has E k x = true ∧ has E v y = true := by
            intro x y x1 x2 y1 y2
            have e := hinc (.map [(x, y)]) (by simp [Value.WF, WFes, x1, y1]) (by simp [Fits, FitsEntries, len, maxInt, x2, y2]) (by simp [has, hasP])
            rw [has_sizedMap] at e
            obtain ⟨_, c1, _, _, c⟩ := e
            cases c1
            exact c (x, y) (by simp)
          simp only [Ty.depth] at hn
          intro g
          obtain ⟨g1, q1⟩ := ih (t := k) (u := .any) (by simp only [Ty.depth]; omega) hk .any (fun x x1 x2 _ => (two x .nil x1 x2 (by simp [Value.WF]) (by simp [Fits])).1) g
          obtain ⟨g2, q2⟩ := ih (t := v) (u := .any) (by simp only [Ty.depth]; omega) hv .any (fun y y1 y2 _ => (two .nil y (by simp [Value.WF]) (by simp [Fits]) y1 y2).2) g1
          refine ⟨g2, ?_⟩
          dsimp only at q1 q2 ⊢
          rw [deepAsg.eq_def]
          simp only [Ty.mapType?]
          rw [if_pos ⟨b2, Int.le_refl _⟩, q1]
          exact q2
        · rename_i o' k' v' lo' hi' hk' hv' g0 g1 g2 g3
          have two : ∀ x y, Hold E k' x → Hold E v' y → has E k x = true ∧ has E v y = true := by
            intro x y hx hy
            have r := hold_map (o := o') hx hy g1 g2
            have e := hinc _ r.1 r.2.1 r.2.2
            rw [has_sizedMap] at e
            obtain ⟨_, c1, _, _, c⟩ := e
            cases c1
            exact c (x, y) (by simp)
          obtain ⟨x, hx⟩ := hk'.hold (E := E)
          obtain ⟨y, hy⟩ := hv'.hold (E := E)
          have k1 : lo ≤ lo' := by
            by_cases hz : lo' ≤ 0
            · have e := hinc (.map []) (by simp [Value.WF, WFes]) (by simp [Fits, FitsEntries, len, maxInt]) (by rw [has_sizedMap]; exact ⟨[], rfl, by simpa [len] using hz, by simp [len]; omega, by simp⟩)
              rw [has_sizedMap] at e
              obtain ⟨_, c1, c2, _, _⟩ := e
              cases c1
              simp only [len, List.length_nil] at c2
              omega
            · omega
          simp only [Ty.depth] at hn
          intro g
          obtain ⟨g4, q1⟩ := ih (t := k) (u := k') (by omega) hk hk' (fun x x1 x2 x3 => (two x y ⟨x1, x2, x3⟩ hy).1) g
          obtain ⟨g5, q2⟩ := ih (t := v) (u := v') (by omega) hv hv' (fun y y1 y2 y3 => (two x y hx ⟨y1, y2, y3⟩).2) g4
          refine ⟨g5, ?_⟩
          dsimp only at q1 q2 ⊢
          rw [deepAsg.eq_def]
          simp only [Ty.mapType?]
          rw [if_pos ⟨k1, g3⟩, q1]
          exact q2
      | @sens o t ht =>
        cases hu <;> first
          | exact absurd rfl (hnu _ _)
          | (exfalso; clear hd hnu hinc ih; revert h3; simp [has, hasP]; done)
          | (exfalso; clear h3 hd hnu hinc ih; cases w <;> simp [has, hasP] at h1 h2; done)
          | (rename_i v hv; exfalso; clear h3 hd hnu hinc ih; cases v <;> simp [Scalar] at hv <;> cases w <;> simp [has, hasP, eq] at h1 h2 <;> done)
          | skip
        · rename_i o' u hu'
          simp only [Ty.depth] at hn
          intro g
          obtain ⟨g1, q1⟩ := ih (t := t) (u := u) (by omega) ht hu' (fun x x1 x2 x3 => by
            have r := hold_sens (o := o') ⟨x1, x2, x3⟩
            have e := hinc _ r.1 r.2.1 r.2.2
            rw [has_sens] at e
            obtain ⟨_, c1, c⟩ := e
            cases c1
            exact c) g
          exact ⟨g1, by dsimp only at q1 ⊢; rw [deepAsg.eq_def]; exact q1⟩
      | _ => simp [Ty.deep?] at hd

/-! ## Solid types are types of C26 -/

theorem Solid.every {p : Ty → Prop} (h : ∀ t, Solid t → p t) {t : Ty} (ht : Solid t) : Every p t := by
  induction ht with
  | sizedArr h1 h2 ih => exact .mk (h _ (.sizedArr h1 h2)) (by simpa [parts] using ih)
  | tuple h1 h2 ih => exact .mk (h _ (.tuple h1 h2)) (by simpa [parts] using ih)
  | sizedMap h1 h2 h3 h4 ih1 ih2 => exact .mk (h _ (.sizedMap h1 h2 h3 h4)) (by simp [parts]; exact ⟨ih1, ih2⟩)
  | sens h1 ih => exact .mk (h _ (.sens h1)) (by simpa [parts] using ih)
  | any => exact .mk (h _ .any) (by simp [parts])
  | nilT => exact .mk (h _ .nilT) (by simp [parts])
  | boolT => exact .mk (h _ .boolT) (by simp [parts])
  | intT => exact .mk (h _ .intT) (by simp [parts])
  | strT => exact .mk (h _ .strT) (by simp [parts])
  | regexpT => exact .mk (h _ .regexpT) (by simp [parts])
  | timeT => exact .mk (h _ .timeT) (by simp [parts])
  | arrT => exact .mk (h _ .arrT) (by simp [parts])
  | mapT => exact .mk (h _ .mapT) (by simp [parts])
  | exact h1 => exact .mk (h _ (.exact h1)) (by simp [parts])
  | intRange h1 h2 => exact .mk (h _ (.intRange h1 h2)) (by simp [parts])
  | floatRange h1 h2 => exact .mk (h _ (.floatRange h1 h2)) (by simp [parts])
  | sizedStr h1 => exact .mk (h _ (.sizedStr h1)) (by simp [parts])
  | bin => exact .mk (h _ .bin) (by simp [parts])

theorem Solid.ok {t : Ty} (h : Solid t) : t.Ok := by
  induction h with
  | exact h => rename_i v; rw [Ty.Ok]; exact ⟨by cases v <;> simp [Scalar] at h <;> rfl, h.ok.1⟩
  | tuple _ _ ih => rw [Ty.Ok, Oks_iff]; exact ih
  | sizedMap _ _ _ _ h1 h2 => rw [Ty.Ok]; exact ⟨h1, h2⟩
  | sizedArr _ _ h => rw [Ty.Ok]; exact h
  | sens _ h => rw [Ty.Ok]; exact h
  | _ => simp [Ty.Ok]

theorem Solid.andFree {t : Ty} (h : Solid t) : AndFree t := by
  cases h <;> exact .mk (by simp) (by simp) (by simp)

theorem Solid.node {t : Ty} (h : Solid t) : Lnode ⟨false, false, false⟩ t := by
  cases h with
  | sizedArr h _ => exact h.andFree
  | sizedMap h1 h2 _ _ => exact ⟨h1.andFree, h2.andFree, rfl⟩
  | @intRange lo hi incl h _ =>
    refine .inr fun e => ?_
    rw [e] at h
    have hmin : minI64.toInt = -9223372036854775808 := by decide
    have := lo.le_toInt
    omega
  | floatRange h _ => exact h
  | tuple => simp [Lnode]
  | _ => simp [Lnode]

theorem Solid.left {t : Ty} (h : Solid t) (ha : t.Acyc) : Left ⟨false, false, false⟩ t := ⟨h.every fun _ h => h.node, ha, h.ok⟩

theorem Solid.operands {t : Ty} (h : Solid t) : t.operands? = none := by cases h <;> rfl

end Verif.Types
