import Verif.Pcore.Good
/-!
# The types that are made of the arguments: floats, and types with parts
-/
set_option autoImplicit false
set_option linter.unusedVariables false
set_option linter.unusedSimpArgs false
set_option linter.unnecessarySeqFocus false
namespace Verif.Pcore
open Verif.Value (Str Val F64 eq)
open Verif.Types (Ty Oid maxInt instanceOf NilOk NilOks NilOks_iff instanceOf_has has hasP Fits Acycs Acycs_iff occs occs_iff)
open Verif.Text

variable {E : Env} {m k : Nat}

/-! ## Floats -/

theorem fle_iff {a b : F64} : fle a b ↔ Types.F64.le a b = true := by
  unfold fle Types.F64.le
  rw [Bool.or_eq_true]

theorem fle_not_nan {a b : F64} (h : fle a b) : a.isNaN = false ∧ b.isNaN = false := by
  rcases h with h | h
  · simp only [Value.F64.lt, Bool.and_eq_true, Bool.not_eq_true'] at h; exact h.1
  · have := (Value.F64.eq_iff _ _).1 h; exact ⟨this.1, this.2.1⟩

theorem fle_key {a b : F64} : fle a b ↔ a.isNaN = false ∧ b.isNaN = false ∧ a.key ≤ b.key := by
  constructor
  · intro h
    obtain ⟨h1, h2⟩ := fle_not_nan h
    refine ⟨h1, h2, ?_⟩
    rcases h with h | h
    · simp [Value.F64.lt, h1, h2] at h; omega
    · exact Int.le_of_eq ((Value.F64.eq_iff _ _).1 h).2.2
  · rintro ⟨h1, h2, h3⟩
    by_cases he : a.key = b.key
    · exact Or.inr ((Value.F64.eq_iff _ _).2 ⟨h1, h2, he⟩)
    · refine Or.inl ?_
      simp [Value.F64.lt, h1, h2]
      omega

/-- `FloatType` of limits in order -/
theorem floatType_ok {lo hi : F64} (h : fle lo hi) (hne : ¬ (Value.F64.eq lo Types.F64.min = true ∧ Value.F64.eq hi maxFloat = true)) :
    ∃ t, Types.floatType lo hi true = some t ∧ Leafy t ∧ Value.F64.eq (floatMin t) lo = true ∧ Value.F64.eq (floatMax t) hi = true ∧
      (floatMin t = lo) ∧ (floatMax t = hi ∨ floatMax t = lo) ∧
      ∀ (E : Types.Env) (v : Val), instanceOf E t v = true ↔ ∃ f, v = .float f ∧ fle lo f ∧ fle f hi := by
  obtain ⟨n1, n2, hk⟩ := fle_key.1 h
  have e1 : Value.F64.eq lo lo = true := (Value.F64.eq_iff _ _).2 ⟨n1, n1, rfl⟩
  have e2 : Value.F64.eq hi hi = true := (Value.F64.eq_iff _ _).2 ⟨n2, n2, rfl⟩
  by_cases he : Value.F64.eq lo hi = true
  · refine ⟨.exact (.float lo), by rw [Types.floatType, if_pos he]; rfl, by constructor <;> simp [Ty.Acyc, Ty.occ, NilOk], e1, he, rfl, Or.inr rfl, fun E v => ?_⟩
    rw [Types.inst_exactFloat]
    have hk2 := ((Value.F64.eq_iff _ _).1 he).2.2
    constructor
    · rintro ⟨f, rfl, hf⟩
      have := (Value.F64.eq_iff _ _).1 hf
      exact ⟨f, rfl, fle_key.2 ⟨n1, this.2.1, by omega⟩, fle_key.2 ⟨this.2.1, n2, by omega⟩⟩
    · rintro ⟨f, rfl, h1, h2⟩
      have h1 := fle_key.1 h1
      have h2 := fle_key.1 h2
      exact ⟨f, rfl, (Value.F64.eq_iff _ _).2 ⟨n1, h1.2.1, by omega⟩⟩
  · have hlt : Value.F64.lt hi lo = false := by
      cases hc : Value.F64.lt hi lo with
      | false => rfl
      | true => simp [Value.F64.lt, n1, n2] at hc; omega
    refine ⟨.floatRange lo hi true, ?_, by constructor <;> simp [Ty.Acyc, Ty.occ, NilOk], e1, e2, rfl, Or.inl rfl, fun E v => ?_⟩
    · rw [Types.floatType, if_neg he, hlt]
      simp only [Bool.false_eq_true, if_false]
      exact if_neg hne
    · rw [Types.inst_floatRange]
      simp only [if_true, fle_iff]

theorem good_floatLow {lo : FB} (h : fle (lo.val E) maxFloat) (h' : Value.F64.eq (lo.val E) Types.F64.min = false) {v : PV}
    (hv : v.float? E Types.F64.min = some (lo.val E)) : ∃ t, floatType E [v] = some t ∧ Good E (.floatLow lo) m t := by
  obtain ⟨t, h1, h2, _, _, _, _, h3⟩ := floatType_ok h (by simp [h'])
  refine ⟨t, ?_, h2.good fun v _ _ => h3 _ v⟩
  simp only [floatType, hv, Option.bind_some]
  exact h1

theorem good_floatBoth {lo hi : FB} (h : fle (lo.val E) (hi.val E))
    (h' : ¬ (Value.F64.eq (lo.val E) Types.F64.min = true ∧ Value.F64.eq (hi.val E) maxFloat = true)) {v v' : PV}
    (hv : v.float? E Types.F64.min = some (lo.val E)) (hv' : v'.float? E Types.F64.max = some (hi.val E)) :
    ∃ t, floatType E [v, v'] = some t ∧ Good E (.float lo hi) m t := by
  obtain ⟨t, h1, h2, _, _, _, _, h3⟩ := floatType_ok h h'
  refine ⟨t, ?_, h2.good fun v _ _ => h3 _ v⟩
  simp only [floatType, hv, hv', Option.bind_some]
  exact h1

/-! ## Ternary types -/

/-- What is known of a list of types -/
theorem each_good {ps : List Pt} {ts : List Ty} (h : List.Forall₂ (fun p t => ∃ m, k < m ∧ Good E p m t) ps ts) :
    (∀ t ∈ ts, t.Acyc) ∧ (∀ t ∈ ts, ∀ o, t.occ o → k < base o) ∧ ∀ t ∈ ts, NilOk t := by
  induction h with
  | nil => simp
  | cons h _ ih =>
    obtain ⟨m, hm, g⟩ := h
    simp only [List.forall_mem_cons]
    exact ⟨⟨g.acyc, ih.1⟩, ⟨fun o ho => Nat.lt_of_lt_of_le hm (g.over o ho), ih.2.1⟩, ⟨g.nil, ih.2.2⟩⟩

theorem anyOf_parts {ts : List Ty} (h1 : ∀ t ∈ ts, t.Acyc) (h2 : ∀ t ∈ ts, ∀ o, t.occ o → k < base o) (h3 : ∀ t ∈ ts, NilOk t) :
    (Types.anyOfType (.user k) ts).Acyc ∧ (∀ o, (Types.anyOfType (.user k) ts).occ o → k ≤ base o) ∧ NilOk (Types.anyOfType (.user k) ts) := by
  unfold Types.anyOfType
  split
  · simp [Ty.Acyc, Ty.occ, NilOk]
  · rename_i t
    exact ⟨h1 t (by simp), fun o ho => Nat.le_of_lt (h2 t (by simp) o ho), h3 t (by simp)⟩
  · refine ⟨⟨?_, Acycs_iff.2 h1⟩, ?_, NilOks_iff.2 h3⟩
    · intro ho
      obtain ⟨t, ht, ho⟩ := occs_iff.1 ho
      have := h2 t ht _ ho
      simp only [base] at this
      omega
    · rintro o (rfl | ho)
      · exact Nat.le_refl _
      · obtain ⟨t, ht, ho⟩ := occs_iff.1 ho
        exact Nat.le_of_lt (h2 t ht o ho)

theorem good_variant {ps : List Pt} {ts : List Ty} (h : List.Forall₂ (fun p t => ∃ m, k < m ∧ Good E p m t) ps ts) :
    Good E (.variant ps) k (Types.anyOfType (.user k) ts) := by
  obtain ⟨h1, h2, h3⟩ := each_good h
  obtain ⟨g1, g2, g3⟩ := anyOf_parts h1 h2 h3
  refine ⟨g1, g2, g3, fun v hw hf => ?_, ?_⟩
  · rw [Types.C29_any_of g1]
    simp only [Den]
    clear g1 g2 g3 h1 h2 h3
    induction h with
    | nil => simp [DenAny]
    | cons h _ ih =>
      obtain ⟨m, hm, g⟩ := h
      rw [List.exists_mem_cons_iff, g.inst v hw hf, ih]
      simp [DenAny]
  · intro he
    cases h with
    | nil => cases he
    | cons h r =>
      cases r with
      | nil => obtain ⟨m, hm, g⟩ := h; exact g.undef he
      | cons _ _ => cases he

/-- A type that is one of two: see `good_variant` -/
theorem any_two {p q : Pt} {t u : Ty} (h1 : t.Acyc) (h2 : ∀ o, t.occ o → k < base o) (h3 : NilOk t)
    (h1' : u.Acyc) (h2' : ∀ o, u.occ o → k < base o) (h3' : NilOk u)
    (hi : ∀ v, Value.WF v → Fits v → ((instanceOf E.types t v = true ∨ instanceOf E.types u v = true) ↔ Den E p v)) :
    Good E p k (Types.anyOfType (.user k) [t, u]) := by
  obtain ⟨g1, g2, g3⟩ := anyOf_parts (k := k) (ts := [t, u]) (by simp [h1, h1']) (by simp; exact ⟨h2, h2'⟩) (by simp [h3, h3'])
  refine ⟨g1, g2, g3, fun v hw hf => ?_, by simp [Types.anyOfType]⟩
  rw [Types.C29_any_of g1, ← hi v hw hf]
  simp

theorem Leafy.two {p : Pt} {t u : Ty} (h : Leafy t) (h' : Leafy u)
    (hi : ∀ v, Value.WF v → Fits v → ((instanceOf E.types t v = true ∨ instanceOf E.types u v = true) ↔ Den E p v)) :
    Good E p k (Types.anyOfType (.user k) [t, u]) :=
  any_two (q := p) h.acyc (fun o ho => absurd ho (h.occ o)) h.nil h'.acyc (fun o ho => absurd ho (h'.occ o)) h'.nil hi

theorem good_numberAny (h : E.trunc Types.F64.min = Types.minI64) : ∃ t, numberType E (.user k) .floatT = some t ∧ Good E .numberAny k t := by
  have e : numberType E (.user k) .floatT = some (Types.anyOfType (.user k) [.intT, .floatT]) := by
    have e : numberType E (.user k) .floatT = (Types.integerType (E.trunc Types.F64.min) Types.maxI64 true).map fun it => Types.anyOfType (.user k) [it, .floatT] := rfl
    rw [e, h]
    rfl
  refine ⟨_, e, Leafy.two (by constructor <;> simp [Ty.Acyc, Ty.occ, NilOk]) (by constructor <;> simp [Ty.Acyc, Ty.occ, NilOk]) fun v _ _ => ?_⟩
  rw [instanceOf_has (by simp [Ty.Acyc]), instanceOf_has (by simp [Ty.Acyc])]
  cases v <;> simp [has, hasP, Den]

theorem good_number {lo hi : BitVec 64} (h : (Pt.number lo hi).Ok E) :
    ∃ t, (floatType E [.val (.int lo), .val (.int hi)]).bind (numberType E (.user k)) = some t ∧ Good E (.number lo hi) k t := by
  obtain ⟨h1, ⟨h2, n2⟩, ⟨h3, n3⟩, h4, h5, h6⟩ := h
  have hle : fle (E.ofInt lo) (E.ofInt hi) := by
    rcases h4 with rfl | h4
    · exact fle_key.2 ⟨n2, n2, Int.le_refl _⟩
    · exact Or.inl h4
  obtain ⟨t, e1, e2, e3, e4, e5, e6, e7⟩ := floatType_ok hle (by simp [h5])
  obtain ⟨it, i1, i2, i3⟩ := integerType_ok h1
  have e : floatType E [.val (.int lo), .val (.int hi)] = some t := by
    simp only [floatType, PV.float?, Option.bind_some]; exact e1
  have hmax : Value.F64.eq (floatMax t) Types.F64.max = false := by
    cases hc : Value.F64.eq (floatMax t) Types.F64.max with
    | false => rfl
    | true =>
      have a := (Value.F64.eq_iff _ _).1 hc
      have b := (Value.F64.eq_iff _ _).1 e4
      rw [show maxFloat = Types.F64.max from rfl] at h6
      rw [(Value.F64.eq_iff _ _).2 ⟨b.2.1, a.2.1, b.2.2.symm.trans a.2.2⟩] at h6
      cases h6
  have htr : E.trunc (floatMax t) = hi := by
    rcases e6 with e6 | e6
    · rw [e6, h3]
    · rw [e6]
      rcases h4 with rfl | h4
      · exact h2
      · rw [e6] at e4
        have := ((Value.F64.eq_iff _ _).1 e4).2.2
        simp [Value.F64.lt, n2, n3, this] at h4
  refine ⟨Types.anyOfType (.user k) [it, t], ?_, i2.two e2 fun v _ _ => ?_⟩
  · rw [e, Option.bind_some, numberType]
    simp only [hmax, e5, h2, htr, i1, Bool.false_eq_true, if_false, Option.map_some]
  · rw [i3, e7]
    simp only [Den]

end Verif.Pcore
