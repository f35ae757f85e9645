import Verif.Pcore.Read
import Verif.Types.AssignNil
import Verif.Types.AssignProps
/-!
# The types that are made of the arguments
-/
set_option autoImplicit false
set_option linter.unusedVariables false
set_option linter.unusedSimpArgs false
set_option linter.unnecessarySeqFocus false
namespace Verif.Pcore
open Verif.Value (Str Val F64 eq)
open Verif.Types (Ty Oid maxInt instanceOf NilOk NilOks instanceOf_has has hasP Fits)
open Verif.Text

def base : Oid → Nat
  | .user n => n
  | .part o _ => base o

/-- The type is one that the expression describes; `m` is a lower bound of the identities in it. -/
structure Good (E : Env) (p : Pt) (m : Nat) (t : Ty) : Prop where
  acyc : t.Acyc
  over : ∀ o, t.occ o → m ≤ base o
  nil : NilOk t
  inst : ∀ v, Value.WF v → Fits v → (instanceOf E.types t v = true ↔ Den E p v)
  undef : t = .nilT → p.onlyUndef = true

theorem Good.fresh {E : Env} {p : Pt} {m k : Nat} {t : Ty} (h : Good E p m t) (hk : k < m) : ¬ t.occ (.user k) := by
  intro ho
  have := h.over _ ho
  simp only [base] at this
  omega

variable {E : Env} {m : Nat}

macro "leaf" : tactic => `(tactic| exact ⟨by simp [Ty.Acyc], by simp [Ty.occ], by simp [NilOk],
  fun v hw hf => by rw [instanceOf_has (by simp [Ty.Acyc])]; cases v <;> simp [has, hasP, Den, eq, Lim.holds], by simp [Pt.onlyUndef]⟩)

theorem good_any : Good E .any m .any := by leaf
theorem good_optionalAny : Good E .optionalAny m .any := by leaf
theorem good_undef : Good E .undef m .nilT := by leaf
theorem good_boolean : Good E .boolean m .boolT := by leaf
theorem good_true : Good E .trueT m (.exact (.bool true)) := by leaf
theorem good_false : Good E .falseT m (.exact (.bool false)) := by leaf
theorem good_timestamp : Good E .timestamp m .timeT := by leaf
theorem good_integer : Good E (.integer .all) m .intT := by leaf
theorem good_float : Good E .floatAny m .floatT := by leaf
theorem good_string : Good E .stringAny m .strT := by leaf
theorem good_enumAny : Good E .enumAny m .strT := by leaf
theorem good_patternAny : Good E .patternAny m .strT := by leaf
theorem good_regexpAny : Good E .regexpAny m .regexpT := by leaf
theorem good_arrayAny : Good E (.arrayAny .all) m .arrT := by leaf
theorem good_hashAny : Good E (.hashAny .all) m .mapT := by leaf
theorem good_stringVal (s : Str) : Good E (.stringVal s) m (.exact (.str s)) :=
  ⟨by simp [Ty.Acyc], by simp [Ty.occ], by simp [NilOk], fun v hw hf => by
    rw [instanceOf_has (by simp [Ty.Acyc])]; cases v <;> simp [has, hasP, Den, eq]; exact eq_comm, by simp [Pt.onlyUndef]⟩
theorem good_regexp (s : Str) : Good E (.regexp s) m (.exact (.regexp s)) :=
  ⟨by simp [Ty.Acyc], by simp [Ty.occ], by simp [NilOk], fun v hw hf => by
    rw [instanceOf_has (by simp [Ty.Acyc])]; cases v <;> simp [has, hasP, Den, eq]; exact eq_comm, by simp [Pt.onlyUndef]⟩


/-! ## Integers and sizes -/

/-- Nothing but the instances is open. -/
structure Leafy (t : Ty) : Prop where
  acyc : t.Acyc
  occ : ∀ o, ¬ t.occ o
  nil : NilOk t
  ne : t ≠ .nilT

theorem Leafy.good {t : Ty} {p : Pt} (h : Leafy t) (hi : ∀ v, Value.WF v → Fits v → (instanceOf E.types t v = true ↔ Den E p v)) : Good E p m t :=
  ⟨h.acyc, fun o ho => absurd ho (h.occ o), h.nil, hi, fun e => absurd e h.ne⟩

theorem integerType_ok {lo hi : BitVec 64} (h : lo.toInt ≤ hi.toInt) : ∃ t, Types.integerType lo hi true = some t ∧ Leafy t ∧
    ∀ (E : Types.Env) (v : Val), instanceOf E t v = true ↔ ∃ i : BitVec 64, v = .int i ∧ lo.toInt ≤ i.toInt ∧ i.toInt ≤ hi.toInt := by
  obtain ⟨t, ht, hl⟩ : ∃ t, Types.integerType lo hi true = some t ∧ Leafy t := by
    unfold Types.integerType
    by_cases he : lo = hi
    · rw [if_pos he]; exact ⟨_, rfl, by constructor <;> simp [Ty.Acyc, Ty.occ, NilOk]⟩
    · rw [if_neg he]
      generalize (if hi.slt lo = true then (hi, lo) else (lo, hi)) = x
      dsimp only
      by_cases hc : x.1 = Types.minI64 ∧ x.2 = Types.maxI64
      · rw [if_pos hc]; exact ⟨_, rfl, by constructor <;> simp [Ty.Acyc, Ty.occ, NilOk]⟩
      · rw [if_neg hc]; exact ⟨_, rfl, by constructor <;> simp [Ty.Acyc, Ty.occ, NilOk]⟩
  refine ⟨t, ht, hl, fun E v => ?_⟩
  rw [Types.C24_instance_partial ht (Or.inl rfl) v]
  unfold Types.InRange
  simp only [if_true, Int.min_eq_left h, Int.max_eq_right h]

/-- What a limit is read as -/
def limVal : Option (BitVec 64) → PV
  | none => .val (.str defaultLiteral)
  | some i => .val (.int i)

theorem int_limVal (l : Option (BitVec 64)) (d : BitVec 64) : (limVal l).int? d = some (l.getD d) := by
  cases l <;> simp [limVal, PV.int?]

theorem reads_lim {S : SEnv} (l : Option (BitVec 64)) : Reads E (tk S [limPc l]) fun _ v => v = limVal l := by
  cases l
  · exact reads_dflt
  · exact reads_int _

theorem toInt_min : Types.minI64.toInt = -2 ^ 63 := by decide
theorem toInt_max : Types.maxI64.toInt = 2 ^ 63 - 1 := by decide
theorem toInt_bounds (i : BitVec 64) : -2 ^ 63 ≤ i.toInt ∧ i.toInt ≤ 2 ^ 63 - 1 := by
  have h1 := BitVec.le_toInt i
  have h2 := BitVec.toInt_lt (x := i)
  constructor
  · simpa using h1
  · simp at h2; omega

theorem above_getD (l : Option (BitVec 64)) (i : BitVec 64) : (l.getD Types.minI64).toInt ≤ i.toInt ↔ above l i.toInt := by
  cases l with
  | none => simp only [Option.getD_none, toInt_min, above, iff_true]; exact (toInt_bounds i).1
  | some a => rfl

theorem below_getD (l : Option (BitVec 64)) (i : BitVec 64) : i.toInt ≤ (l.getD Types.maxI64).toInt ↔ below l i.toInt := by
  cases l with
  | none => simp only [Option.getD_none, toInt_max, below, iff_true]; exact (toInt_bounds i).2
  | some a => rfl

theorem maxI64_toInt : Types.maxI64.toInt = maxInt := by decide

theorem good_integerLow (lo : Option (BitVec 64)) : ∃ t, integerType [limVal lo] = some t ∧ Good E (.integer (.low lo)) m t := by
  simp only [integerType, int_limVal, Option.bind_some]
  obtain ⟨t, h1, h2, h3⟩ := integerType_ok (lo := lo.getD Types.minI64) (hi := Types.maxI64) (by rw [toInt_max]; exact (toInt_bounds _).2)
  refine ⟨t, h1, h2.good fun v _ _ => ?_⟩
  rw [h3]
  simp only [Den, Lim.holds, above_getD]
  have := below_getD none
  simp only [Option.getD_none] at this
  simp [this, below]

theorem good_integerBoth {lo hi : Option (BitVec 64)} (h : (Lim.both lo hi).ordered) :
    ∃ t, integerType [limVal lo, limVal hi] = some t ∧ Good E (.integer (.both lo hi)) m t := by
  simp only [integerType, int_limVal, Option.bind_some]
  obtain ⟨t, h1, h2, h3⟩ := integerType_ok (lo := lo.getD Types.minI64) (hi := hi.getD Types.maxI64) (by
    cases lo with
    | none => simp only [Option.getD_none, toInt_min]; exact (toInt_bounds _).1
    | some a =>
      cases hi with
      | none => simp only [Option.getD_none, toInt_max]; exact (toInt_bounds _).2
      | some b => exact h)
  refine ⟨t, h1, h2.good fun v _ _ => ?_⟩
  rw [h3]
  simp only [Den, Lim.holds, above_getD, below_getD]

/-- The sizes are what the limits say. -/
theorem inSize_both {lo hi : Option (BitVec 64)} (h : (Lim.both lo hi).size) {n : Nat} (hn : (n : Int) ≤ maxInt) :
    Types.InSize (lo.getD 0).toInt (hi.getD Types.maxI64).toInt n ↔ (Lim.both lo hi).holds n := by
  obtain ⟨h1, h2, h3⟩ := h
  unfold Types.InSize
  simp only [Lim.holds]
  have z : (0 : BitVec 64).toInt = 0 := by decide
  have hm : (0 : Int) ≤ maxInt := by decide
  have key : ∀ a b : Int, 0 ≤ a → a ≤ b → Min.min (Max.max 0 a) (Max.max 0 b) = a ∧ Max.max (Max.max 0 a) (Max.max 0 b) = b := by
    intro a b h h'
    have hb : 0 ≤ b := Int.le_trans h h'
    rw [Int.max_eq_right h, Int.max_eq_right hb, Int.min_eq_left h', Int.max_eq_right h']
    exact ⟨rfl, rfl⟩
  cases lo with
  | none =>
    cases hi with
    | none =>
      simp only [Option.getD_none, maxI64_toInt, z, above, below]
      rw [(key 0 maxInt (Int.le_refl _) hm).1, (key 0 maxInt (Int.le_refl _) hm).2]
      exact ⟨fun _ => ⟨trivial, trivial⟩, fun _ => ⟨by omega, hn⟩⟩
    | some b =>
      have hb := h2 b rfl
      simp only [Option.getD_none, Option.getD_some, z, above, below]
      rw [(key 0 _ (Int.le_refl _) hb).1, (key 0 _ (Int.le_refl _) hb).2]
      exact ⟨fun h => ⟨trivial, h.2⟩, fun h => ⟨by omega, h.2⟩⟩
  | some a =>
    have ha := h1 a rfl
    cases hi with
    | none =>
      have hb : a.toInt ≤ maxInt := by rw [← maxI64_toInt, toInt_max]; exact (toInt_bounds a).2
      simp only [Option.getD_none, Option.getD_some, maxI64_toInt, above, below]
      rw [(key _ _ ha hb).1, (key _ _ ha hb).2]
      exact ⟨fun h => ⟨h.1, trivial⟩, fun h => ⟨h.1, hn⟩⟩
    | some b =>
      have hb := h3 a b rfl rfl
      simp only [Option.getD_some, above, below]
      rw [(key _ _ ha hb).1, (key _ _ ha hb).2]

theorem inSize_low {lo : Option (BitVec 64)} (h : (Lim.low lo).size) {n : Nat} (hn : (n : Int) ≤ maxInt) :
    Types.InSize (lo.getD 0).toInt maxInt n ↔ (Lim.low lo).holds n := by
  have := inSize_both (lo := lo) (hi := none) ⟨h, by simp, by simp⟩ hn
  simp only [Option.getD_none, maxI64_toInt] at this
  rw [this]
  simp [Lim.holds, below]

theorem inSize_all {n : Nat} (hn : (n : Int) ≤ maxInt) : Types.InSize 0 maxInt n ↔ Lim.all.holds n := by
  have := inSize_low (lo := none) (by simp [Lim.size]) hn
  simp only [Option.getD_none] at this
  rw [show (0 : BitVec 64).toInt = 0 by decide] at this
  rw [this]
  simp [Lim.holds, above]

theorem leafy_str (lo hi : Int) : Leafy (Types.sizedStringType lo hi) := by
  obtain ⟨a, b, _, h, _⟩ := Types.sizes_swap lo hi
  rw [h]
  split <;> constructor <;> simp [Ty.Acyc, Ty.occ, NilOk]

theorem leafy_bin (lo hi : Int) : Leafy (Types.sizedBinaryType lo hi) := by
  obtain ⟨a, b, _, _, h⟩ := Types.sizes_swap lo hi
  rw [h]
  constructor <;> simp [Ty.Acyc, Ty.occ, NilOk]

theorem good_stringLow {lo : BitVec 64} (h : 0 ≤ lo.toInt) : ∃ t, stringType [.val (.int lo)] = some t ∧ Good E (.stringLow lo) m t := by
  refine ⟨_, rfl, (leafy_str _ _).good fun v _ hf => ?_⟩
  rw [Types.C30_string _ _ hf]
  have key := @inSize_low (some lo) (by simpa [Lim.size] using h)
  constructor
  · rintro ⟨s, rfl, hs⟩; exact ⟨s, rfl, (key hf).1 hs⟩
  · rintro ⟨s, rfl, hs⟩; exact ⟨s, rfl, (key hf).2 hs⟩

theorem good_stringBoth {lo hi : BitVec 64} (h : 0 ≤ lo.toInt) (h' : lo.toInt ≤ hi.toInt) :
    ∃ t, stringType [.val (.int lo), .val (.int hi)] = some t ∧ Good E (.string lo hi) m t := by
  refine ⟨_, rfl, (leafy_str _ _).good fun v _ hf => ?_⟩
  rw [Types.C30_string _ _ hf]
  have key := @inSize_both (some lo) (some hi) (by refine ⟨?_, ?_, ?_⟩ <;> simp <;> omega)
  constructor
  · rintro ⟨s, rfl, hs⟩; exact ⟨s, rfl, (key hf).1 hs⟩
  · rintro ⟨s, rfl, hs⟩; exact ⟨s, rfl, (key hf).2 hs⟩

theorem good_binaryLow {lo : Option (BitVec 64)} (h : (Lim.low lo).size) : ∃ t, binaryType [limVal lo] = some t ∧ Good E (.binary (.low lo)) m t := by
  simp only [binaryType, int_limVal, Option.map_some]
  refine ⟨_, rfl, (leafy_bin _ _).good fun v _ hf => ?_⟩
  rw [Types.C30_binary _ _ v]
  constructor
  · rintro ⟨s, rfl, hs⟩; exact ⟨s, rfl, (inSize_low h hf).1 hs⟩
  · rintro ⟨s, rfl, hs⟩; exact ⟨s, rfl, (inSize_low h hf).2 hs⟩

theorem good_binaryBoth {lo hi : Option (BitVec 64)} (h : (Lim.both lo hi).size) :
    ∃ t, binaryType [limVal lo, limVal hi] = some t ∧ Good E (.binary (.both lo hi)) m t := by
  simp only [binaryType, int_limVal, Option.map_some, Option.bind_some]
  refine ⟨_, rfl, (leafy_bin _ _).good fun v _ hf => ?_⟩
  rw [Types.C30_binary _ _ v]
  constructor
  · rintro ⟨s, rfl, hs⟩; exact ⟨s, rfl, (inSize_both h hf).1 hs⟩
  · rintro ⟨s, rfl, hs⟩; exact ⟨s, rfl, (inSize_both h hf).2 hs⟩

theorem good_binaryAll : Good E (.binary .all) m (.bin 0 maxInt) := by
  refine Leafy.good (by constructor <;> simp [Ty.Acyc, Ty.occ, NilOk]) fun v _ hf => ?_
  rw [instanceOf_has (by simp [Ty.Acyc])]
  cases v <;> simp [has, hasP, Den, Lim.holds]
  exact ⟨Int.natCast_nonneg _, hf⟩

end Verif.Pcore
