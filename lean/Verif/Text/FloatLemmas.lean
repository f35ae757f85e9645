import Verif.Text.FloatSpec
import Verif.Text.Relex
import Mathlib.Tactic.Ring
import Mathlib.Tactic.NormNum
import Mathlib.Tactic.FieldSimp
/-!
# Lemmas on the texts of floats
-/
set_option autoImplicit false
set_option linter.unusedVariables false
set_option linter.unusedSimpArgs false
namespace Verif.Text
open Verif.Value (Str F64)
open Verif.Types (Finite magUnits)

theorem dch_toNat {d : Nat} (h : d < 10) : (dch d).toNat = 48 + d := by
  unfold dch; rw [UInt8.toNat_ofNat']; omega

theorem digits_map {ds : List Nat} (h0 : ds ≠ []) (h : ∀ d ∈ ds, d < 10) : Digits (ds.map dch) := by
  refine ⟨by simpa using h0, ?_⟩
  intro b hb
  obtain ⟨d, hd, rfl⟩ := List.mem_map.mp hb
  have := h d hd
  rw [dch_toNat this]; omega

theorem numberOf_map {ds : List Nat} (h : ∀ d ∈ ds, d < 10) : numberOf (ds.map dch) = number ds := by
  unfold numberOf
  rw [List.map_map]
  congr 1
  conv => rhs; rw [← List.map_id ds]
  apply List.map_congr_left
  intro d hd
  have := h d hd
  simp only [Function.comp, id, dch_toNat this]; omega

theorem foldl_number (ds : List Nat) : ∀ a, ds.foldl (fun a d => 10 * a + d) a = a * 10 ^ ds.length + number ds := by
  unfold number
  induction ds with
  | nil => intro a; simp
  | cons d ds ih =>
    intro a
    rw [List.foldl_cons, List.foldl_cons, ih, ih (10 * 0 + d), List.length_cons]
    ring

theorem number_append (a b : List Nat) : number (a ++ b) = number a * 10 ^ b.length + number b := by
  unfold number
  rw [List.foldl_append, foldl_number]; rfl

theorem number_zeros (n : Nat) : number (List.replicate n 0) = 0 := by
  induction n with
  | zero => rfl
  | succ n ih =>
    rw [List.replicate_succ']
    rw [number_append, ih]; rfl

theorem replicate_dch (n : Nat) : List.replicate n (48 : UInt8) = (List.replicate n 0).map dch := by
  rw [List.map_replicate]; rfl

/-- the digits of a float before and after the decimal point -/
theorem fmtF_parts (d : Dec) (h : ∀ x ∈ d.ds, x < 10) : ∃ w fr : List Nat, (∀ x ∈ w, x < 10) ∧ (∀ x ∈ fr, x < 10) ∧ w ≠ [] ∧
    fmtF d = (if d.neg then [45] else []) ++ w.map dch ++ (if fr = [] then [] else 46 :: fr.map dch) ∧
    (number (w ++ fr) : ℚ) * (10 : ℚ) ^ (-(fr.length : Int)) = d.magnitude := by
  have ten : (10 : ℚ) ≠ 0 := by norm_num
  rcases Int.lt_or_le 0 d.dp with hp | hp
  · refine ⟨d.ds.take d.dp.toNat ++ List.replicate (d.dp.toNat - d.ds.length) 0, d.ds.drop d.dp.toNat, ?_, ?_, ?_, ?_, ?_⟩
    · intro x hx
      rcases List.mem_append.mp hx with hx | hx
      · exact h x (List.mem_of_mem_take hx)
      · rw [(List.mem_replicate.mp hx).2]; omega
    · intro x hx; exact h x (List.mem_of_mem_drop hx)
    · intro e
      have := congrArg List.length e
      rw [List.length_append, List.length_take, List.length_replicate, List.length_nil] at this; omega
    · unfold fmtF
      dsimp only
      rw [if_pos hp, replicate_dch, ← List.map_append]
      congr 1
      by_cases hl : d.ds.length ≤ d.dp.toNat
      · rw [if_neg (by omega), if_pos (List.drop_eq_nil_of_le hl)]
      · rw [if_pos (by omega), if_neg (by rw [List.drop_eq_nil_iff]; omega)]
        congr 1
        apply List.ext_getElem
        · simp; omega
        · intro i h1 h2
          simp only [List.length_map, List.length_range, List.length_drop] at h1 h2
          simp only [List.getElem_map, List.getElem_range, List.getElem_drop]
          rw [if_pos (by omega)]
          have e : (d.dp + (i : Int)).toNat = d.dp.toNat + i := by omega
          rw [e, List.getD_eq_getElem?_getD, List.getElem?_eq_getElem (by omega)]
          rfl
    · unfold Dec.magnitude
      by_cases hl : d.ds.length ≤ d.dp.toNat
      · rw [List.drop_eq_nil_of_le hl, List.append_nil, List.take_of_length_le hl, number_append, number_zeros, List.length_replicate]
        have e : d.dp - (d.ds.length : Int) = ((d.dp.toNat - d.ds.length : Nat) : Int) := by omega
        rw [e, zpow_natCast]
        simp
      · have e : d.dp.toNat - d.ds.length = 0 := by omega
        rw [e, List.replicate_zero, List.append_nil, List.take_append_drop, List.length_drop]
        congr 2
        omega
  · refine ⟨[0], List.replicate (-d.dp).toNat 0 ++ d.ds, by simp, ?_, by simp, ?_, ?_⟩
    · intro x hx
      rcases List.mem_append.mp hx with hx | hx
      · rw [(List.mem_replicate.mp hx).2]; omega
      · exact h x hx
    · unfold fmtF
      dsimp only
      rw [if_neg (show ¬ d.dp > 0 by omega)]
      congr 1
      by_cases hl : 0 < (d.ds.length - d.dp).toNat
      · rw [if_pos hl, if_neg (by
          intro e; have := congrArg List.length e; rw [List.length_append, List.length_replicate, List.length_nil] at this; omega)]
        congr 1
        apply List.ext_getElem
        · simp; omega
        · intro i h1 h2
          simp only [List.length_map, List.length_range, List.length_append, List.length_replicate] at h1 h2
          simp only [List.getElem_map, List.getElem_range]
          by_cases hi : 0 ≤ d.dp + i
          · rw [if_pos hi, List.getElem_append_right (by simp; omega), List.getD_eq_getElem?_getD, List.getElem?_eq_getElem (by omega)]
            simp only [Option.getD_some, List.length_replicate]
            congr 2
            omega
          · rw [if_neg hi, List.getElem_append_left (by simp; omega), List.getElem_replicate]
            rfl
      · rw [if_neg hl, if_pos]
        apply List.eq_nil_of_length_eq_zero
        rw [List.length_append, List.length_replicate]; omega
    · unfold Dec.magnitude
      rw [number_append, number_append, number_zeros]
      have e : -((List.replicate (-d.dp).toNat 0 ++ d.ds).length : Int) = d.dp - d.ds.length := by simp; omega
      rw [e]
      simp [number]

theorem expDigits_ok {e : Nat} (h : e < 1000) : ∃ xs : List Nat, xs ≠ [] ∧ (∀ x ∈ xs, x < 10) ∧ expDigits e = xs.map dch ∧ number xs = e := by
  unfold expDigits
  split
  · exact ⟨[0, e], by simp, by simp; omega, rfl, by simp [number]⟩
  · split
    · exact ⟨[e / 10, e % 10], by simp, by simp; omega, rfl, by simp [number]; omega⟩
    · exact ⟨[e / 100, e / 10 % 10, e % 10], by simp, by simp; omega, rfl, by simp [number]; omega⟩

/-- the digits of a float with an exponent -/
theorem fmtE_parts (d : Dec) (h : ∀ x ∈ d.ds, x < 10) (h0 : d.ds ≠ []) (he : -323 ≤ d.dp ∧ d.dp ≤ 309) :
    ∃ w : List Nat, ∃ fr xs : List Nat, ∃ es : UInt8, (∀ x ∈ w, x < 10) ∧ (∀ x ∈ fr, x < 10) ∧ (∀ x ∈ xs, x < 10) ∧ w ≠ [] ∧ xs ≠ [] ∧
    (es = 43 ∨ es = 45) ∧
    fmtE d = (if d.neg then [45] else []) ++ w.map dch ++ (if fr = [] then [] else 46 :: fr.map dch) ++ [69] ++ [es] ++ xs.map dch ∧
    (number (w ++ fr) : ℚ) * (10 : ℚ) ^ ((if es = 45 then -(number xs : Int) else number xs) - (fr.length : Int)) = d.magnitude := by
  obtain ⟨neg, ds, dp⟩ := d
  cases ds with
  | nil => exact absurd rfl h0
  | cons x ds =>
    simp only at he h
    obtain ⟨xs, hx0, hx, hxe, hxn⟩ := expDigits_ok (e := (dp - 1).natAbs) (by omega)
    refine ⟨[x], ds, xs, if dp - 1 < 0 then 45 else 43, by simpa using h x (by simp), fun y hy => h y (by simp [hy]), hx, by simp, hx0, ?_, ?_, ?_⟩
    · split <;> simp
    · unfold fmtE
      simp only [reduceCtorEq, if_false, List.map_cons, List.map_nil, hxe]
      cases ds <;> simp
    · unfold Dec.magnitude
      rw [hxn]
      simp only [List.cons_append, List.nil_append, List.length_cons]
      congr 2
      split
      · rw [if_pos rfl]; omega
      · rw [if_neg (by decide)]; omega

theorem takeWhile_digits {ds : Str} (h : ∀ b ∈ ds, 48 ≤ b.toNat ∧ b.toNat ≤ 57) {rest : Str} (hr : ∀ b ∈ rest.head?, isDig b = false) :
    (ds ++ rest).takeWhile isDig = ds ∧ (ds ++ rest).dropWhile isDig = rest := by
  have hd : ∀ b ∈ ds, isDig b = true := fun b hb => by unfold isDig; simpa using h b hb
  have hw : rest.takeWhile isDig = [] ∧ rest.dropWhile isDig = rest := by
    cases rest with
    | nil => exact ⟨rfl, rfl⟩
    | cons b t =>
      have := hr b rfl
      simp [List.takeWhile_cons, List.dropWhile_cons, this]
  constructor
  · rw [List.takeWhile_append_of_pos hd, hw.1, List.append_nil]
  · rw [List.dropWhile_append_of_pos hd, hw.2]

theorem unsigned_sign {sg : Str} (hs : sg = [] ∨ sg = [45]) {ds : Str} (hd : Digits ds) (rest : Str) :
    unsignedOf (sg ++ (ds ++ rest)) = ds ++ rest ∧ negative (sg ++ (ds ++ rest)) = decide (sg = [45]) := by
  obtain ⟨h0, h1⟩ := hd
  cases ds with
  | nil => exact absurd rfl h0
  | cons b t =>
    have hb := h1 b (by simp)
    have : b ≠ 45 := by rintro rfl; exact absurd hb.1 (by decide)
    rcases hs with rfl | rfl
    · constructor
      · unfold unsignedOf
        split
        · rename_i heq; simp at heq; exact absurd heq.1 this
        · simp
      · unfold negative
        split
        · rename_i heq; simp at heq; exact absurd heq.1 this
        · simp
    · exact ⟨rfl, rfl⟩

/-- the number of a text of this shape -/
theorem magnitude_shape {sg : Str} (hs : sg = [] ∨ sg = [45]) {w fr : List Nat} (hw0 : w ≠ []) (hw : ∀ x ∈ w, x < 10) (hf : ∀ x ∈ fr, x < 10)
    {ex : Str} (hx : ex = [] ∨ ∃ t, ex = 69 :: t) :
    magnitude (sg ++ w.map dch ++ (if fr = [] then [] else 46 :: fr.map dch) ++ ex) =
      (number (w ++ fr) : ℚ) * (10 : ℚ) ^ (exponentOf ex - (fr.length : Int)) ∧
    negative (sg ++ w.map dch ++ (if fr = [] then [] else 46 :: fr.map dch) ++ ex) = decide (sg = [45]) := by
  have hd := digits_map hw0 hw
  have hu := unsigned_sign hs hd ((if fr = [] then [] else 46 :: fr.map dch) ++ ex)
  simp only [List.append_assoc] at hu ⊢
  refine ⟨?_, hu.2⟩
  have hex : ∀ b ∈ ex.head?, isDig b = false := by
    rcases hx with rfl | ⟨t, rfl⟩
    · simp
    · intro b hb; cases hb; decide
  unfold magnitude
  rw [hu.1]
  dsimp only
  by_cases h0 : fr = []
  · subst h0
    rw [if_pos rfl, List.nil_append, (takeWhile_digits hd.2 hex).1, (takeWhile_digits hd.2 hex).2]
    have : fractionOf ex = ([], ex) := by rcases hx with rfl | ⟨t, rfl⟩ <;> rfl
    rw [this]
    simp only [List.append_nil, numberOf_map hw, List.length_nil]
  · have hh : ∀ b ∈ ((46 :: fr.map dch) ++ ex).head?, isDig b = false := by intro b hb; cases hb; decide
    rw [if_neg h0, (takeWhile_digits hd.2 hh).1, (takeWhile_digits hd.2 hh).2]
    have hfd := digits_map h0 hf
    have : fractionOf ((46 :: fr.map dch) ++ ex) = (fr.map dch, ex) := by
      show ((fr.map dch ++ ex).takeWhile isDig, (fr.map dch ++ ex).dropWhile isDig) = _
      rw [(takeWhile_digits hfd.2 hex).1, (takeWhile_digits hfd.2 hex).2]
    rw [this]
    simp only [← List.map_append, List.length_map]
    rw [numberOf_map]
    intro x hx
    rcases List.mem_append.mp hx with hx | hx
    · exact hw x hx
    · exact hf x hx

end Verif.Text
