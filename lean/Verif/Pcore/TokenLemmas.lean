import Verif.Text.TokenProps
import Verif.Pcore.TokenSpec
/-!
# Names and comments: lemmas
-/
set_option autoImplicit false
set_option linter.unusedVariables false
set_option linter.unusedSimpArgs false
namespace Verif.Pcore
open Verif.Value (Str)
open Verif.Text

theorem comment_iff {i i' : In} : consumeComment i = .ok i' ↔
    (∃ cs e, (∀ c ∈ cs, c ≠ 0 ∧ c ≠ 10) ∧ (e = 10 ∨ e = 0) ∧ i = (cs ++ [e]).map some ++ i') ∨
    (∃ cs : List Nat, (∀ c ∈ cs, c ≠ 0 ∧ c ≠ 10) ∧ i = cs.map some ∧ i' = []) := by
  induction i with
  | nil =>
    constructor
    · intro h; cases h; exact .inr ⟨[], by simp, rfl, rfl⟩
    · rintro (⟨cs, e, -, -, h⟩ | ⟨cs, -, -, rfl⟩)
      · simp at h
      · rfl
  | cons c t ih =>
    cases c with
    | none =>
      constructor
      · intro h; cases h
      · rintro (⟨cs, e, -, -, h⟩ | ⟨cs, -, h, -⟩)
        · cases cs <;> simp at h
        · cases cs <;> simp at h
    | some r =>
      rw [consumeComment]
      split
      · rename_i hr
        constructor
        · intro h; cases h; clear ih; exact .inl ⟨[], r, by simp, by omega, rfl⟩
        · rintro (⟨cs, e, h1, -, h⟩ | ⟨cs, h1, h, -⟩)
          · cases cs with
            | nil => cases h; rfl
            | cons d cs =>
              obtain ⟨rfl, -⟩ : r = d ∧ _ := by simpa using h
              have := h1 r (by simp)
              omega
          · cases cs with
            | nil => cases h
            | cons d cs =>
              obtain ⟨rfl, -⟩ : r = d ∧ _ := by simpa using h
              have := h1 r (by simp)
              omega
      · rename_i hr
        rw [ih]
        clear ih
        have hr' : r ≠ 0 ∧ r ≠ 10 := by omega
        constructor
        · rintro (⟨cs, e, h1, he, rfl⟩ | ⟨cs, h1, rfl, rfl⟩)
          · exact .inl ⟨r :: cs, e, by simpa using ⟨hr', h1⟩, he, rfl⟩
          · exact .inr ⟨r :: cs, by simpa using ⟨hr', h1⟩, rfl, rfl⟩
        · rintro (⟨cs, e, h1, he, h⟩ | ⟨cs, h1, h, rfl⟩)
          · cases cs with
            | nil => obtain ⟨rfl, rfl⟩ : r = e ∧ t = i' := by simpa using h
                     omega
            | cons d cs =>
              obtain ⟨rfl, rfl⟩ : r = d ∧ t = _ := by simpa using h
              exact .inl ⟨cs, e, fun c hc => h1 c (by simp [hc]), he, by simp⟩
          · cases cs with
            | nil => cases h
            | cons d cs =>
              obtain ⟨rfl, rfl⟩ : r = d ∧ t = _ := by simpa using h
              exact .inr ⟨cs, fun c hc => h1 c (by simp [hc]), rfl, rfl⟩

theorem name_colon : ¬ NameChar 58 := by unfold NameChar; decide

theorem NameTail.cons_inv {first : Nat → Prop} {c : Nat} {s : List Nat} (h : NameTail first (c :: s)) :
    (NameChar c ∧ NameTail first s) ∨ (c = 58 ∧ ∃ d s', s = 58 :: d :: s' ∧ first d ∧ NameTail first s') := by
  cases h with
  | char h hs => exact .inl ⟨h, hs⟩
  | segment h hs => exact .inr ⟨rfl, _, _, rfl, h, hs⟩

theorem name_iff {st : Nat → Bool} {first : Nat → Prop} (hst : ∀ c, st c = true ↔ first c) {buf : Str} {i i' : In} {b : Str} :
    nameLoop st buf i = .ok (i', b) ↔ ∃ cs, NameTail first cs ∧ i = cs.map some ++ i' ∧ b = buf ++ textOf cs ∧ Then NameEnd i' := by
  have empty : ∀ {i : In} {c : Nat} {t : In} {buf : Str}, i = some c :: t → ¬ NameChar c → c ≠ 58 →
      ((.ok (i, buf) : Lex (In × Str)) = .ok (i', b) ↔ ∃ cs, NameTail first cs ∧ i = cs.map some ++ i' ∧ b = buf ++ textOf cs ∧ Then NameEnd i') := by
    intro i c t buf hi hc h58
    constructor
    · intro h; cases h
      exact ⟨[], .nil, rfl, by simp [textOf_nil], by rw [hi]; exact Then.head.2 ⟨hc, h58⟩⟩
    · rintro ⟨cs, h1, h2, rfl, h4⟩
      cases cs with
      | nil => rw [List.map_nil, List.nil_append] at h2; rw [h2, textOf_nil, List.append_nil]
      | cons d cs =>
        rw [hi] at h2
        obtain ⟨rfl, -⟩ : c = d ∧ _ := by simpa using h2
        rcases h1.cons_inv with ⟨h, -⟩ | ⟨h, -⟩
        · exact absurd h hc
        · exact absurd h h58
  have bad : ∀ {t : In} {buf : Str} {e : Err}, (∀ d t', t = some 58 :: some d :: t' → ¬ first d) →
      ((.error e : Lex (In × Str)) = .ok (i', b) ↔ ∃ cs, NameTail first cs ∧ some 58 :: t = cs.map some ++ i' ∧ b = buf ++ textOf cs ∧ Then NameEnd i') := by
    intro t buf e ht
    constructor
    · intro h; cases h
    · rintro ⟨cs, h1, h2, rfl, h4⟩
      cases cs with
      | nil =>
        rw [List.map_nil, List.nil_append] at h2
        rw [← h2] at h4
        exact absurd rfl (Then.head.1 h4).2
      | cons d cs =>
        obtain ⟨rfl, rfl⟩ : 58 = d ∧ t = _ := by simpa using h2
        rcases h1.cons_inv with ⟨h, -⟩ | ⟨-, d, s', rfl, h, -⟩
        · exact absurd h name_colon
        · exact absurd h (ht d _ rfl)
  fun_induction nameLoop st buf i with
  | case1 buf =>
    constructor
    · intro h; cases h; exact ⟨[], .nil, rfl, by simp [textOf_nil], .inl rfl⟩
    · rintro ⟨cs, h1, h2, rfl, h4⟩
      obtain ⟨h3, rfl⟩ := List.append_eq_nil_iff.1 h2.symm
      rw [List.map_eq_nil_iff] at h3
      subst h3
      simp [textOf_nil]
  | case2 buf t =>
    constructor
    · intro h; cases h
    · rintro ⟨cs, h1, h2, rfl, h4⟩
      cases cs with
      | nil =>
        rw [List.map_nil, List.nil_append] at h2
        rw [← h2] at h4
        exact absurd h4 Then.not_none
      | cons d cs => simp at h2
  | case3 buf t => exact empty rfl (by unfold NameChar; decide) (by decide)
  | case4 buf => exact bad (by simp)
  | case5 buf => exact bad (by simp)
  | case6 buf => exact bad (by simp)
  | case7 buf => exact bad (by simp)
  | case8 buf r3 t3 h h0 ih =>
    refine Iff.trans ih ?_
    constructor
    · rintro ⟨cs, h1, rfl, rfl, h4⟩
      exact ⟨58 :: 58 :: r3 :: cs, .segment ((hst _).1 h) h1, rfl, by simp [textOf_cons]; rfl, h4⟩
    · rintro ⟨cs, h1, h2, rfl, h4⟩
      cases cs with
      | nil =>
        rw [List.map_nil, List.nil_append] at h2
        rw [← h2] at h4
        exact absurd rfl (Then.head.1 h4).2
      | cons d cs =>
        obtain ⟨rfl, h2⟩ : 58 = d ∧ _ := by simpa using h2
        rcases h1.cons_inv with ⟨h, -⟩ | ⟨-, d, s', rfl, h, h5⟩
        · exact absurd h name_colon
        · obtain ⟨rfl, rfl⟩ : r3 = d ∧ t3 = _ := by simpa using h2
          exact ⟨s', h5, rfl, by simp [textOf_cons]; rfl, h4⟩
  | case9 buf r3 t3 h =>
    refine bad ?_
    intro d t' hd hf
    cases hd
    exact h ((hst _).2 hf)
  | case10 buf r2 t2 h =>
    refine bad ?_
    intro d t' hd hf
    cases hd
    exact h rfl
  | case11 buf r t h0 h58 hc ih =>
    refine Iff.trans ih ?_
    constructor
    · rintro ⟨cs, h1, rfl, rfl, h4⟩
      exact ⟨r :: cs, .char hc h1, rfl, by simp [textOf_cons], h4⟩
    · rintro ⟨cs, h1, h2, rfl, h4⟩
      cases cs with
      | nil =>
        rw [List.map_nil, List.nil_append] at h2
        rw [← h2] at h4
        exact absurd hc (Then.head.1 h4).1
      | cons d cs =>
        obtain ⟨rfl, rfl⟩ : r = d ∧ t = _ := by simpa using h2
        rcases h1.cons_inv with ⟨h, h5⟩ | ⟨h, -⟩
        · exact ⟨cs, h5, rfl, by simp [textOf_cons], h4⟩
        · exact absurd h h58
  | case12 buf r t h0 h58 hc => exact empty rfl hc h58

end Verif.Pcore
