import Verif.Text.Literal
/-!
# Reading printed integers, and progress of the lexer
-/
set_option autoImplicit false
set_option linter.unusedVariables false
namespace Verif.Text
open Verif.Value (Str runeLen)

/-- A byte that is a digit -/
def Dig (b : UInt8) : Prop := 48 ≤ b.toNat ∧ b.toNat ≤ 57

/-- What may follow a number: the end, or a character that does not go on with it. -/
def Stops : In → Prop
  | [] => True
  | none :: _ => False
  | some r :: t => isDigit r = false ∧ r ≠ 101 ∧ r ≠ 69 ∧ r ≠ 120 ∧ r ≠ 88 ∧ (r = 46 → ∃ u, t = some 46 :: u)

theorem numberLoop_digits (fz : Bool) (ty : Nat) (rest : Str) : ∀ (ds buf : Str), (∀ b ∈ ds, Dig b) →
    numberLoop fz ty buf (runes (ds ++ rest)) = numberLoop fz ty (buf ++ ds) (runes rest)
  | [], buf, _ => by simp
  | b :: ds, buf, h => by
    have hb := h b List.mem_cons_self
    unfold Dig at hb
    rw [List.cons_append, runes_ascii (by omega), numberLoop.eq_def]
    dsimp only
    have ih := numberLoop_digits fz ty rest ds (buf ++ encode b.toNat) fun b hb => h b (List.mem_cons_of_mem _ hb)
    have he : encode b.toNat = [b] := by rw [encode_ascii (by omega), u8_ext rfl]
    rw [he] at ih
    have hd : isDigit b.toNat = true := by unfold isDigit; simp; omega
    rw [he, ih, hd]
    rw [if_neg (by omega)]
    split
    · simp
    · rw [if_neg (by omega), if_neg (by omega), if_neg (by omega)]
      simp

theorem numberLoop_stops {fz : Bool} {ty : Nat} {buf : Str} {i : In} (h : Stops i) : numberLoop fz ty buf i = .ok (ty, i, buf) := by
  unfold Stops at h
  match i, h with
  | [], _ => rfl
  | some r :: t, h =>
    obtain ⟨h1, h2, h3, h4, h5, h6⟩ := h
    rw [numberLoop.eq_def]
    dsimp only
    split
    · rfl
    · rw [if_neg, if_neg (by omega), if_neg (by omega)]
      · split
        · rename_i h46
          obtain ⟨u, rfl⟩ := h6 h46
          simp
        · rw [h1]; rfl
      · rintro rfl; cases h1

theorem digits_dig (n : Nat) : ∀ b ∈ digits n, Dig b := by
  fun_induction digits n with
  | case1 n h =>
    intro b hb
    simp only [List.mem_singleton] at hb
    subst hb
    unfold Dig
    rw [u8_ofNat (by omega)]; omega
  | case2 n h ih =>
    intro b hb
    rcases List.mem_append.1 hb with hb | hb
    · exact ih b hb
    · simp only [List.mem_singleton] at hb
      subst hb
      unfold Dig
      rw [u8_ofNat (by omega)]; omega

/-- The first digit is 0 only for the number 0. -/
theorem digits_head (n : Nat) : ∃ b t, digits n = b :: t ∧ Dig b ∧ (b.toNat = 48 → n = 0 ∧ t = []) := by
  fun_induction digits n with
  | case1 n h =>
    refine ⟨_, [], rfl, ?_, ?_⟩
    · unfold Dig; rw [u8_ofNat (by omega)]; omega
    · rw [u8_ofNat (by omega)]; exact fun h => ⟨by omega, rfl⟩
  | case2 n h ih =>
    obtain ⟨b, t, h1, h2, h3⟩ := ih
    refine ⟨b, t ++ [UInt8.ofNat (48 + n % 10)], by rw [h1]; rfl, h2, fun hb => ?_⟩
    have := (h3 hb).1
    omega

theorem digitVal_dig {n : Nat} (h : n < 10) : digitVal (UInt8.ofNat (48 + n)) = some n := by
  unfold digitVal
  dsimp only
  rw [u8_ofNat (by omega), if_pos (by omega)]
  congr 1
  omega

theorem parseDigits_append (base : Nat) : ∀ (a b : Str) (acc : Nat), parseDigits base acc (a ++ b) =
    (parseDigits base acc a).bind fun acc => parseDigits base acc b
  | [], b, acc => rfl
  | x :: a, b, acc => by
    rw [List.cons_append, parseDigits, parseDigits]
    split
    · split
      · exact parseDigits_append base a b _
      · rfl
    · rfl

theorem parseDigits_digits (n : Nat) : parseDigits 10 0 (digits n) = some n := by
  fun_induction digits n with
  | case1 n h => simp only [parseDigits]; rw [digitVal_dig h]; simp [h]
  | case2 n h ih =>
    rw [parseDigits_append, ih]
    simp only [Option.bind_some, parseDigits]
    rw [digitVal_dig (by omega)]
    dsimp only
    rw [if_pos (by omega)]
    congr 1
    omega

theorem parseUint_digits (n : Nat) : parseUint (digits n) = some n := by
  obtain ⟨b, t, h1, h2, h3⟩ := digits_head n
  have hp := parseDigits_digits n
  by_cases hb : b.toNat = 48
  · obtain ⟨rfl, rfl⟩ := h3 hb
    rw [h1] at hp ⊢
    have : b = 48 := by rw [← u8_ext hb.symm]; rfl
    subst this
    rfl
  · rw [h1] at hp ⊢
    rw [parseUint.eq_def]
    split
    · cases ‹_ :: _ = []›
    · rename_i h; cases h; exact absurd rfl hb
    · rename_i h; cases h; exact absurd rfl hb
    · exact hp

theorem parseInt_format {v : Int} (h : - 2 ^ 63 ≤ v) (h' : v < 2 ^ 63) : parseInt (formatInt v) = v := by
  unfold formatInt
  split
  · rw [List.cons_append, List.nil_append]
    unfold parseInt
    simp only [parseUint_digits]
    rw [if_pos (by omega)]
    omega
  · obtain ⟨b, t, h1, h2, h3⟩ := digits_head v.natAbs
    have hu := parseUint_digits v.natAbs
    unfold Dig at h2
    unfold parseInt
    rw [h1] at hu ⊢
    split
    · rename_i h; cases h; exact absurd h2.1 (by decide)
    · rename_i h; cases h; exact absurd h2.1 (by decide)
    · rw [hu]
      dsimp only
      rw [if_pos (by omega)]
      omega

/-- A printed integer is one integer token. -/
theorem nextToken_format (v : Int) (rest : Str) (h : Stops (runes rest)) :
    nextToken (runes (formatInt v ++ rest)) = .ok (⟨formatInt v, tInteger⟩, runes rest) := by
  have num : ∀ (n : Nat) (pre : Str), ∃ b t, digits n = b :: t ∧ Dig b ∧
      consumeNumber b.toNat pre tInteger (runes (t ++ rest)) = .ok (tInteger, runes rest, pre ++ digits n) := by
    intro n pre
    obtain ⟨b, t, h1, h2, h3⟩ := digits_head n
    refine ⟨b, t, h1, h2, ?_⟩
    have hd := digits_dig n
    rw [h1] at hd ⊢
    unfold Dig at h2
    unfold consumeNumber
    rw [numberLoop_digits _ _ _ _ _ fun b hb => hd b (List.mem_cons_of_mem _ hb), numberLoop_stops h, encode_ascii (by omega), u8_ext rfl]
    simp
  unfold formatInt
  split
  · obtain ⟨b, t, h1, h2, h3⟩ := num v.natAbs [45]
    have hd : isDigit b.toNat = true := by unfold Dig at h2; unfold isDigit; simp; omega
    rw [List.append_assoc, List.cons_append, List.nil_append, runes_ascii (by decide), nextToken.eq_def]
    dsimp only
    rw [if_neg (by decide), if_neg (by decide), if_neg (by decide), if_neg (by decide), if_neg (by decide), if_neg (by decide),
      if_pos (by decide), h1, List.cons_append]
    unfold Dig at h2
    rw [runes_ascii (by omega)]
    unfold signed
    dsimp only
    rw [if_pos hd, if_pos (by decide), h3, h1]
    rfl
  · obtain ⟨b, t, h1, h2, h3⟩ := num v.natAbs []
    have hd : isDigit b.toNat = true := by unfold Dig at h2; unfold isDigit; simp; omega
    unfold Dig at h2
    rw [h1, List.cons_append, runes_ascii (by omega), nextToken.eq_def]
    dsimp only
    rw [if_neg (by omega), if_neg (by omega), if_neg (by omega), if_neg (by omega), if_neg (by omega), if_neg (by omega), if_neg (by omega)]
    unfold buildToken
    rw [if_pos hd, h3, h1]
    rfl

/-! ## Progress -/

theorem map_ok {α β : Type} {f : α → β} {x : Lex α} {y : β} (h : x.map f = .ok y) : ∃ a, x = .ok a ∧ f a = y := by
  cases x with
  | error e => cases h
  | ok a => cases h; exact ⟨a, rfl, rfl⟩

theorem consumeUnsigned_suffix {buf : Str} {i i' : In} {b : Str} (h : consumeUnsigned buf i = .ok (i', b)) : i' <:+ i := by
  fun_induction consumeUnsigned buf i with
  | case1 => cases h; exact List.suffix_refl _
  | case2 => cases h
  | case3 => cases h
  | case4 buf r t _ _ ih => exact (ih h).trans (List.suffix_cons _ _)
  | case5 => cases h; exact List.suffix_refl _

theorem exponentDigits_suffix {buf : Str} {i i' : In} {b : Str} (h : exponentDigits buf i = .ok (i', b)) : i' <:+ i := by
  unfold exponentDigits at h
  split at h
  · cases h
  · cases h
  · split at h
    · exact (consumeUnsigned_suffix h).trans (List.suffix_cons _ _)
    · cases h

theorem consumeExponent_suffix {buf : Str} {i i' : In} {b : Str} (h : consumeExponent buf i = .ok (i', b)) : i' <:+ i := by
  unfold consumeExponent at h
  split at h
  · cases h
  · cases h
  · split at h
    · cases h
    · split at h
      · exact (exponentDigits_suffix h).trans (List.suffix_cons _ _)
      · exact exponentDigits_suffix h

theorem consumeHex_suffix {buf : Str} {i i' : In} {b : Str} (h : consumeHex buf i = .ok (i', b)) : i' <:+ i := by
  fun_induction consumeHex buf i with
  | case1 => cases h; exact List.suffix_refl _
  | case2 => cases h
  | case3 buf r t _ ih => exact (ih h).trans (List.suffix_cons _ _)
  | case4 => cases h; exact List.suffix_refl _

theorem hexStart_suffix {buf : Str} {i i' : In} {b : Str} (h : hexStart buf i = .ok (i', b)) : i' <:+ i := by
  unfold hexStart at h
  split at h
  · cases h
  · cases h
  · split at h
    · exact (consumeHex_suffix h).trans (List.suffix_cons _ _)
    · cases h

/-- A number token is an integer or a float. -/
theorem numberLoop_suffix {fz : Bool} {ty : Nat} {buf : Str} {i i' : In} {b : Str} {ty' : Nat} (hty : ty = tInteger ∨ ty = tFloat)
    (h : numberLoop fz ty buf i = .ok (ty', i', b)) : i' <:+ i ∧ (ty' = tInteger ∨ ty' = tFloat) := by
  fun_induction numberLoop fz ty buf i with
  | case1 => cases h; exact ⟨List.suffix_refl _, hty⟩
  | case2 => cases h
  | case3 => cases h; exact ⟨List.suffix_refl _, hty⟩
  | case4 fz ty buf t _ ih => exact ⟨(ih hty h).1.trans (List.suffix_cons _ _), (ih hty h).2⟩
  | case5 =>
    obtain ⟨⟨a, c⟩, h1, h2⟩ := map_ok h
    cases h2
    exact ⟨(consumeExponent_suffix h1).trans (List.suffix_cons _ _), Or.inr rfl⟩
  | case6 =>
    obtain ⟨⟨a, c⟩, h1, h2⟩ := map_ok h
    cases h2
    exact ⟨(hexStart_suffix h1).trans (List.suffix_cons _ _), hty⟩
  | case7 => cases h
  | case8 => cases h
  | case9 => cases h
  | case10 => cases h
  | case11 => cases h; exact ⟨List.suffix_refl _, hty⟩
  | case12 _ _ _ _ _ _ _ _ _ _ _ _ ih => exact ⟨(ih (Or.inr rfl) h).1.trans ((List.suffix_cons _ _).trans (List.suffix_cons _ _)), (ih (Or.inr rfl) h).2⟩
  | case13 => cases h
  | case14 => cases h
  | case15 _ _ _ _ _ _ _ _ _ _ _ ih => exact ⟨(ih hty h).1.trans (List.suffix_cons _ _), (ih hty h).2⟩
  | case16 => cases h; exact ⟨List.suffix_refl _, hty⟩

theorem consumeRegexp_suffix {buf : Str} {i i' : In} {b : Str} (h : consumeRegexp buf i = .ok (i', b)) : i' <:+ i := by
  fun_induction consumeRegexp buf i with
  | case1 => cases h
  | case2 => cases h
  | case3 => cases h; exact List.suffix_cons _ _
  | case4 => cases h
  | case5 => cases h
  | case6 => cases h
  | case7 _ _ _ _ ih => exact (ih h).trans ((List.suffix_cons _ _).trans (List.suffix_cons _ _))
  | case8 _ _ _ _ _ _ ih => exact (ih h).trans ((List.suffix_cons _ _).trans (List.suffix_cons _ _))
  | case9 => cases h
  | case10 _ _ _ _ _ _ ih => exact (ih h).trans (List.suffix_cons _ _)

theorem consumeString_suffix {q : Nat} {buf : Str} {i i' : In} {b : Str} (h : consumeString q buf i = .ok (i', b)) : i' <:+ i := by
  fun_induction consumeString q buf i with
  | case1 => cases h; exact List.suffix_refl _
  | case2 => cases h
  | case3 => cases h
  | case4 => cases h; exact List.suffix_cons _ _
  | case5 => cases h
  | case6 => cases h
  | case7 => cases h
  | case8 => cases h
  | case9 _ _ _ _ _ _ _ ih => exact (ih h).trans ((List.suffix_cons _ _).trans (List.suffix_cons _ _))
  | case10 => cases h
  | case11 _ _ _ _ _ _ _ ih => exact (ih h).trans (List.suffix_cons _ _)

theorem consumeRaw_suffix {buf : Str} {i i' : In} {b : Str} (h : consumeRaw buf i = .ok (i', b)) : i' <:+ i := by
  fun_induction consumeRaw buf i with
  | case1 => cases h
  | case2 => cases h
  | case3 => cases h; exact List.suffix_cons _ _
  | case4 => cases h
  | case5 _ _ _ _ _ ih => exact (ih h).trans (List.suffix_cons _ _)

theorem identifierLoop_suffix {buf : Str} {i i' : In} {b : Str} (h : identifierLoop buf i = .ok (i', b)) : i' <:+ i := by
  fun_induction identifierLoop buf i with
  | case1 => cases h; exact List.suffix_refl _
  | case2 => cases h
  | case3 _ _ _ _ ih => exact (ih h).trans (List.suffix_cons _ _)
  | case4 => cases h; exact List.suffix_refl _

theorem dots_suffix {i i' : In} {t : Token} (h : dots i = .ok (t, i')) : i' <:+ i ∧ t.type ≠ tEnd := by
  unfold dots at h
  split at h
  · cases h; exact ⟨List.suffix_refl _, by decide⟩
  · cases h
  · split at h
    · split at h
      · cases h; exact ⟨List.suffix_cons _ _, by decide⟩
      · cases h
      · split at h
        · cases h; exact ⟨(List.suffix_cons _ _).trans (List.suffix_cons _ _), by decide⟩
        · cases h; exact ⟨List.suffix_cons _ _, by decide⟩
    · cases h; exact ⟨List.suffix_refl _, by decide⟩

theorem number_ne_end {ty : Nat} (h : ty = tInteger ∨ ty = tFloat) : ty ≠ tEnd := by
  rcases h with rfl | rfl <;> decide

theorem signed_suffix {r : Nat} {i i' : In} {t : Token} (h : signed r i = .ok (t, i')) : i' <:+ i ∧ t.type ≠ tEnd := by
  unfold signed at h
  split at h
  · cases h
  · cases h
  · split at h
    · obtain ⟨⟨ty, a, c⟩, h1, h2⟩ := map_ok h
      cases h2
      have := numberLoop_suffix (Or.inl rfl) h1
      exact ⟨this.1.trans (List.suffix_cons _ _), number_ne_end this.2⟩
    · cases h

theorem buildToken_suffix {r : Nat} (hr : r ≠ 0) {i i' : In} {t : Token} (h : buildToken r i = .ok (t, i')) : i' <:+ i ∧ t.type ≠ tEnd := by
  unfold buildToken at h
  split at h
  · obtain ⟨⟨ty, a, c⟩, h1, h2⟩ := map_ok h
    cases h2
    have := numberLoop_suffix (Or.inl rfl) h1
    exact ⟨this.1, number_ne_end this.2⟩
  · split at h
    · obtain ⟨⟨a, c⟩, h1, h2⟩ := map_ok h
      cases h2
      exact ⟨identifierLoop_suffix h1, (by decide : tIdentifier ≠ tEnd)⟩
    · cases h; exact ⟨List.suffix_refl _, hr⟩

/-- Every token but the end consumes at least one character. -/
theorem nextToken_suffix {i i' : In} {t : Token} (h : nextToken i = .ok (t, i')) :
    (∃ r u, i' <:+ u ∧ (some r :: u) <:+ i ∧ (t.type = tEnd → r = 0)) ∨ (i' = [] ∧ t.type = tEnd ∧
      ∀ c ∈ i, c = some 32 ∨ c = some 9 ∨ c = some 10) := by
  fun_induction nextToken i with
  | case1 => cases h; exact Or.inr ⟨rfl, rfl, by simp⟩
  | case2 => cases h
  | case3 _ => cases h; exact Or.inl ⟨0, _, List.suffix_refl _, List.suffix_refl _, fun _ => rfl⟩
  | case4 r t' _ hr ih =>
    rcases ih h with ⟨r, u, h1, h2, h3⟩ | ⟨h1, h2, h3⟩
    · exact Or.inl ⟨r, u, h1, h2.trans (List.suffix_cons _ _), h3⟩
    · refine Or.inr ⟨h1, h2, ?_⟩
      intro c hc
      rcases List.mem_cons.1 hc with rfl | hc
      · simpa using hr
      · exact h3 c hc
  | case5 r =>
    obtain ⟨⟨a, c⟩, h1, h2⟩ := map_ok h
    cases h2
    exact Or.inl ⟨_, _, consumeRaw_suffix h1, List.suffix_refl _, fun h => absurd h (by decide : tString ≠ tEnd)⟩
  | case6 r =>
    obtain ⟨⟨a, c⟩, h1, h2⟩ := map_ok h
    cases h2
    exact Or.inl ⟨_, _, consumeString_suffix h1, List.suffix_refl _, fun h => absurd h (by decide : tString ≠ tEnd)⟩
  | case7 r =>
    obtain ⟨⟨a, c⟩, h1, h2⟩ := map_ok h
    cases h2
    exact Or.inl ⟨_, _, consumeRegexp_suffix h1, List.suffix_refl _, fun h => absurd h (by decide : tRegexp ≠ tEnd)⟩
  | case8 r => exact Or.inl ⟨_, _, (dots_suffix h).1, List.suffix_refl _, fun he => absurd he (dots_suffix h).2⟩
  | case9 r => exact Or.inl ⟨_, _, (signed_suffix h).1, List.suffix_refl _, fun he => absurd he (signed_suffix h).2⟩
  | case10 r t' h0 =>
    exact Or.inl ⟨_, _, (buildToken_suffix h0 h).1, List.suffix_refl _, fun he => absurd he (buildToken_suffix h0 h).2⟩

theorem nextToken_length {i i' : In} {t : Token} (h : nextToken i = .ok (t, i')) (ht : t.type ≠ tEnd) : i'.length < i.length := by
  rcases nextToken_suffix h with ⟨r, u, h1, h2, _⟩ | ⟨_, h2, _⟩
  · have := h1.length_le
    have := h2.length_le
    simp at this
    omega
  · exact absurd h2 ht

/-- The tokens up to the end: what `NextToken` yields when it is called again and again. -/
def tokens (i : In) : Lex (List Token) :=
  match h : nextToken i with
  | .error e => .error e
  | .ok (t, i') => if ht : t.type = tEnd then .ok [t] else (tokens i').map (t :: ·)
termination_by i.length
decreasing_by exact nextToken_length h ht

theorem tokens_end {i i' : In} {t : Token} (h : nextToken i = .ok (t, i')) (ht : t.type = tEnd) : tokens i = .ok [t] := by
  rw [tokens]
  split
  · rename_i h'; rw [h] at h'; cases h'
  · rename_i h'
    rw [h] at h'; cases h'
    rw [dif_pos ht]

theorem tokens_cons {i i' : In} {t : Token} (h : nextToken i = .ok (t, i')) (ht : t.type ≠ tEnd) : tokens i = (tokens i').map (t :: ·) := by
  rw [tokens]
  split
  · rename_i h'; rw [h] at h'; cases h'
  · rename_i h'
    rw [h] at h'; cases h'
    rw [dif_neg ht]

theorem tokens_error {i : In} {e : Err} (h : nextToken i = .error e) : tokens i = .error e := by
  rw [tokens]
  split
  · rename_i h'; rw [h] at h'; cases h'; rfl
  · rename_i h'; rw [h] at h'; cases h'

end Verif.Text
