import Verif.Text.Quote
/-!
# Reading printed literals
-/
set_option autoImplicit false
set_option linter.unusedVariables false
set_option linter.unusedSimpArgs false
namespace Verif.Text
open Verif.Value (Str runeLen)

/-- A byte string begins with a character or with a byte that does not belong to one. -/
theorem str_cases {s : Str} (hs : s ≠ []) :
    (∃ c r, Scalar c ∧ s = encode c ++ r ∧ decode s = c ∧ s.drop (runeLen s) = r ∧ ¬(runeLen s = 1 ∧ decode s = runeError)) ∨
    (∃ b r, s = b :: r ∧ decode s = runeError ∧ runeLen s = 1) := by
  by_cases h : decode s ≠ runeError ∨ runeLen s ≠ 1
  · obtain ⟨h1, h2⟩ := encode_decode hs h
    refine Or.inl ⟨decode s, s.drop (runeLen s), h1, ?_, rfl, rfl, fun ⟨a, b⟩ => ?_⟩
    · rw [h2, List.take_append_drop]
    · rcases h with h | h
      · exact h b
      · exact h a
  · have h1 : decode s = runeError := Decidable.byContradiction fun hc => h (Or.inl hc)
    have h2 : runeLen s = 1 := Decidable.byContradiction fun hc => h (Or.inr hc)
    cases s with
    | nil => exact absurd rfl hs
    | cons b r => exact Or.inr ⟨b, r, rfl, h1, h2⟩

theorem str_ind {P : Str → Prop} (nil : P []) (char : ∀ c r, Scalar c → P r → P (encode c ++ r))
    (bad : ∀ b r, decode (b :: r) = runeError → runeLen (b :: r) = 1 → P r → P (b :: r)) (s : Str) : P s := by
  induction hn : s.length using Nat.strongRecOn generalizing s with
  | ind n ih =>
    subst hn
    by_cases hs : s = []
    · subst hs; exact nil
    · rcases str_cases hs with ⟨c, r, h1, h2, _⟩ | ⟨b, r, rfl, h2, h3⟩
      · have hl : r.length < s.length := by
          rw [h2, List.length_append]
          have := List.length_pos_iff.2 (encode_ne_nil c)
          omega
        rw [h2]; exact char c r h1 (ih _ hl r rfl)
      · exact bad b r h2 h3 (ih _ (by simp) r rfl)

theorem runes_ascii {b : UInt8} (h : b.toNat < 0x80) (t : Str) : runes (b :: t) = some b.toNat :: runes t := by
  rw [runes_cons, if_pos h]

theorem runes_bad {s : Str} (hs : s ≠ []) (h : decode s = runeError) : runes s = [none] := by
  cases s with
  | nil => exact absurd rfl hs
  | cons b t =>
    rw [runes_cons]
    by_cases hb : b.toNat < 0x80
    · exfalso
      unfold decode at h
      have hl : runeLen (b :: t) = 1 := by
        unfold runeLen; dsimp only; rw [if_pos (by omega)]
      rw [hl] at h
      simp only [hb, if_true, runeError] at h
      omega
    · rw [if_neg hb, if_pos h]

theorem encode_inj {c c' : Nat} (h : Scalar c) (h' : Scalar c') {r r' : Str} (he : encode c ++ r = encode c' ++ r') : c = c' ∧ r = r' := by
  have h1 := (decode_encode h r).1
  rw [he, (decode_encode h' r').1] at h1
  subst h1
  exact ⟨rfl, List.append_cancel_left he⟩

/-! ## Strings -/

/-- Characters that are printed so that they can be read again -/
def Quotable (isPrint : Nat → Bool) (c : Nat) : Prop := Readable c ∧ (isPrint c = true ∨ c = 9 ∨ c = 10 ∨ c = 13 ∨ c = 34 ∨ c = 92)

theorem consume_raw {c : Nat} (h : Readable c) (h34 : c ≠ 34) (h92 : c ≠ 92) (h0 : c ≠ 0) (h10 : c ≠ 10) (buf t : Str) :
    consumeString 34 buf (runes (encode c ++ t)) = consumeString 34 (buf ++ encode c) (runes t) := by
  rw [runes_encode h, consumeString.eq_def]
  dsimp only
  rw [if_neg h34, if_neg h0, if_neg h92, if_neg h10]

theorem consume_escape {b : UInt8} (hb : b.toNat < 0x80) (buf t : Str) :
    consumeString 34 buf (runes ([92, b] ++ t)) =
      match escape b.toNat 34 with
      | .error e => .error e
      | .ok c => consumeString 34 (buf ++ encode c) (runes t) := by
  rw [List.cons_append, List.cons_append, List.nil_append, runes_ascii (by decide), runes_ascii hb, consumeString.eq_def]
  dsimp only
  rw [if_neg (by decide), if_neg (by decide), if_pos (by decide)]
  cases escape b.toNat 34 <;> rfl

theorem hexDigits_cons (n c : Nat) : ∃ b t, hexDigits (n + 1) c = b :: t := by
  unfold hexDigits
  cases h : hexDigits n (c / 16) ++ [hexDigit (c % 16)] with
  | nil => simp at h
  | cons b t => exact ⟨b, t, rfl⟩

theorem consume_rune {isPrint : Nat → Bool} (hp : ∀ c < 32, isPrint c = false) {c : Nat} (hc : Scalar c) (buf t : Str) :
    (Quotable isPrint c ∧ consumeString 34 buf (runes (escapeRune isPrint c ++ t)) = consumeString 34 (buf ++ encode c) (runes t)) ∨
    (¬ Quotable isPrint c ∧ ∃ e, consumeString 34 buf (runes (escapeRune isPrint c ++ t)) = .error e) := by
  have esc : ∀ b : UInt8, b.toNat < 0x80 → ∀ u, consumeString 34 buf (runes ([92, b] ++ u)) =
      match escape b.toNat 34 with
      | .error e => .error e
      | .ok c => consumeString 34 (buf ++ encode c) (runes u) := fun b hb u => consume_escape hb buf u
  have rd : c < 0x80 → Readable c := fun h => ⟨hc, by unfold runeError; omega⟩
  unfold escapeRune
  by_cases h1 : c = 34 ∨ c = 92
  · rw [if_pos h1]
    refine Or.inl ⟨⟨rd (by omega), by omega⟩, ?_⟩
    rcases h1 with rfl | rfl
    · exact (esc 34 (by decide) t).trans rfl
    · exact (esc 92 (by decide) t).trans rfl
  rw [if_neg h1]
  by_cases h2 : isPrint c = true
  · rw [if_pos h2]
    have h32 : 32 ≤ c := by
      refine Decidable.byContradiction fun hlt => ?_
      rw [hp c (by omega)] at h2; cases h2
    by_cases h3 : c = runeError
    · refine Or.inr ⟨fun h => h.1.2 h3, .unicode, ?_⟩
      rw [runes_bad (by simp [encode_ne_nil]) ((decode_encode hc t).1.trans h3)]
      rfl
    · exact Or.inl ⟨⟨⟨hc, h3⟩, Or.inl h2⟩, consume_raw ⟨hc, h3⟩ (by omega) (by omega) (by omega) (by omega) buf t⟩
  rw [if_neg h2]
  have bad : ∀ b : UInt8, b.toNat < 0x80 → ∀ u e, escape b.toNat 34 = .error e → (c ≠ 9 ∧ c ≠ 10 ∧ c ≠ 13) →
      ¬ Quotable isPrint c ∧ ∃ e, consumeString 34 buf (runes ([92, b] ++ u)) = .error e := by
    intro b hb u e he hn
    refine ⟨fun h => ?_, e, ?_⟩
    · rcases h.2 with h | h
      · exact h2 h
      · omega
    · rw [esc b hb u, he]
  by_cases e7 : c = 7
  · rw [if_pos e7]; exact Or.inr (bad 97 (by decide) t _ rfl (by omega))
  rw [if_neg e7]
  by_cases e8 : c = 8
  · rw [if_pos e8]; exact Or.inr (bad 98 (by decide) t _ rfl (by omega))
  rw [if_neg e8]
  by_cases e12 : c = 12
  · rw [if_pos e12]; exact Or.inr (bad 102 (by decide) t _ rfl (by omega))
  rw [if_neg e12]
  by_cases e10 : c = 10
  · rw [if_pos e10]; subst e10
    exact Or.inl ⟨⟨rd (by omega), by omega⟩, (esc 110 (by decide) t).trans rfl⟩
  rw [if_neg e10]
  by_cases e13 : c = 13
  · rw [if_pos e13]; subst e13
    exact Or.inl ⟨⟨rd (by omega), by omega⟩, (esc 114 (by decide) t).trans rfl⟩
  rw [if_neg e13]
  by_cases e9 : c = 9
  · rw [if_pos e9]; subst e9
    exact Or.inl ⟨⟨rd (by omega), by omega⟩, (esc 116 (by decide) t).trans rfl⟩
  rw [if_neg e9]
  by_cases e11 : c = 11
  · rw [if_pos e11]; exact Or.inr (bad 118 (by decide) t _ rfl (by omega))
  rw [if_neg e11]
  split
  · rw [List.append_assoc]; exact Or.inr (bad 120 (by decide) _ _ rfl (by omega))
  · split
    · rw [List.append_assoc]; exact Or.inr (bad 117 (by decide) _ _ rfl (by omega))
    · rw [List.append_assoc]; exact Or.inr (bad 85 (by decide) _ _ rfl (by omega))

theorem quoteLoop_nil (isPrint : Nat → Bool) : quoteLoop isPrint [] = [] := by rw [quoteLoop]

theorem quoteLoop_char (isPrint : Nat → Bool) {c : Nat} (hc : Scalar c) (r : Str) :
    quoteLoop isPrint (encode c ++ r) = escapeRune isPrint c ++ quoteLoop isPrint r := by
  cases h : encode c ++ r with
  | nil => exact absurd (List.append_eq_nil_iff.1 h).1 (encode_ne_nil c)
  | cons b t =>
    obtain ⟨h1, h2⟩ := decode_encode hc r
    rw [quoteLoop, ← h, h1, h2, if_neg, List.drop_left]
    rintro ⟨h3, rfl⟩
    have : (encode runeError).length = 3 := rfl
    omega

theorem quoteLoop_bad (isPrint : Nat → Bool) {b : UInt8} {r : Str} (h1 : decode (b :: r) = runeError) (h2 : runeLen (b :: r) = 1) :
    quoteLoop isPrint (b :: r) = [92, 120] ++ hexDigits 2 b.toNat ++ quoteLoop isPrint r := by
  rw [quoteLoop, if_pos ⟨h2, h1⟩, h2]
  rfl

/-- A quoted string is read back, or reading it fails. -/
theorem consume_quoted {isPrint : Nat → Bool} (hp : ∀ c < 32, isPrint c = false) (s rest : Str) : ∀ buf : Str,
    ((∃ cs, (∀ c ∈ cs, Quotable isPrint c) ∧ s = textOf cs) ∧
      consumeString 34 buf (runes (quoteLoop isPrint s ++ ([34] ++ rest))) = .ok (runes rest, buf ++ s)) ∨
    ((¬ ∃ cs, (∀ c ∈ cs, Quotable isPrint c) ∧ s = textOf cs) ∧
      ∃ e, consumeString 34 buf (runes (quoteLoop isPrint s ++ ([34] ++ rest))) = .error e) := by
  induction s using str_ind with
  | nil =>
    intro buf
    refine Or.inl ⟨⟨[], by simp, rfl⟩, ?_⟩
    rw [quoteLoop_nil, List.nil_append, List.cons_append, runes_ascii (by decide), consumeString.eq_def]
    dsimp only
    rw [if_pos (by decide)]
    simp
  | char c r hc ih =>
    intro buf
    rw [quoteLoop_char _ hc, List.append_assoc]
    have inv : (∃ cs, (∀ c ∈ cs, Quotable isPrint c) ∧ encode c ++ r = textOf cs) →
        Quotable isPrint c ∧ ∃ cs, (∀ c ∈ cs, Quotable isPrint c) ∧ r = textOf cs := by
      rintro ⟨cs, h1, h2⟩
      cases cs with
      | nil => exact absurd (List.append_eq_nil_iff.1 h2).1 (encode_ne_nil c)
      | cons c' cs =>
        rw [textOf, List.flatMap_cons] at h2
        have hq := h1 c' List.mem_cons_self
        obtain ⟨rfl, h3⟩ := encode_inj hc hq.1.1 h2
        exact ⟨hq, cs, fun c hc => h1 c (List.mem_cons_of_mem _ hc), h3⟩
    rcases consume_rune hp hc buf (quoteLoop isPrint r ++ ([34] ++ rest)) with ⟨h1, h2⟩ | ⟨h1, e, h2⟩
    · rw [h2]
      rcases ih (buf ++ encode c) with ⟨⟨cs, h3, h4⟩, h5⟩ | ⟨h3, h4⟩
      · refine Or.inl ⟨⟨c :: cs, ?_, ?_⟩, ?_⟩
        · intro c' hc'
          rcases List.mem_cons.1 hc' with rfl | hc'
          · exact h1
          · exact h3 c' hc'
        · rw [h4, textOf, textOf, List.flatMap_cons]
        · rw [h5, List.append_assoc]
      · exact Or.inr ⟨fun h => h3 (inv h).2, h4⟩
    · exact Or.inr ⟨fun h => h1 (inv h).1, e, h2⟩
  | bad b r h1 h2 _ =>
    intro buf
    refine Or.inr ⟨?_, ?_⟩
    · rintro ⟨cs, h3, h4⟩
      cases cs with
      | nil => cases h4
      | cons c cs =>
        have hq := h3 c List.mem_cons_self
        rw [textOf, List.flatMap_cons] at h4
        have := (decode_encode hq.1.1 (List.flatMap encode cs)).1
        rw [← h4, h1] at this
        exact hq.1.2 this.symm
    · rw [quoteLoop_bad _ h1 h2, List.append_assoc, List.append_assoc, consume_escape (by decide)]
      exact ⟨_, rfl⟩

/-! ## Regular expressions -/

/-- What is read for a character that was printed -/
def slashRead (c : Nat) : Str := if c = 47 then [47] else slashRune c

theorem regexp_plain {c : Nat} (h : Readable c) (h47 : c ≠ 47) (h92 : c ≠ 92) (h0 : c ≠ 0) (h10 : c ≠ 10) (buf t : Str) :
    consumeRegexp buf (runes (encode c ++ t)) = consumeRegexp (buf ++ encode c) (runes t) := by
  rw [runes_encode h, consumeRegexp.eq_def]
  dsimp only
  rw [if_neg h47, if_neg h92, if_neg (by omega)]

theorem regexp_ascii {b : UInt8} (hb : b.toNat < 0x80) (h47 : b.toNat ≠ 47) (h92 : b.toNat ≠ 92) (h0 : b.toNat ≠ 0) (h10 : b.toNat ≠ 10)
    (buf t : Str) : consumeRegexp buf (runes (b :: t)) = consumeRegexp (buf ++ [b]) (runes t) := by
  rw [runes_ascii hb, consumeRegexp.eq_def]
  dsimp only
  rw [if_neg h47, if_neg h92, if_neg (by omega), encode_ascii hb, u8_ext rfl]

theorem regexp_escape {b : UInt8} (hb : b.toNat < 0x80) (h47 : b.toNat ≠ 47) (h0 : b.toNat ≠ 0) (buf t : Str) :
    consumeRegexp buf (runes (92 :: b :: t)) = consumeRegexp (buf ++ [92, b]) (runes t) := by
  rw [runes_ascii (by decide), runes_ascii hb, consumeRegexp]
  simp only [h0, h47, if_false]
  rw [if_neg (by decide), if_pos (by decide), encode_ascii hb, u8_ext rfl, List.append_assoc]
  rfl

theorem hexDigitU_facts {n : Nat} (h : n < 16) : (hexDigitU n).toNat < 0x80 ∧ (hexDigitU n).toNat ≠ 47 ∧ (hexDigitU n).toNat ≠ 92 ∧
    (hexDigitU n).toNat ≠ 0 ∧ (hexDigitU n).toNat ≠ 10 := by
  unfold hexDigitU
  split
  · rw [u8_ofNat (by omega)]; omega
  · rw [u8_ofNat (by omega)]; omega

theorem regexp_rune {c : Nat} (hc : Readable c) (buf t : Str) :
    consumeRegexp buf (runes (slashRune c ++ t)) = consumeRegexp (buf ++ slashRead c) (runes t) := by
  unfold slashRead
  by_cases h47 : c = 47
  · subst h47
    rw [if_pos rfl]
    show consumeRegexp buf (runes ([92, 47] ++ t)) = _
    rw [List.cons_append, List.cons_append, List.nil_append, runes_ascii (by decide), runes_ascii (by decide), consumeRegexp]
    simp only [UInt8.reduceToNat]
    rfl
  rw [if_neg h47]
  unfold slashRune
  by_cases h9 : c = 9
  · simp only [h9, if_true]; exact regexp_escape (by decide) (by decide) (by decide) buf t
  by_cases h10 : c = 10
  · simp only [h9, h10, if_true]; exact regexp_escape (by decide) (by decide) (by decide) buf t
  by_cases h13 : c = 13
  · simp only [h9, h10, h13, if_true]; exact regexp_escape (by decide) (by decide) (by decide) buf t
  by_cases h92 : c = 92
  · simp only [h9, h10, h13, h92, if_true]; exact regexp_escape (by decide) (by decide) (by decide) buf t
  simp only [h9, h10, h13, h47, h92, if_false]
  split
  · rename_i hlt
    simp only [List.append_assoc, List.cons_append, List.nil_append]
    rw [regexp_escape (by decide) (by decide) (by decide), regexp_ascii (by decide) (by decide) (by decide) (by decide) (by decide)]
    unfold hexUpper
    split
    · rename_i h16
      obtain ⟨a1, a2, a3, a4, a5⟩ := hexDigitU_facts h16
      simp only [List.cons_append, List.nil_append]
      rw [regexp_ascii a1 a2 a3 a4 a5, regexp_ascii (by decide) (by decide) (by decide) (by decide) (by decide)]
      simp only [List.append_assoc, List.cons_append, List.nil_append]
    · obtain ⟨a1, a2, a3, a4, a5⟩ := hexDigitU_facts (show c / 16 < 16 by omega)
      obtain ⟨b1, b2, b3, b4, b5⟩ := hexDigitU_facts (show c % 16 < 16 by omega)
      simp only [List.cons_append, List.nil_append]
      rw [regexp_ascii a1 a2 a3 a4 a5, regexp_ascii b1 b2 b3 b4 b5, regexp_ascii (by decide) (by decide) (by decide) (by decide) (by decide)]
      simp only [List.append_assoc, List.cons_append, List.nil_append]
  · exact regexp_plain hc h47 h92 (by omega) h10 buf t

theorem slashLoop_nil : slashLoop [] = [] := by rw [slashLoop]

theorem slashLoop_char {c : Nat} (hc : Scalar c) (r : Str) : slashLoop (encode c ++ r) = slashRune c ++ slashLoop r := by
  cases h : encode c ++ r with
  | nil => exact absurd (List.append_eq_nil_iff.1 h).1 (encode_ne_nil c)
  | cons b t =>
    obtain ⟨h1, h2⟩ := decode_encode hc r
    rw [slashLoop, ← h, h1, h2, List.drop_left]

theorem slashLoop_bad {b : UInt8} {r : Str} (h1 : decode (b :: r) = runeError) (h2 : runeLen (b :: r) = 1) :
    slashLoop (b :: r) = encode runeError ++ slashLoop r := by
  rw [slashLoop, h1, h2]
  rfl

/-- A printed regular expression that can be read at all is read as `slashRead` says. -/
theorem regexp_quoted (s rest : Str) : ∀ buf : Str,
    (∃ cs, (∀ c ∈ cs, Readable c) ∧ s = textOf cs ∧
      consumeRegexp buf (runes (slashLoop s ++ ([47] ++ rest))) = .ok (runes rest, buf ++ cs.flatMap slashRead)) ∨
    ((¬ ∃ cs, (∀ c ∈ cs, Readable c) ∧ s = textOf cs) ∧
      consumeRegexp buf (runes (slashLoop s ++ ([47] ++ rest))) = .error .unicode) := by
  have err : ∀ (buf t : Str), consumeRegexp buf (runes (encode runeError ++ t)) = .error .unicode := by
    intro buf t
    rw [runes_bad (by simp [encode_ne_nil]) (decode_encode (by decide) t).1]
    rfl
  induction s using str_ind with
  | nil =>
    intro buf
    refine Or.inl ⟨[], by simp, rfl, ?_⟩
    rw [slashLoop_nil, List.nil_append, List.cons_append, runes_ascii (by decide), consumeRegexp.eq_def]
    dsimp only
    rw [if_pos (by decide)]
    simp
  | char c r hc ih =>
    intro buf
    rw [slashLoop_char hc, List.append_assoc]
    by_cases hr : c = runeError
    · subst hr
      refine Or.inr ⟨?_, err _ _⟩
      rintro ⟨cs, h1, h2⟩
      cases cs with
      | nil => exact absurd (List.append_eq_nil_iff.1 h2).1 (encode_ne_nil _)
      | cons c' cs =>
        rw [textOf, List.flatMap_cons] at h2
        have hq := h1 c' List.mem_cons_self
        exact hq.2 (encode_inj hc hq.1 h2).1.symm
    · have hq : Readable c := ⟨hc, hr⟩
      rw [regexp_rune hq]
      rcases ih (buf ++ slashRead c) with ⟨cs, h1, h2, h3⟩ | ⟨h1, h2⟩
      · refine Or.inl ⟨c :: cs, ?_, ?_, ?_⟩
        · intro c' hc'
          rcases List.mem_cons.1 hc' with rfl | hc'
          · exact hq
          · exact h1 c' hc'
        · rw [h2, textOf, textOf, List.flatMap_cons]
        · rw [h3, List.append_assoc, List.flatMap_cons]
      · refine Or.inr ⟨fun ⟨cs, h3, h4⟩ => h1 ?_, h2⟩
        cases cs with
        | nil => exact absurd (List.append_eq_nil_iff.1 h4).1 (encode_ne_nil _)
        | cons c' cs =>
          rw [textOf, List.flatMap_cons] at h4
          exact ⟨cs, fun c hc => h3 c (List.mem_cons_of_mem _ hc), (encode_inj hc (h3 c' List.mem_cons_self).1 h4).2⟩
  | bad b r h1 h2 _ =>
    intro buf
    rw [slashLoop_bad h1 h2, List.append_assoc]
    refine Or.inr ⟨?_, err _ _⟩
    rintro ⟨cs, h3, h4⟩
    cases cs with
    | nil => cases h4
    | cons c cs =>
      have hq := h3 c List.mem_cons_self
      rw [textOf, List.flatMap_cons] at h4
      have := (decode_encode hq.1 (List.flatMap encode cs)).1
      rw [← h4, h1] at this
      exact hq.2 this.symm

theorem slashRead_length {c : Nat} (hc : Readable c) :
    (encode c).length ≤ (slashRead c).length ∧ ((slashRead c).length = (encode c).length → (32 ≤ c ∧ c ≠ 92) ∧ slashRead c = encode c) := by
  unfold slashRead slashRune
  by_cases h47 : c = 47
  · subst h47; simp [encode]
  by_cases h9 : c = 9
  · subst h9; simp [encode]
  by_cases h10 : c = 10
  · subst h10; simp [encode]
  by_cases h13 : c = 13
  · subst h13; simp [encode]
  by_cases h92 : c = 92
  · subst h92; simp [encode]
  simp only [h9, h10, h13, h47, h92, if_false]
  split
  · rename_i hlt
    rw [encode_ascii (by omega)]
    simp
  · exact ⟨Nat.le_refl _, fun _ => ⟨⟨by omega, h92⟩, rfl⟩⟩

theorem slashRead_plain {c : Nat} (h : 32 ≤ c) (h' : c ≠ 92) : slashRead c = encode c := by
  unfold slashRead slashRune
  by_cases h47 : c = 47
  · subst h47; rfl
  · simp only [show c ≠ 9 by omega, show c ≠ 10 by omega, show c ≠ 13 by omega, h47, h', show ¬ c < 32 by omega, if_false]

theorem slashRead_all : ∀ {cs : List Nat}, (∀ c ∈ cs, Readable c) → ((cs.flatMap slashRead) = textOf cs ↔ ∀ c ∈ cs, 32 ≤ c ∧ c ≠ 92)
  | [], _ => by simp [textOf]
  | c :: cs, h => by
    have ih := slashRead_all (cs := cs) fun c hc => h c (List.mem_cons_of_mem _ hc)
    have hlen : ∀ {cs : List Nat}, (∀ c ∈ cs, Readable c) → (textOf cs).length ≤ (cs.flatMap slashRead).length := by
      intro cs
      induction cs with
      | nil => intro _; simp [textOf]
      | cons c cs ih =>
        intro h
        have h1 := ih fun c hc => h c (List.mem_cons_of_mem _ hc)
        have h2 := (slashRead_length (h c List.mem_cons_self)).1
        simp only [textOf, List.flatMap_cons, List.length_append] at h1 ⊢
        omega
    have hc := slashRead_length (h c List.mem_cons_self)
    constructor
    · intro he
      have hl := congrArg List.length he
      have h1 := hlen fun c hc => h c (List.mem_cons_of_mem _ hc)
      simp only [textOf, List.flatMap_cons, List.length_append] at he hl h1
      obtain ⟨h2, h3⟩ := hc.2 (by omega)
      rw [h3] at he
      have h4 := ih.1 (List.append_cancel_left he)
      intro c' hc'
      rcases List.mem_cons.1 hc' with rfl | hc'
      · exact h2
      · exact h4 c' hc'
    · intro hg
      have h2 := hg c List.mem_cons_self
      have h3 := ih.2 fun c hc => hg c (List.mem_cons_of_mem _ hc)
      rw [textOf] at h3
      rw [textOf, List.flatMap_cons, List.flatMap_cons, h3, slashRead_plain h2.1 h2.2]

end Verif.Text
