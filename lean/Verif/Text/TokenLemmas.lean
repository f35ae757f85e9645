import Verif.Text.TokenSpec
/-!
# The lexer reads what the grammar says
-/
set_option autoImplicit false
set_option linter.unusedVariables false
set_option linter.unusedSimpArgs false
namespace Verif.Text
open Verif.Value (Str)

theorem textOf_nil : textOf [] = [] := rfl
theorem textOf_cons (c : Nat) (cs : List Nat) : textOf (c :: cs) = encode c ++ textOf cs := by rw [textOf, textOf, List.flatMap_cons]
theorem textOf_append (a b : List Nat) : textOf (a ++ b) = textOf a ++ textOf b := by rw [textOf, textOf, textOf, List.flatMap_append]

/-- a loop that reads as long as `p` -/
theorem while_iff {f : Str → In → Lex (In × Str)} {p : Nat → Bool} {bad : Nat → Prop} [DecidablePred bad]
    (h0 : ∀ buf, f buf [] = .ok ([], buf)) (h1 : ∀ buf t, f buf (none :: t) = .error .unicode)
    (h2 : ∀ buf r t, f buf (some r :: t) = if bad r then .error (badToken r) else if p r then f (buf ++ encode r) t else .ok (some r :: t, buf))
    (hb : ∀ r, bad r → p r = false) (buf : Str) (i i' : In) (b : Str) :
    f buf i = .ok (i', b) ↔ ∃ cs, (∀ c ∈ cs, p c = true) ∧ i = cs.map some ++ i' ∧ b = buf ++ textOf cs ∧ Then (fun c _ => p c = false ∧ ¬ bad c) i' := by
  induction i generalizing buf with
  | nil =>
    rw [h0]
    constructor
    · intro h; cases h; exact ⟨[], by simp, rfl, by simp [textOf_nil], .inl rfl⟩
    · rintro ⟨cs, -, h, rfl, -⟩
      cases cs with
      | nil => simp only [List.map_nil, List.nil_append] at h; subst h; simp [textOf_nil]
      | cons c cs => cases h
  | cons c t ih =>
    cases c with
    | none =>
      rw [h1]
      constructor
      · intro h; cases h
      · rintro ⟨cs, -, h, rfl, h'⟩
        cases cs with
        | nil =>
          simp only [List.map_nil, List.nil_append] at h
          rcases h' with rfl | ⟨c, more, rfl, -⟩ <;> cases h
        | cons c cs => cases h
    | some r =>
      rw [h2]
      by_cases hr : bad r
      · rw [if_pos hr]
        constructor
        · intro h; cases h
        · rintro ⟨cs, h3, h, rfl, h'⟩
          cases cs with
          | nil =>
            simp only [List.map_nil, List.nil_append] at h
            rcases h' with rfl | ⟨c, more, rfl, h4⟩ <;> cases h
            exact absurd hr h4.2
          | cons c cs =>
            cases h
            have := h3 r (by simp)
            rw [hb r hr] at this; cases this
      · rw [if_neg hr]
        by_cases hp : p r = true
        · rw [if_pos hp, ih]
          constructor
          · rintro ⟨cs, h3, rfl, rfl, h4⟩
            exact ⟨r :: cs, by simpa [hp] using h3, rfl, by rw [textOf_cons]; simp, h4⟩
          · rintro ⟨cs, h3, h, rfl, h4⟩
            cases cs with
            | nil =>
              simp only [List.map_nil, List.nil_append] at h
              rcases h4 with rfl | ⟨c, more, rfl, h4⟩ <;> cases h
              rw [hp] at h4; cases h4.1
            | cons c cs =>
              cases h
              exact ⟨cs, fun c hc => h3 c (by simp [hc]), rfl, by rw [textOf_cons]; simp, h4⟩
        · rw [if_neg hp]
          constructor
          · intro h; cases h
            exact ⟨[], by simp, rfl, by simp [textOf_nil], .inr ⟨r, t, rfl, by simpa using hp, hr⟩⟩
          · rintro ⟨cs, h3, h, rfl, h4⟩
            cases cs with
            | nil => simp only [List.map_nil, List.nil_append] at h; subst h; simp [textOf_nil]
            | cons c cs => cases h; exact absurd (h3 r (by simp)) hp

theorem digit_not {r : Nat} (h : r = 46 ∨ isLetter r = true) : isDigit r = false := by
  unfold isLetter isUpper isLower at h
  unfold isDigit
  simp at h ⊢
  omega

theorem consumeUnsigned_iff {buf : Str} {i i' : In} {b : Str} : consumeUnsigned buf i = .ok (i', b) ↔
    ∃ cs, (∀ c ∈ cs, isDigit c = true) ∧ i = cs.map some ++ i' ∧ b = buf ++ textOf cs ∧ Then (fun c _ => isDigit c = false ∧ ¬ (c = 46 ∨ isLetter c = true)) i' :=
  while_iff (bad := fun r => r = 46 ∨ isLetter r = true) (fun _ => rfl) (fun _ _ => rfl) (fun _ _ _ => rfl) (fun _ => digit_not) _ _ _ _

theorem consumeHex_iff {buf : Str} {i i' : In} {b : Str} : consumeHex buf i = .ok (i', b) ↔
    ∃ cs, (∀ c ∈ cs, isHex c = true) ∧ i = cs.map some ++ i' ∧ b = buf ++ textOf cs ∧ Then (fun c _ => isHex c = false ∧ ¬ False) i' :=
  while_iff (bad := fun r => False) (fun _ => rfl) (fun _ _ => rfl) (fun _ _ _ => by rw [if_neg id]; rfl) (fun _ h => h.elim) _ _ _ _

theorem identifierLoop_iff {buf : Str} {i i' : In} {b : Str} : identifierLoop buf i = .ok (i', b) ↔
    ∃ cs, (∀ c ∈ cs, isId c = true) ∧ i = cs.map some ++ i' ∧ b = buf ++ textOf cs ∧ Then (fun c _ => isId c = false ∧ ¬ False) i' :=
  while_iff (bad := fun r => False) (fun _ => rfl) (fun _ _ => rfl) (fun _ _ _ => by rw [if_neg id]; rfl) (fun _ h => h.elim) _ _ _ _

theorem Then.imp {p q : Nat → In → Prop} (h : ∀ c m, p c m → q c m) {i : In} : Then p i → Then q i :=
  Or.imp id fun ⟨c, m, e, hp⟩ => ⟨c, m, e, h c m hp⟩

theorem Then.congr {p q : Nat → In → Prop} (h : ∀ c m, p c m ↔ q c m) {i : In} : Then p i ↔ Then q i :=
  ⟨Then.imp fun c m => (h c m).1, Then.imp fun c m => (h c m).2⟩

theorem exponentDigits_iff {buf : Str} {i i' : In} {b : Str} : exponentDigits buf i = .ok (i', b) ↔
    ∃ ds, DigitSeq ds ∧ i = ds.map some ++ i' ∧ b = buf ++ textOf ds ∧ Then (fun c _ => isDigit c = false ∧ ¬ (c = 46 ∨ isLetter c = true)) i' := by
  match i with
  | [] =>
    constructor
    · intro h; cases h
    · rintro ⟨ds, ⟨h, -⟩, h', -⟩
      cases ds <;> simp at h h'
  | none :: t =>
    constructor
    · intro h; cases h
    · rintro ⟨ds, ⟨h, -⟩, h', -⟩
      cases ds <;> simp at h h'
  | some r :: t =>
    rw [exponentDigits]
    by_cases hr : isDigit r = true
    · rw [if_pos hr, consumeUnsigned_iff]
      constructor
      · rintro ⟨cs, h1, rfl, rfl, h2⟩
        exact ⟨r :: cs, ⟨by simp, by simpa [hr] using h1⟩, rfl, by rw [textOf_cons]; simp, h2⟩
      · rintro ⟨ds, ⟨h, h1⟩, h', rfl, h2⟩
        cases ds with
        | nil => exact absurd rfl h
        | cons d ds => cases h'; exact ⟨ds, fun c hc => h1 c (by simp [hc]), rfl, by rw [textOf_cons]; simp, h2⟩
    · rw [if_neg hr]
      constructor
      · intro h; cases h
      · rintro ⟨ds, ⟨h, h1⟩, h', rfl, h2⟩
        cases ds with
        | nil => exact absurd rfl h
        | cons d ds => cases h'; exact absurd (h1 r (by simp)) hr

/-- what follows the `e` -/
theorem consumeExponent_iff {buf : Str} {i i' : In} {b : Str} : consumeExponent buf i = .ok (i', b) ↔
    ∃ sign ds, (sign = [] ∨ sign = [43] ∨ sign = [45]) ∧ DigitSeq ds ∧ i = (sign ++ ds).map some ++ i' ∧ b = buf ++ textOf (sign ++ ds) ∧
      Then (fun c _ => isDigit c = false ∧ ¬ (c = 46 ∨ isLetter c = true)) i' := by
  have none' : ∀ {i : In}, i.head? ≠ some (some 43) → i.head? ≠ some (some 45) → ((∃ sign ds, (sign = [] ∨ sign = [43] ∨ sign = [45]) ∧ DigitSeq ds ∧ i = (sign ++ ds).map some ++ i' ∧ b = buf ++ textOf (sign ++ ds) ∧
      Then (fun c _ => isDigit c = false ∧ ¬ (c = 46 ∨ isLetter c = true)) i') ↔ exponentDigits buf i = .ok (i', b)) := by
    intro i h1 h2
    rw [exponentDigits_iff]
    constructor
    · rintro ⟨sign, ds, hs, hd, rfl, rfl, h⟩
      rcases hs with rfl | rfl | rfl
      · exact ⟨ds, hd, rfl, rfl, h⟩
      · exact absurd rfl h1
      · exact absurd rfl h2
    · rintro ⟨ds, hd, h3, h4, h⟩
      exact ⟨[], ds, .inl rfl, hd, h3, h4, h⟩
  match i with
  | [] =>
    rw [none' (by simp) (by simp)]
    exact ⟨fun h => (by cases h), fun h => (by cases h)⟩
  | none :: t =>
    rw [none' (by simp) (by simp)]
    exact ⟨fun h => (by cases h), fun h => (by cases h)⟩
  | some r :: t =>
    rw [consumeExponent]
    by_cases h0 : r = 0
    · subst h0
      rw [if_pos rfl, none' (by simp) (by simp)]
      exact ⟨fun h => (by cases h), fun h => (by cases h)⟩
    · rw [if_neg h0]
      by_cases h1 : r = 43 ∨ r = 45
      · rw [if_pos h1, exponentDigits_iff]
        constructor
        · rintro ⟨ds, hd, rfl, rfl, h⟩
          refine ⟨[r], ds, ?_, hd, rfl, by rw [List.cons_append, textOf_cons]; simp, h⟩
          rcases h1 with rfl | rfl <;> simp
        · rintro ⟨sign, ds, hs, hd, h3, rfl, h⟩
          rcases hs with rfl | rfl | rfl
          · exfalso
            obtain ⟨h4, h5⟩ := hd
            cases ds with
            | nil => exact h4 rfl
            | cons d ds =>
              cases h3
              have := h5 r (by simp)
              rcases h1 with rfl | rfl <;> simp [isDigit] at this
          · cases h3; exact ⟨ds, hd, rfl, by rw [List.cons_append, textOf_cons]; simp, h⟩
          · cases h3; exact ⟨ds, hd, rfl, by rw [List.cons_append, textOf_cons]; simp, h⟩
      · rw [if_neg h1, none' (by simp; omega) (by simp; omega)]

theorem hexStart_iff {buf : Str} {i i' : In} {b : Str} : hexStart buf i = .ok (i', b) ↔
    ∃ hs, hs ≠ [] ∧ (∀ d ∈ hs, isHex d = true) ∧ i = hs.map some ++ i' ∧ b = buf ++ textOf hs ∧ Then (fun c _ => isHex c = false) i' := by
  match i with
  | [] =>
    constructor
    · intro h; cases h
    · rintro ⟨ds, h, -, h', -⟩
      cases ds <;> simp at h h'
  | none :: t =>
    constructor
    · intro h; cases h
    · rintro ⟨ds, h, -, h', -⟩
      cases ds <;> simp at h h'
  | some r :: t =>
    rw [hexStart]
    by_cases hr : isHex r = true
    · rw [if_pos hr, consumeHex_iff]
      constructor
      · rintro ⟨cs, h1, rfl, rfl, h2⟩
        exact ⟨r :: cs, by simp, by simpa [hr] using h1, rfl, by rw [textOf_cons]; simp, h2.imp fun _ _ h => h.1⟩
      · rintro ⟨ds, h, h1, h', rfl, h2⟩
        cases ds with
        | nil => exact absurd rfl h
        | cons d ds => cases h'; exact ⟨ds, fun c hc => h1 c (by simp [hc]), rfl, by rw [textOf_cons]; simp, h2.imp fun _ _ h => ⟨h, id⟩⟩
    · rw [if_neg hr]
      constructor
      · intro h; cases h
      · rintro ⟨ds, h, h1, h', rfl, h2⟩
        cases ds with
        | nil => exact absurd rfl h
        | cons d ds => cases h'; exact absurd (h1 r (by simp)) hr

/-- what can come after the digits of a number (before or after the dot), with the type that it then has -/
inductive Tail (firstZero : Bool) : Nat → Nat → List Nat → In → Prop
  | stop {ty : Nat} {i : In} (h : Then (fun c more => isDigit c = false ∧ c ≠ 101 ∧ c ≠ 69 ∧ c ≠ 120 ∧ c ≠ 88 ∧ (c = 46 → more.head? = some (some 46))) i) :
      Tail firstZero ty ty [] i
  | exponent {ty : Nat} {es : List Nat} {i : In} (h : Exponent es) (hi : Then (fun c _ => isDigit c = false ∧ isLetter c = false ∧ c ≠ 46) i) :
      Tail firstZero ty tFloat es i
  | hex {ty x : Nat} {hs : List Nat} {i : In} (hf : firstZero = true) (hx : x = 120 ∨ x = 88) (h0 : hs ≠ []) (hh : ∀ d ∈ hs, isHex d = true)
      (hi : Then (fun c _ => isHex c = false) i) : Tail firstZero ty ty (x :: hs) i

theorem digit_range {r : Nat} (h : isDigit r = true) : 48 ≤ r ∧ r ≤ 57 := by unfold isDigit at h; simpa using h

theorem Then.head {p : Nat → In → Prop} {r : Nat} {t : In} : Then p (some r :: t) ↔ p r t := by
  constructor
  · rintro (h | ⟨c, m, h, hp⟩)
    · cases h
    · cases h; exact hp
  · exact fun h => .inr ⟨r, t, rfl, h⟩

theorem Then.not_none {p : Nat → In → Prop} {t : In} : ¬ Then p (none :: t) := by
  rintro (h | ⟨c, m, h, hp⟩) <;> cases h

theorem Tail.not_digit {fz : Bool} {ty ty' d : Nat} {s : List Nat} {i : In} (h : isDigit d = true) : ¬ Tail fz ty ty' (d :: s) i := by
  have hd := digit_range h
  intro ht
  cases ht with
  | exponent h' hi =>
    obtain ⟨e, sign, ds, h1, h2, -⟩ := h'
    cases h1
    omega
  | hex hf hx => omega

theorem Tail.not_dot {fz : Bool} {ty ty' : Nat} {s : List Nat} {i : In} : ¬ Tail fz ty ty' (46 :: s) i := by
  intro ht
  cases ht with
  | exponent h' hi =>
    obtain ⟨e, sign, ds, h1, h2, -⟩ := h'
    cases h1
    omega
  | hex hf hx => omega

theorem not_letter {c : Nat} : (isDigit c = false ∧ ¬ (c = 46 ∨ isLetter c = true)) ↔ (isDigit c = false ∧ isLetter c = false ∧ c ≠ 46) := by
  simp only [not_or, Bool.not_eq_true]
  exact ⟨fun h => ⟨h.1, h.2.2, h.2.1⟩, fun h => ⟨h.1, h.2.2, h.2.1⟩⟩

/-- what can come after the digits: also a fraction, if there is none yet -/
def Rest (fz : Bool) (ty ty' : Nat) (s : List Nat) (i : In) : Prop :=
  Tail fz ty ty' s i ∨ ty ≠ tFloat ∧ ∃ fs s', s = 46 :: fs ++ s' ∧ DigitSeq fs ∧ Tail false tFloat ty' s' i

theorem Rest.not_digit {fz : Bool} {ty ty' d : Nat} {s : List Nat} {i : In} (h : isDigit d = true) : ¬ Rest fz ty ty' (d :: s) i := by
  rintro (h' | ⟨-, fs, s', h', -⟩)
  · exact Tail.not_digit h h'
  · cases h'; cases h

/-- after a digit -/
theorem Rest.digit {fz : Bool} {ty ty' r : Nat} {buf : Str} {t i' : In} {b : Str} (hr : isDigit r = true) :
    (∃ ds s, (∀ d ∈ ds, isDigit d = true) ∧ Rest fz ty ty' s i' ∧ t = (ds ++ s).map some ++ i' ∧ b = buf ++ encode r ++ textOf (ds ++ s)) ↔
    ∃ ds s, (∀ d ∈ ds, isDigit d = true) ∧ Rest fz ty ty' s i' ∧ some r :: t = (ds ++ s).map some ++ i' ∧ b = buf ++ textOf (ds ++ s) := by
  constructor
  · rintro ⟨ds, s, h1, h2, rfl, rfl⟩
    exact ⟨r :: ds, s, by simpa [hr] using h1, h2, rfl, by rw [List.cons_append, textOf_cons]; simp⟩
  · rintro ⟨ds, s, h1, h2, h3, rfl⟩
    cases ds with
    | nil =>
      cases s with
      | nil =>
        simp only [List.append_nil, List.map_nil, List.nil_append] at h3
        subst h3
        rcases h2 with h2 | ⟨-, fs, s', h', -⟩
        · cases h2 with
          | stop h => rw [Then.head] at h; rw [hr] at h; cases h.1
          | exponent h => obtain ⟨e, sign, ds, h1, -⟩ := h; cases h1
        · cases h'
      | cons c s => cases h3; exact absurd h2 (Rest.not_digit hr)
    | cons d ds =>
      cases h3
      exact ⟨ds, s, fun c hc => h1 c (by simp [hc]), h2, rfl, by rw [List.cons_append, textOf_cons]; simp⟩

/-- at a character that is no digit there are no digits -/
theorem Rest.none {fz : Bool} {ty ty' : Nat} {buf : Str} {i i' : In} {b : Str} (hr : ∀ r, i.head? = some (some r) → isDigit r = false) :
    (∃ ds s, (∀ d ∈ ds, isDigit d = true) ∧ Rest fz ty ty' s i' ∧ i = (ds ++ s).map some ++ i' ∧ b = buf ++ textOf (ds ++ s)) ↔
    ∃ s, Rest fz ty ty' s i' ∧ i = s.map some ++ i' ∧ b = buf ++ textOf s := by
  constructor
  · rintro ⟨ds, s, h1, h2, rfl, rfl⟩
    cases ds with
    | nil => exact ⟨s, h2, rfl, rfl⟩
    | cons d ds =>
      have := hr d rfl
      rw [h1 d (by simp)] at this; cases this
  · rintro ⟨s, h2, h3, h4⟩
    exact ⟨[], s, by simp, h2, h3, h4⟩

theorem Tail.ty_float {ty' : Nat} {s : List Nat} {i : In} (h : Tail false tFloat ty' s i) : ty' = tFloat := by
  cases h with
  | stop => rfl
  | exponent => rfl
  | hex hf => cases hf

/-- how what follows the digits begins -/
theorem Rest.cons_inv {fz : Bool} {ty ty' c : Nat} {s : List Nat} {i : In} (h : Rest fz ty ty' (c :: s) i) :
    ((c = 101 ∨ c = 69) ∧ ty' = tFloat ∧ ∃ sign ds, (sign = [] ∨ sign = [43] ∨ sign = [45]) ∧ DigitSeq ds ∧ s = sign ++ ds ∧
      Then (fun c _ => isDigit c = false ∧ isLetter c = false ∧ c ≠ 46) i) ∨
    ((c = 120 ∨ c = 88) ∧ fz = true ∧ ty' = ty ∧ s ≠ [] ∧ (∀ d ∈ s, isHex d = true) ∧ Then (fun c _ => isHex c = false) i) ∨
    (c = 46 ∧ ty ≠ tFloat ∧ ∃ fs s', s = fs ++ s' ∧ DigitSeq fs ∧ Tail false tFloat ty' s' i) := by
  rcases h with h | ⟨h1, fs, s', h2, h3, h4⟩
  · cases h with
    | exponent h hi =>
      obtain ⟨e, sign, ds, h1, h2, h3, h4⟩ := h
      cases h1
      exact .inl ⟨h2, rfl, sign, ds, h3, h4, rfl, hi⟩
    | hex hf hx h0 hh hi => exact .inr (.inl ⟨hx, hf, rfl, h0, hh, hi⟩)
  · cases h2
    exact .inr (.inr ⟨rfl, h1, fs, s', rfl, h3, h4⟩)

theorem Rest.nil_inv {fz : Bool} {ty ty' : Nat} {i : In} (h : Rest fz ty ty' [] i) : ty' = ty ∧
    Then (fun c more => isDigit c = false ∧ c ≠ 101 ∧ c ≠ 69 ∧ c ≠ 120 ∧ c ≠ 88 ∧ (c = 46 → more.head? = some (some 46))) i := by
  rcases h with h | ⟨h1, fs, s', h2, h3, h4⟩
  · cases h with
    | stop h => exact ⟨rfl, h⟩
    | exponent h => obtain ⟨e, sign, ds, h1, -⟩ := h; cases h1
  · cases h2

theorem ok_of_map {α β : Type} {x : Lex α} {g : α → β} {b : β} : x.map g = .ok b ↔ ∃ a, x = .ok a ∧ g a = b := by
  cases x with
  | ok a => exact ⟨fun h => ⟨a, rfl, by cases h; rfl⟩, fun ⟨a', h, h'⟩ => by cases h; rw [← h']; rfl⟩
  | error e => exact ⟨fun h => (by cases h), fun ⟨a', h, h'⟩ => by cases h⟩

/-- The loop reads digits and what can come after them. -/
theorem numberLoop_iff (n : Nat) {fz : Bool} {ty : Nat} {buf : Str} {i i' : In} {b : Str} {ty' : Nat} (hn : i.length ≤ n) :
    numberLoop fz ty buf i = .ok (ty', i', b) ↔
    ∃ ds s, (∀ d ∈ ds, isDigit d = true) ∧ Rest fz ty ty' s i' ∧ i = (ds ++ s).map some ++ i' ∧ b = buf ++ textOf (ds ++ s) := by
  induction n generalizing fz ty buf i with
  | zero =>
    have : i = [] := List.length_eq_zero_iff.1 (by omega)
    subst this
    rw [Rest.none (by simp), numberLoop]
    constructor
    · intro h; cases h; exact ⟨[], .inl (.stop (.inl rfl)), rfl, by simp [textOf_nil]⟩
    · rintro ⟨s, h1, h2, rfl⟩
      cases s with
      | nil =>
        simp only [List.map_nil, List.nil_append] at h2
        subst h2
        rw [h1.nil_inv.1]
        simp [textOf_nil]
      | cons c s => cases h2
  | succ n ih =>
    match i with
    | [] => exact ih (by simp)
    | none :: t =>
      rw [Rest.none (by simp), numberLoop]
      constructor
      · intro h; cases h
      · rintro ⟨s, h1, h2, rfl⟩
        cases s with
        | nil =>
          simp only [List.map_nil, List.nil_append] at h2
          subst h2
          exact absurd h1.nil_inv.2 Then.not_none
        | cons c s => cases h2
    | some r :: t =>
      simp only [List.length_cons] at hn
      rw [numberLoop.eq_def]; dsimp only
      -- stops before the character
      have stop : isDigit r = false → r ≠ 101 → r ≠ 69 → r ≠ 120 → r ≠ 88 → r ≠ 46 →
          (Except.ok (ty, some r :: t, buf) = (Except.ok (ty', i', b) : Lex _) ↔
            ∃ ds s, (∀ d ∈ ds, isDigit d = true) ∧ Rest fz ty ty' s i' ∧ some r :: t = (ds ++ s).map some ++ i' ∧ b = buf ++ textOf (ds ++ s)) := by
        intro h1 h2 h3 h4 h5 h6
        rw [Rest.none (by intro r' h; cases h; exact h1)]
        constructor
        · intro h; cases h
          exact ⟨[], .inl (.stop (Then.head.2 ⟨h1, h2, h3, h4, h5, fun h => absurd h h6⟩)), rfl, by simp [textOf_nil]⟩
        · rintro ⟨s, h7, h8, rfl⟩
          cases s with
          | nil =>
            simp only [List.map_nil, List.nil_append] at h8
            subst h8
            rw [h7.nil_inv.1]
            simp [textOf_nil]
          | cons c s =>
            cases h8
            rcases h7.cons_inv with ⟨h, -⟩ | ⟨h, -⟩ | ⟨h, -⟩ <;> omega
      by_cases h0 : r = 0
      · rw [if_pos h0]
        exact stop (by rw [h0]; rfl) (by omega) (by omega) (by omega) (by omega) (by omega)
      rw [if_neg h0]
      by_cases h48 : r = 48
      · rw [if_pos h48, ih (by omega), Rest.digit (by rw [h48]; rfl)]
      rw [if_neg h48]
      by_cases he : r = 101 ∨ r = 69
      · rw [if_pos he, ok_of_map, Rest.none (by intro r' h; cases h; rcases he with rfl | rfl <;> rfl)]
        constructor
        · rintro ⟨⟨j, b'⟩, h1, h2⟩
          simp only [Prod.mk.injEq] at h2
          obtain ⟨rfl, rfl, rfl⟩ := h2
          obtain ⟨sign, ds, h3, h4, rfl, rfl, h5⟩ := consumeExponent_iff.1 h1
          exact ⟨r :: (sign ++ ds), .inl (.exponent ⟨r, sign, ds, rfl, he, h3, h4⟩ (h5.imp fun c m h => not_letter.1 h)), rfl, by
            rw [textOf_cons]; simp⟩
        · rintro ⟨s, h1, h2, rfl⟩
          cases s with
          | nil =>
            simp only [List.map_nil, List.nil_append] at h2
            subst h2
            have := Then.head.1 h1.nil_inv.2
            omega
          | cons c s =>
            cases h2
            rcases h1.cons_inv with ⟨h, rfl, sign, ds, h3, h4, rfl, h5⟩ | ⟨h, -⟩ | ⟨h, -⟩
            · exact ⟨_, consumeExponent_iff.2 ⟨sign, ds, h3, h4, rfl, rfl, h5.imp fun c m h => not_letter.2 h⟩, by rw [textOf_cons]; simp⟩
            · omega
            · omega
      rw [if_neg he]
      by_cases hx : r = 120 ∨ r = 88
      · rw [if_pos hx, Rest.none (by intro r' h; cases h; rcases hx with rfl | rfl <;> rfl)]
        cases fz with
        | false =>
          simp only [Bool.false_eq_true, if_false]
          constructor
          · intro h; cases h
          · rintro ⟨s, h1, h2, rfl⟩
            cases s with
            | nil =>
              simp only [List.map_nil, List.nil_append] at h2
              subst h2
              have := Then.head.1 h1.nil_inv.2
              omega
            | cons c s =>
              cases h2
              rcases h1.cons_inv with ⟨h, -⟩ | ⟨h, h', -⟩ | ⟨h, -⟩
              · omega
              · cases h'
              · omega
        | true =>
          simp only [if_true]
          rw [ok_of_map]
          constructor
          · rintro ⟨⟨j, b'⟩, h1, h2⟩
            simp only [Prod.mk.injEq] at h2
            obtain ⟨rfl, rfl, rfl⟩ := h2
            obtain ⟨hs, h3, h4, rfl, rfl, h5⟩ := hexStart_iff.1 h1
            exact ⟨r :: hs, .inl (.hex rfl hx h3 h4 h5), rfl, by rw [textOf_cons]; simp⟩
          · rintro ⟨s, h1, h2, rfl⟩
            cases s with
            | nil =>
              simp only [List.map_nil, List.nil_append] at h2
              subst h2
              have := Then.head.1 h1.nil_inv.2
              omega
            | cons c s =>
              cases h2
              rcases h1.cons_inv with ⟨h, -⟩ | ⟨h, -, rfl, h3, h4, h5⟩ | ⟨h, -⟩
              · omega
              · exact ⟨_, hexStart_iff.2 ⟨s, h3, h4, rfl, rfl, h5⟩, by rw [textOf_cons]; simp⟩
              · omega
      rw [if_neg hx]
      by_cases hd : r = 46
      · subst hd
        rw [if_pos rfl, Rest.none (by intro r' h; cases h; rfl)]
        match t with
        | none :: t =>
          dsimp only
          constructor
          · intro h; cases h
          · rintro ⟨s, h1, h2, rfl⟩
            cases s with
            | nil =>
              simp only [List.map_nil, List.nil_append] at h2
              subst h2
              have := (Then.head.1 h1.nil_inv.2).2.2.2.2.2 rfl
              cases this
            | cons c s =>
              cases s with
              | nil =>
                cases h2
                rcases h1.cons_inv with ⟨h, -⟩ | ⟨h, -⟩ | ⟨h, -, fs, s', h3, h4, h5⟩
                · omega
                · omega
                · have := h4.1
                  cases fs with
                  | nil => exact absurd rfl this
                  | cons f fs => cases h3
              | cons d s => cases h2
        | [] =>
          have : ¬ ∃ s, Rest fz ty ty' s i' ∧ [some 46] = s.map some ++ i' ∧ b = buf ++ textOf s := by
            rintro ⟨s, h1, h2, rfl⟩
            cases s with
            | nil =>
              simp only [List.map_nil, List.nil_append] at h2
              subst h2
              have := (Then.head.1 h1.nil_inv.2).2.2.2.2.2 rfl
              cases this
            | cons c s =>
              cases s with
              | nil =>
                cases h2
                rcases h1.cons_inv with ⟨h, -⟩ | ⟨h, -⟩ | ⟨h, -, fs, s', h3, h4, h5⟩
                · omega
                · omega
                · have := h4.1
                  cases fs with
                  | nil => exact absurd rfl this
                  | cons f fs => cases h3
              | cons d s => cases h2
          dsimp only
          split
          · exact ⟨fun h => (by cases h), fun h => absurd h this⟩
          · exact ⟨fun h => (by cases h), fun h => absurd h this⟩
        | some r2 :: t2 =>
          dsimp only
          simp only [List.length_cons] at hn
          by_cases h2d : r2 = 46
          · rw [if_pos h2d]
            subst h2d
            constructor
            · intro h; cases h
              exact ⟨[], .inl (.stop (Then.head.2 ⟨rfl, by omega, by omega, by omega, by omega, fun _ => rfl⟩)), rfl, by simp [textOf_nil]⟩
            · rintro ⟨s, h1, h2, rfl⟩
              cases s with
              | nil =>
                simp only [List.map_nil, List.nil_append] at h2
                subst h2
                rw [h1.nil_inv.1]
                simp [textOf_nil]
              | cons c s =>
                exfalso
                have hc : c = 46 := by simp only [List.map_cons, List.cons_append, List.cons.injEq, Option.some.injEq] at h2; exact h2.1.symm
                subst hc
                rcases h1.cons_inv with ⟨h, -⟩ | ⟨h, -⟩ | ⟨h, -, fs, s', rfl, h4, h5⟩
                · omega
                · omega
                · have := h4.1
                  cases fs with
                  | nil => exact absurd rfl this
                  | cons f fs =>
                    cases h2
                    have := h4.2 46 (by simp)
                    cases this
          · rw [if_neg h2d]
            have inv : (∃ s, Rest fz ty ty' s i' ∧ some 46 :: some r2 :: t2 = s.map some ++ i' ∧ b = buf ++ textOf s) →
                ty ≠ tFloat ∧ isDigit r2 = true ∧ ∃ fs s', (∀ d ∈ fs, isDigit d = true) ∧ Tail false tFloat ty' s' i' ∧
                  t2 = (fs ++ s').map some ++ i' ∧ b = buf ++ encode 46 ++ encode r2 ++ textOf (fs ++ s') := by
              rintro ⟨s, h1, h2, rfl⟩
              cases s with
              | nil =>
                simp only [List.map_nil, List.nil_append] at h2
                subst h2
                have := (Then.head.1 h1.nil_inv.2).2.2.2.2.2 rfl
                cases this
                exact absurd rfl h2d
              | cons c s =>
                have hc : c = 46 := by simp only [List.map_cons, List.cons_append, List.cons.injEq, Option.some.injEq] at h2; exact h2.1.symm
                subst hc
                rcases h1.cons_inv with ⟨h, -⟩ | ⟨h, -⟩ | ⟨-, h3, fs, s', rfl, h4, h5⟩
                · omega
                · omega
                · have := h4.1
                  cases fs with
                  | nil => exact absurd rfl this
                  | cons f fs =>
                    cases h2
                    exact ⟨h3, h4.2 _ (by simp), fs, s', fun d hd => h4.2 d (by simp [hd]), h5, rfl, by
                      rw [List.cons_append, textOf_cons, textOf_cons]; simp⟩
            by_cases hty : ty ≠ tFloat
            · rw [if_pos hty]
              by_cases hdig : isDigit r2 = true
              · rw [if_pos hdig, ih (by omega)]
                constructor
                · rintro ⟨ds, s, h1, h2, rfl, rfl⟩
                  rcases h2 with h2 | ⟨h2, -⟩
                  · exact ⟨46 :: (r2 :: ds) ++ s, .inr ⟨hty, r2 :: ds, s, rfl, ⟨by simp, by simpa [hdig] using h1⟩, h2⟩, rfl, by
                      rw [List.cons_append, List.cons_append, textOf_cons, textOf_cons]; simp⟩
                  · exact absurd rfl h2
                · intro h
                  obtain ⟨-, -, fs, s', h1, h2, rfl, rfl⟩ := inv h
                  exact ⟨fs, s', h1, .inl h2, rfl, rfl⟩
              · rw [if_neg hdig]
                exact ⟨fun h => (by cases h), fun h => absurd (inv h).2.1 hdig⟩
            · rw [if_neg hty]
              exact ⟨fun h => (by cases h), fun h => absurd (inv h).1 hty⟩
      rw [if_neg hd]
      by_cases hdig : isDigit r = true
      · rw [if_pos hdig, ih (by omega), Rest.digit hdig]
      · rw [if_neg hdig]
        exact stop (by simpa using hdig) (by omega) (by omega) (by omega) (by omega) hd

theorem consumeNumber_iff {r : Nat} {buf : Str} {i i' : In} {b : Str} {ty : Nat} (hr : isDigit r = true) :
    consumeNumber r buf tInteger i = .ok (ty, i', b) ↔
    ∃ s p, Number ty (r :: s) p ∧ Then p i' ∧ i = s.map some ++ i' ∧ b = buf ++ textOf (r :: s) := by
  rw [consumeNumber, numberLoop_iff i.length (Nat.le_refl _)]
  have hti : (tInteger != tFloat) = true := rfl
  constructor
  · rintro ⟨ds, s, h1, h2, rfl, rfl⟩
    have hd : DigitSeq (r :: ds) := ⟨by simp, by simpa [hr] using h1⟩
    have hb : buf ++ encode r ++ textOf (ds ++ s) = buf ++ textOf (r :: (ds ++ s)) := by rw [textOf_cons]; simp
    rw [hb]
    rcases h2 with h2 | ⟨-, fs, s', rfl, h3, h2⟩
    · cases h2 with
      | stop h => exact ⟨ds ++ [], _, by rw [List.append_nil]; exact .integer hd, h, rfl, rfl⟩
      | exponent h hi => exact ⟨ds ++ s, _, .exponent hd h, hi, rfl, rfl⟩
      | hex hf hx h0 hh hi =>
        simp only [hti, Bool.true_and, beq_iff_eq] at hf
        subst hf
        exact ⟨_, _, .hex hx h1 h0 hh, hi, rfl, rfl⟩
    · cases h2 with
      | stop h => exact ⟨ds ++ (46 :: fs ++ []), _, by rw [List.append_nil]; exact .fraction hd h3, h, rfl, rfl⟩
      | exponent h hi =>
        refine ⟨ds ++ (46 :: fs ++ s'), _, ?_, hi, rfl, rfl⟩
        have := Number.both hd h3 h
        rw [List.append_assoc] at this
        exact this
      | hex hf => cases hf
  · rintro ⟨s, p, h1, h2, rfl, rfl⟩
    have hb : ∀ s, buf ++ textOf (r :: s) = buf ++ encode r ++ textOf s := by intro s; rw [textOf_cons]; simp
    rw [hb]
    -- the first digit is one of the digits
    have split : ∀ {ds t : List Nat}, DigitSeq ds → r :: s = ds ++ t → ∃ ds', (∀ d ∈ ds', isDigit d = true) ∧ s = ds' ++ t := by
      intro ds t hd he
      cases ds with
      | nil => exact absurd rfl hd.1
      | cons d ds => cases he; exact ⟨ds, fun d hd' => hd.2 d (by simp [hd']), rfl⟩
    generalize he : r :: s = x at h1
    cases h1 with
    | integer h =>
      obtain ⟨ds, h3, rfl⟩ := split h (he.trans (List.append_nil _).symm)
      exact ⟨ds, [], h3, .inl (.stop h2), rfl, rfl⟩
    | hex hx h h0 hh =>
      cases he
      exact ⟨_, _, h, .inl (.hex rfl hx h0 hh h2), rfl, rfl⟩
    | fraction h h' =>
      obtain ⟨ds, h3, rfl⟩ := split h he
      exact ⟨ds, _, h3, .inr ⟨by decide, _, [], by rw [List.append_nil], h', .stop h2⟩, rfl, rfl⟩
    | exponent h h' =>
      obtain ⟨ds, h3, rfl⟩ := split h he
      exact ⟨ds, _, h3, .inl (.exponent h' h2), rfl, rfl⟩
    | both h h' h'' =>
      rw [List.append_assoc] at he
      obtain ⟨ds, h3, rfl⟩ := split h he
      exact ⟨ds, _, h3, .inr ⟨by decide, _, _, rfl, h', .exponent h'' h2⟩, rfl, rfl⟩

theorem consumeRaw_iff {buf : Str} {i i' : In} {b : Str} : consumeRaw buf i = .ok (i', b) ↔
    ∃ cs, (∀ c ∈ cs, c ≠ 96 ∧ c ≠ 0) ∧ i = (cs ++ [96]).map some ++ i' ∧ b = buf ++ textOf cs := by
  induction i generalizing buf with
  | nil =>
    constructor
    · intro h; cases h
    · rintro ⟨cs, -, h, -⟩; cases cs <;> cases h
  | cons c t ih =>
    cases c with
    | none =>
      constructor
      · intro h; cases h
      · rintro ⟨cs, -, h, -⟩; cases cs <;> cases h
    | some r =>
      rw [consumeRaw]
      by_cases h96 : r = 96
      · rw [if_pos h96]
        subst h96
        constructor
        · intro h; cases h; exact ⟨[], by simp, rfl, by simp [textOf_nil]⟩
        · rintro ⟨cs, h1, h, rfl⟩
          cases cs with
          | nil => cases h; simp [textOf_nil]
          | cons c cs => cases h; exact absurd rfl (h1 96 (by simp)).1
      · rw [if_neg h96]
        by_cases h0 : r = 0
        · rw [if_pos h0]
          subst h0
          constructor
          · intro h; cases h
          · rintro ⟨cs, h1, h, rfl⟩
            cases cs with
            | nil => cases h
            | cons c cs => cases h; exact absurd rfl (h1 0 (by simp)).2
        · rw [if_neg h0, ih]
          constructor
          · rintro ⟨cs, h1, rfl, rfl⟩
            exact ⟨r :: cs, by simpa [h96, h0] using h1, rfl, by rw [textOf_cons]; simp⟩
          · rintro ⟨cs, h1, h, rfl⟩
            cases cs with
            | nil => cases h; exact absurd rfl h96
            | cons c cs => cases h; exact ⟨cs, fun c hc => h1 c (by simp [hc]), rfl, by rw [textOf_cons]; simp⟩

/-- how what is between quotes begins -/
theorem Quoted.cons_inv {q c : Nat} {s cs : List Nat} (hq : q = 34 ∨ q = 39) (h : Quoted q (c :: s) cs) :
    (c ≠ q ∧ c ≠ 92 ∧ c ≠ 10 ∧ c ≠ 0 ∧ ∃ cs', cs = c :: cs' ∧ Quoted q s cs') ∨
    (c = 92 ∧ ∃ d e s' cs', s = d :: s' ∧ cs = e :: cs' ∧ escape d q = .ok e ∧ Quoted q s' cs') := by
  cases h with
  | plain h hs => exact .inl ⟨h.1, h.2.1, h.2.2.1, h.2.2.2, _, rfl, hs⟩
  | newline hs => exact .inr ⟨rfl, _, _, _, _, rfl, rfl, rfl, hs⟩
  | «return» hs => exact .inr ⟨rfl, _, _, _, _, rfl, rfl, rfl, hs⟩
  | tab hs => exact .inr ⟨rfl, _, _, _, _, rfl, rfl, rfl, hs⟩
  | backslash hs => exact .inr ⟨rfl, _, _, _, _, rfl, rfl, rfl, hs⟩
  | quote hs =>
    refine .inr ⟨rfl, _, _, _, _, rfl, rfl, ?_, hs⟩
    rcases hq with rfl | rfl <;> rfl

theorem Quoted.escape {q d e : Nat} {s cs : List Nat} (h : escape d q = .ok e) (hs : Quoted q s cs) : Quoted q (92 :: d :: s) (e :: cs) := by
  unfold Verif.Text.escape at h
  split at h
  · cases h
  split at h
  · rename_i hd; subst hd; cases h; exact .newline hs
  split at h
  · rename_i hd; subst hd; cases h; exact .return hs
  split at h
  · rename_i hd; subst hd; cases h; exact .tab hs
  split at h
  · rename_i hd; subst hd; cases h; exact .backslash hs
  split at h
  · cases h
  · rename_i hd
    have : d = q := Decidable.byContradiction hd
    subst this; cases h; exact .quote hs

theorem consumeString_iff {q : Nat} (hq : q = 34 ∨ q = 39) (n : Nat) {buf : Str} {i i' : In} {b : Str} (hn : i.length ≤ n) : consumeString q buf i = .ok (i', b) ↔
    ∃ s cs, Quoted q s cs ∧ i = (s ++ [q]).map some ++ i' ∧ b = buf ++ textOf cs := by
  induction n generalizing buf i with
  | zero =>
    have : i = [] := List.length_eq_zero_iff.1 (by omega)
    subst this
    constructor
    · intro h; rw [consumeString.eq_def] at h; dsimp only at h; rw [if_neg (by omega)] at h; cases h
    · rintro ⟨s, cs, -, h, -⟩; cases s <;> cases h
  | succ n ih =>
    match i with
    | [] => exact ih (by simp)
    | none :: t =>
      constructor
      · intro h; rw [consumeString.eq_def] at h; cases h
      · rintro ⟨s, cs, -, h, -⟩; cases s <;> cases h
    | some r :: t =>
      simp only [List.length_cons] at hn
      rw [consumeString.eq_def]
      dsimp only
      by_cases h34 : r = q
      · rw [if_pos h34]
        subst h34
        constructor
        · intro h; cases h; exact ⟨[], [], .nil, rfl, by simp [textOf_nil]⟩
        · rintro ⟨s, cs, h1, h, rfl⟩
          cases s with
          | nil => cases h; cases h1; simp [textOf_nil]
          | cons c s =>
            cases h
            rcases (h1.cons_inv hq) with ⟨h, -⟩ | ⟨h, -⟩
            · exact absurd rfl h
            · cases h; omega
      rw [if_neg h34]
      by_cases h0 : r = 0
      · rw [if_pos h0]
        subst h0
        constructor
        · intro h; cases h
        · rintro ⟨s, cs, h1, h, rfl⟩
          cases s with
          | nil => cases h; omega
          | cons c s =>
            cases h
            rcases (h1.cons_inv hq) with ⟨-, -, -, h, -⟩ | ⟨h, -⟩
            · exact absurd rfl h
            · cases h
      rw [if_neg h0]
      by_cases h92 : r = 92
      · rw [if_pos h92]
        subst h92
        have inv : (∃ s cs, Quoted q s cs ∧ some 92 :: t = (s ++ [q]).map some ++ i' ∧ b = buf ++ textOf cs) →
            ∃ d e s cs, t = some d :: ((s ++ [q]).map some ++ i') ∧ escape d q = .ok e ∧ Quoted q s cs ∧ b = buf ++ encode e ++ textOf cs := by
          rintro ⟨s, cs, h1, h, rfl⟩
          cases s with
          | nil => cases h; omega
          | cons c s =>
            cases h
            rcases (h1.cons_inv hq) with ⟨-, h, -⟩ | ⟨-, d, e, s', cs', rfl, rfl, h2, h3⟩
            · exact absurd rfl h
            · exact ⟨d, e, s', cs', rfl, h2, h3, by rw [textOf_cons]; simp⟩
        match t, hn, inv with
        | [], hn, inv =>
          exact ⟨fun h => (by cases h), fun h => by obtain ⟨d, e, s, cs, h1, -⟩ := inv h; cases h1⟩
        | none :: t, hn, inv =>
          exact ⟨fun h => (by cases h), fun h => by obtain ⟨d, e, s, cs, h1, -⟩ := inv h; cases h1⟩
        | some r2 :: t2, hn, inv =>
          simp only [List.length_cons] at hn
          dsimp only
          cases hesc : escape r2 q with
          | error e =>
            refine ⟨fun h => (by cases h), fun h => ?_⟩
            obtain ⟨d, e, s, cs, h1, h2, -⟩ := inv h
            cases h1
            rw [hesc] at h2; cases h2
          | ok c =>
            dsimp only
            rw [ih (by omega)]
            constructor
            · rintro ⟨s, cs, h1, rfl, rfl⟩
              exact ⟨92 :: r2 :: s, c :: cs, .escape hesc h1, rfl, by rw [textOf_cons]; simp⟩
            · intro h
              obtain ⟨d, e, s, cs, h1, h2, h3, rfl⟩ := inv h
              cases h1
              rw [hesc] at h2; cases h2
              exact ⟨s, cs, h3, rfl, rfl⟩
      rw [if_neg h92]
      by_cases h10 : r = 10
      · rw [if_pos h10]
        subst h10
        constructor
        · intro h; cases h
        · rintro ⟨s, cs, h1, h, rfl⟩
          cases s with
          | nil => cases h; omega
          | cons c s =>
            cases h
            rcases (h1.cons_inv hq) with ⟨-, -, h, -⟩ | ⟨h, -⟩
            · exact absurd rfl h
            · cases h
      rw [if_neg h10, ih (by omega)]
      constructor
      · rintro ⟨s, cs, h1, rfl, rfl⟩
        exact ⟨r :: s, r :: cs, .plain ⟨h34, h92, h10, h0⟩ h1, rfl, by rw [textOf_cons]; simp⟩
      · rintro ⟨s, cs, h1, h, rfl⟩
        cases s with
        | nil => cases h; exact absurd rfl h34
        | cons c s =>
          cases h
          rcases (h1.cons_inv hq) with ⟨-, -, -, -, cs', rfl, h2⟩ | ⟨h, -⟩
          · exact ⟨s, cs', h2, rfl, by rw [textOf_cons]; simp⟩
          · exact absurd h h92

/-- how what is between slashes begins -/
theorem Slashed.cons_inv {c : Nat} {s cs : List Nat} (h : Slashed (c :: s) cs) :
    (c ≠ 47 ∧ c ≠ 92 ∧ c ≠ 10 ∧ c ≠ 0 ∧ ∃ cs', cs = c :: cs' ∧ Slashed s cs') ∨
    (c = 92 ∧ ∃ d s' cs', s = d :: s' ∧ d ≠ 0 ∧ cs = (if d = 47 then [47] else [92, d]) ++ cs' ∧ Slashed s' cs') := by
  cases h with
  | plain h hs => exact .inl ⟨h.1, h.2.1, h.2.2.1, h.2.2.2, _, rfl, hs⟩
  | slash hs => exact .inr ⟨rfl, _, _, _, rfl, by decide, rfl, hs⟩
  | other h hs => exact .inr ⟨rfl, _, _, _, rfl, h.2, by rw [if_neg h.1]; rfl, hs⟩

theorem consumeRegexp_iff (n : Nat) {buf : Str} {i i' : In} {b : Str} (hn : i.length ≤ n) : consumeRegexp buf i = .ok (i', b) ↔
    ∃ s cs, Slashed s cs ∧ i = (s ++ [47]).map some ++ i' ∧ b = buf ++ textOf cs := by
  induction n generalizing buf i with
  | zero =>
    have : i = [] := List.length_eq_zero_iff.1 (by omega)
    subst this
    constructor
    · intro h; cases h
    · rintro ⟨s, cs, -, h, -⟩; cases s <;> cases h
  | succ n ih =>
    match i with
    | [] => exact ih (by simp)
    | none :: t =>
      constructor
      · intro h; rw [consumeRegexp.eq_def] at h; cases h
      · rintro ⟨s, cs, -, h, -⟩; cases s <;> cases h
    | some r :: t =>
      simp only [List.length_cons] at hn
      rw [consumeRegexp.eq_def]
      dsimp only
      by_cases h47 : r = 47
      · rw [if_pos h47]
        subst h47
        constructor
        · intro h; cases h; exact ⟨[], [], .nil, rfl, by simp [textOf_nil]⟩
        · rintro ⟨s, cs, h1, h, rfl⟩
          cases s with
          | nil => cases h; cases h1; simp [textOf_nil]
          | cons c s =>
            cases h
            rcases h1.cons_inv with ⟨h, -⟩ | ⟨h, -⟩
            · exact absurd rfl h
            · cases h
      rw [if_neg h47]
      by_cases h92 : r = 92
      · rw [if_pos h92]
        subst h92
        have inv : (∃ s cs, Slashed s cs ∧ some 92 :: t = (s ++ [47]).map some ++ i' ∧ b = buf ++ textOf cs) →
            ∃ d s cs, t = some d :: ((s ++ [47]).map some ++ i') ∧ d ≠ 0 ∧ Slashed s cs ∧ b = buf ++ (if d = 47 then encode 47 else encode 92 ++ encode d) ++ textOf cs := by
          rintro ⟨s, cs, h1, h, rfl⟩
          cases s with
          | nil => cases h
          | cons c s =>
            cases h
            rcases h1.cons_inv with ⟨-, h, -⟩ | ⟨-, d, s', cs', rfl, h2, rfl, h3⟩
            · exact absurd rfl h
            · refine ⟨d, s', cs', rfl, h2, h3, ?_⟩
              split
              · rw [List.cons_append, textOf_cons]; simp
              · rw [List.cons_append, List.cons_append, textOf_cons, textOf_cons]; simp
        match t, hn, inv with
        | [], hn, inv =>
          exact ⟨fun h => (by cases h), fun h => by obtain ⟨d, s, cs, h1, -⟩ := inv h; cases h1⟩
        | none :: t, hn, inv =>
          exact ⟨fun h => (by cases h), fun h => by obtain ⟨d, s, cs, h1, -⟩ := inv h; cases h1⟩
        | some r2 :: t2, hn, inv =>
          simp only [List.length_cons] at hn
          dsimp only
          by_cases h20 : r2 = 0
          · rw [if_pos h20]
            refine ⟨fun h => (by cases h), fun h => ?_⟩
            obtain ⟨d, s, cs, h1, h2, -⟩ := inv h
            cases h1
            exact absurd h20 h2
          rw [if_neg h20]
          by_cases h247 : r2 = 47
          · rw [if_pos h247, ih (by omega)]
            subst h247
            constructor
            · rintro ⟨s, cs, h1, rfl, rfl⟩
              exact ⟨92 :: 47 :: s, 47 :: cs, .slash h1, rfl, by rw [textOf_cons]; simp⟩
            · intro h
              obtain ⟨d, s, cs, h1, h2, h3, rfl⟩ := inv h
              cases h1
              exact ⟨s, cs, h3, rfl, rfl⟩
          · rw [if_neg h247, ih (by omega)]
            constructor
            · rintro ⟨s, cs, h1, rfl, rfl⟩
              exact ⟨92 :: r2 :: s, 92 :: r2 :: cs, .other ⟨h247, h20⟩ h1, rfl, by rw [textOf_cons, textOf_cons]; simp⟩
            · intro h
              obtain ⟨d, s, cs, h1, h2, h3, rfl⟩ := inv h
              cases h1
              exact ⟨s, cs, h3, rfl, by rw [if_neg h247]; simp⟩
      rw [if_neg h92]
      by_cases h10 : r = 0 ∨ r = 10
      · rw [if_pos h10]
        constructor
        · intro h; cases h
        · rintro ⟨s, cs, h1, h, rfl⟩
          cases s with
          | nil => cases h; omega
          | cons c s =>
            cases h
            rcases h1.cons_inv with ⟨-, -, h, h', -⟩ | ⟨h, -⟩ <;> omega
      rw [if_neg h10, ih (by omega)]
      constructor
      · rintro ⟨s, cs, h1, rfl, rfl⟩
        exact ⟨r :: s, r :: cs, .plain ⟨h47, h92, by omega, by omega⟩ h1, rfl, by rw [textOf_cons]; simp⟩
      · rintro ⟨s, cs, h1, h, rfl⟩
        cases s with
        | nil => cases h; exact absurd rfl h47
        | cons c s =>
          cases h
          rcases h1.cons_inv with ⟨-, -, -, -, cs', rfl, h2⟩ | ⟨h, -⟩
          · exact ⟨s, cs', h2, rfl, by rw [textOf_cons]; simp⟩
          · exact absurd h h92

end Verif.Text
