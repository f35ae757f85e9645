import Verif.Text.LexErr
/-!
# C92: what the errors of the lexer say
-/
set_option autoImplicit false
set_option linter.unusedVariables false
set_option linter.unusedSimpArgs false
namespace Verif.Text
open Verif.Value (Str)
variable {α β : Type}

theorem Tells.of {f : In → Lex α} {f' : In → Lex β} {i i' : In} {g : α → β} (h : ∀ more, f' (i' ++ more) = (f (i ++ more)).map g) (hm : ∀ x, x ∈ i → x ∈ i')
    (hl : i'.getLast? ≠ some (some 46) → i.getLast? ≠ some (some 46)) {e : Err} (ht : Tells f i e) : Tells f' i' e := by
  have stays : ∀ e, Stays f i e → Stays f' i' e := by
    intro e hs more
    rw [h, hs]
    rfl
  have go : CanGoOn f i → CanGoOn f' i' := by
    rintro ⟨more, x, hx⟩
    exact ⟨more, g x, by rw [h, hx]; rfl⟩
  cases e with
  | unexpected r => exact ⟨ht.1, hm _ ht.2.1, fun hc => stays _ (ht.2.2 (hl hc))⟩
  | illegalEscape r => exact ⟨ht.1, hm _ ht.2.1, stays _ ht.2.2⟩
  | unicode => exact ⟨hm _ ht.1, stays _ ht.2⟩
  | unexpectedEnd => exact ht.imp (hm _) go
  | unterminatedString => exact ht.imp (hm _) (Or.imp (hm _) go)
  | unterminatedRegexp => exact ht.imp (hm _) (Or.imp (hm _) go)

theorem map_id (x : Lex α) : x.map (fun a => a) = x := by cases x <;> rfl

/-- after a character that decides how to go on -/
theorem Tells.cons {f : In → Lex α} {f' : In → Lex β} {i : In} {c : Option Nat} {g : α → β} (h : ∀ j, f' (c :: j) = (f j).map g) {e : Err} (ht : Tells f i e) :
    Tells f' (c :: i) e := by
  refine Tells.of (fun more => h _) (fun x hx => List.mem_cons_of_mem _ hx) (fun hc => ?_) ht
  cases i with
  | nil => simp
  | cons d i => rwa [List.getLast?_cons_cons] at hc

theorem Tells.cons' {f f' : In → Lex α} {i : In} {c : Option Nat} (h : ∀ j, f' (c :: j) = f j) {e : Err} (ht : Tells f i e) : Tells f' (c :: i) e :=
  Tells.cons (g := fun a => a) (fun j => by rw [map_id]; exact h j) ht

theorem Tells.cons2 {f f' : In → Lex α} {i : In} {c d : Option Nat} (h : ∀ j, f' (c :: d :: j) = f j) {e : Err} (ht : Tells f i e) : Tells f' (c :: d :: i) e :=
  Tells.cons' (f := fun j => f' (c :: j)) (fun j => rfl) (Tells.cons' h ht)

theorem Tells.unicode' {f : In → Lex α} {t : In} (h : ∀ j, f (none :: j) = .error .unicode) : Tells f (none :: t) .unicode :=
  ⟨by simp, fun more => h _⟩

theorem Tells.token {f : In → Lex α} {r : Nat} {t : In} (h : ∀ j, f (some r :: j) = .error (badToken r)) : Tells f (some r :: t) (badToken r) := by
  unfold badToken at *
  split
  · rename_i h0; subst h0; exact .inl (by simp)
  · rename_i h0
    refine ⟨h0, by simp, fun _ more => ?_⟩
    have := h (t ++ more)
    rw [if_neg h0] at this
    exact this

theorem consumeUnsigned_tells (buf : Str) (i : In) {e : Err} (h : consumeUnsigned buf i = .error e) : Tells (consumeUnsigned buf) i e := by
  induction i generalizing buf with
  | nil => cases h
  | cons c t ih =>
    cases c with
    | none => cases h; exact .unicode' fun j => rfl
    | some r =>
      rw [consumeUnsigned] at h
      by_cases h1 : r = 46 ∨ isLetter r = true
      · rw [if_pos h1] at h
        cases h
        exact .token fun j => by rw [consumeUnsigned, if_pos h1]
      · rw [if_neg h1] at h
        by_cases h2 : isDigit r = true
        · rw [if_pos h2] at h
          exact .cons' (fun j => by rw [consumeUnsigned, if_neg h1, if_pos h2]) (ih _ h)
        · rw [if_neg h2] at h; cases h

theorem exponentDigits_tells (buf : Str) (i : In) {e : Err} (h : exponentDigits buf i = .error e) : Tells (exponentDigits buf) i e := by
  match i with
  | [] => cases h; exact .inr ⟨[some 48], _, rfl⟩
  | none :: t => cases h; exact .unicode' fun j => rfl
  | some r :: t =>
    rw [exponentDigits] at h
    by_cases h1 : isDigit r = true
    · rw [if_pos h1] at h
      exact .cons' (fun j => by rw [exponentDigits, if_pos h1]) (consumeUnsigned_tells _ _ h)
    · rw [if_neg h1] at h
      cases h
      exact .token fun j => by rw [exponentDigits, if_neg h1]

theorem consumeExponent_tells (buf : Str) (i : In) {e : Err} (h : consumeExponent buf i = .error e) : Tells (consumeExponent buf) i e := by
  match i with
  | [] => cases h; exact .inr ⟨[some 48], _, rfl⟩
  | none :: t => cases h; exact .unicode' fun j => rfl
  | some r :: t =>
    rw [consumeExponent] at h
    by_cases h0 : r = 0
    · rw [if_pos h0] at h; cases h; subst h0; exact .inl (by simp)
    · rw [if_neg h0] at h
      by_cases h1 : r = 43 ∨ r = 45
      · rw [if_pos h1] at h
        exact .cons' (fun j => by rw [consumeExponent, if_neg h0, if_pos h1]) (exponentDigits_tells _ _ h)
      · rw [if_neg h1] at h
        exact Tells.of (g := fun a => a) (fun more => by rw [map_id, List.cons_append, consumeExponent, if_neg h0, if_neg h1]) (fun _ hx => hx) (fun hx => hx)
          (exponentDigits_tells _ _ h)

theorem consumeHex_tells (buf : Str) (i : In) {e : Err} (h : consumeHex buf i = .error e) : Tells (consumeHex buf) i e := by
  induction i generalizing buf with
  | nil => cases h
  | cons c t ih =>
    cases c with
    | none => cases h; exact .unicode' fun j => rfl
    | some r =>
      rw [consumeHex] at h
      by_cases h2 : isHex r = true
      · rw [if_pos h2] at h
        exact .cons' (fun j => by rw [consumeHex, if_pos h2]) (ih _ h)
      · rw [if_neg h2] at h; cases h

theorem hexStart_tells (buf : Str) (i : In) {e : Err} (h : hexStart buf i = .error e) : Tells (hexStart buf) i e := by
  match i with
  | [] => cases h; exact .inr ⟨[some 48], _, rfl⟩
  | none :: t => cases h; exact .unicode' fun j => rfl
  | some r :: t =>
    rw [hexStart] at h
    by_cases h1 : isHex r = true
    · rw [if_pos h1] at h
      exact .cons' (fun j => by rw [hexStart, if_pos h1]) (consumeHex_tells _ _ h)
    · rw [if_neg h1] at h
      cases h
      exact .token fun j => by rw [hexStart, if_neg h1]

theorem map_error {x : Lex α} {g : α → β} {e : Err} (h : x.map g = .error e) : x = .error e := by
  cases x with
  | ok a => cases h
  | error e' => cases h; rfl

theorem numberLoop_tells (n : Nat) (fz : Bool) (ty : Nat) (buf : Str) (i : In) (hn : i.length ≤ n) {e : Err} (h : numberLoop fz ty buf i = .error e) :
    Tells (numberLoop fz ty buf) i e := by
  induction n generalizing fz ty buf i with
  | zero =>
    have : i = [] := List.length_eq_zero_iff.1 (by omega)
    subst this
    rw [numberLoop] at h
    cases h
  | succ n ih =>
    match i, hn with
    | [], _ => rw [numberLoop] at h; cases h
    | none :: t, _ => rw [numberLoop] at h; cases h; exact .unicode' fun j => by rw [numberLoop]
    | some r :: t, hn =>
      have hn : t.length ≤ n := by simpa using hn
      have key := fun j => numberLoop.eq_def fz ty buf (some r :: j)
      dsimp only at key
      rw [key] at h
      by_cases h0 : r = 0
      · rw [if_pos h0] at h; cases h
      rw [if_neg h0] at h
      by_cases h48 : r = 48
      · rw [if_pos h48] at h
        exact .cons' (fun j => by rw [key, if_neg h0, if_pos h48]) (ih _ _ _ _ hn h)
      rw [if_neg h48] at h
      by_cases he : r = 101 ∨ r = 69
      · rw [if_pos he] at h
        exact .cons (fun j => by rw [key, if_neg h0, if_neg h48, if_pos he]) (consumeExponent_tells _ _ (map_error h))
      rw [if_neg he] at h
      by_cases hx : r = 120 ∨ r = 88
      · rw [if_pos hx] at h
        by_cases hf : fz = true
        · rw [if_pos hf] at h
          exact .cons (fun j => by rw [key, if_neg h0, if_neg h48, if_neg he, if_pos hx, if_pos hf]) (hexStart_tells _ _ (map_error h))
        · rw [if_neg hf] at h
          cases h
          exact .token fun j => by rw [key, if_neg h0, if_neg h48, if_neg he, if_pos hx, if_neg hf]
      rw [if_neg hx] at h
      by_cases hd : r = 46
      · rw [if_pos hd] at h
        have key2 := fun j => by have := key j; rw [if_neg h0, if_neg h48, if_neg he, if_neg hx, if_pos hd] at this; exact this
        subst hd
        match t, hn with
        | [], _ =>
          dsimp only at h
          by_cases ht : ty ≠ tFloat
          · rw [if_pos ht] at h
            cases h
            refine .inr ⟨[some 48], (tFloat, [], buf ++ encode 46 ++ encode 48), ?_⟩
            show numberLoop fz ty buf [some 46, some 48] = _
            rw [key2]
            simp [ht, isDigit, numberLoop]
          · rw [if_neg ht] at h
            cases h
            exact ⟨by simp, by simp, fun hc => absurd rfl hc⟩
        | none :: t, _ =>
          cases h
          exact ⟨by simp, fun more => by rw [List.cons_append, key2]; rfl⟩
        | some r2 :: t, hn =>
          dsimp only at h
          by_cases hr : r2 = 46
          · rw [if_pos hr] at h; cases h
          rw [if_neg hr] at h
          by_cases ht : ty ≠ tFloat
          · rw [if_pos ht] at h
            by_cases hdg : isDigit r2 = true
            · rw [if_pos hdg] at h
              have := ih _ _ _ t (by simp at hn; omega) h
              exact .cons2 (fun j => by rw [key2]; dsimp only; rw [if_neg hr, if_pos ht, if_pos hdg]) this
            · rw [if_neg hdg] at h
              cases h
              exact .cons' (f := fun j => numberLoop fz ty buf (some 46 :: j)) (fun j => rfl)
                (.token fun j => by rw [key2]; dsimp only; rw [if_neg hr, if_pos ht, if_neg hdg])
          · rw [if_neg ht] at h
            cases h
            refine ⟨by decide, by simp, fun _ more => ?_⟩
            rw [List.cons_append, List.cons_append, key2]
            dsimp only
            rw [if_neg hr, if_neg ht]
            rfl
      rw [if_neg hd] at h
      by_cases hg : isDigit r = true
      · rw [if_pos hg] at h
        exact .cons' (fun j => by rw [key, if_neg h0, if_neg h48, if_neg he, if_neg hx, if_neg hd, if_pos hg]) (ih _ _ _ _ hn h)
      · rw [if_neg hg] at h; cases h

theorem consumeRegexp_tells (n : Nat) (buf : Str) (i : In) (hn : i.length ≤ n) {e : Err} (h : consumeRegexp buf i = .error e) : Tells (consumeRegexp buf) i e := by
  induction n generalizing buf i with
  | zero =>
    have : i = [] := List.length_eq_zero_iff.1 (by omega)
    subst this
    rw [consumeRegexp] at h
    cases h
    exact .inr (.inr ⟨[some 47], ([], buf), by simp [consumeRegexp]⟩)
  | succ n ih =>
    match i, hn with
    | [], _ => rw [consumeRegexp] at h; cases h; exact .inr (.inr ⟨[some 47], ([], buf), by simp [consumeRegexp]⟩)
    | none :: t, _ => rw [consumeRegexp] at h; cases h; exact .unicode' fun j => by rw [consumeRegexp]
    | some r :: t, hn =>
      have hn : t.length ≤ n := by simpa using hn
      have key := fun j => consumeRegexp.eq_def buf (some r :: j)
      dsimp only at key
      rw [key] at h
      by_cases h47 : r = 47
      · rw [if_pos h47] at h; cases h
      rw [if_neg h47] at h
      by_cases h92 : r = 92
      · rw [if_pos h92] at h
        have key2 := fun j => by have := key j; rw [if_neg h47, if_pos h92] at this; exact this
        match t, hn with
        | [], _ =>
          cases h
          refine .inr (.inr ⟨[some 47, some 47], ([], buf ++ encode 47), ?_⟩)
          show consumeRegexp buf [some r, some 47, some 47] = _
          rw [key2]
          simp [consumeRegexp]
        | none :: t, _ =>
          cases h
          exact ⟨by simp, fun more => by rw [List.cons_append, key2]; rfl⟩
        | some r2 :: t, hn =>
          have hn : t.length ≤ n := by simp at hn; omega
          dsimp only at h
          by_cases h0 : r2 = 0
          · rw [if_pos h0] at h; cases h; subst h0; exact .inl (by simp)
          rw [if_neg h0] at h
          by_cases h1 : r2 = 47
          · rw [if_pos h1] at h
            exact .cons2 (fun j => by rw [key2]; dsimp only; rw [if_neg h0, if_pos h1]) (ih _ _ hn h)
          · rw [if_neg h1] at h
            exact .cons2 (fun j => by rw [key2]; dsimp only; rw [if_neg h0, if_neg h1]) (ih _ _ hn h)
      rw [if_neg h92] at h
      by_cases h0 : r = 0 ∨ r = 10
      · rw [if_pos h0] at h
        cases h
        rcases h0 with rfl | rfl
        · exact .inl (by simp)
        · exact .inr (.inl (by simp))
      · rw [if_neg h0] at h
        exact .cons' (fun j => by rw [key, if_neg h47, if_neg h92, if_neg h0]) (ih _ _ hn h)

theorem consumeString_tells (n : Nat) (buf : Str) (i : In) (hn : i.length ≤ n) {e : Err} (h : consumeString 34 buf i = .error e) : Tells (consumeString 34 buf) i e := by
  induction n generalizing buf i with
  | zero =>
    have : i = [] := List.length_eq_zero_iff.1 (by omega)
    subst this
    rw [consumeString, if_neg (by decide)] at h
    cases h
    exact .inr (.inr ⟨[some 34], ([], buf), by simp [consumeString]⟩)
  | succ n ih =>
    match i, hn with
    | [], _ =>
      rw [consumeString, if_neg (by decide)] at h
      cases h
      exact .inr (.inr ⟨[some 34], ([], buf), by simp [consumeString]⟩)
    | none :: t, _ => rw [consumeString] at h; cases h; exact .unicode' fun j => by rw [consumeString]
    | some r :: t, hn =>
      have hn : t.length ≤ n := by simpa using hn
      have key := fun j => consumeString.eq_def 34 buf (some r :: j)
      dsimp only at key
      rw [key] at h
      by_cases h34 : r = 34
      · rw [if_pos h34] at h; cases h
      rw [if_neg h34] at h
      by_cases h0 : r = 0
      · rw [if_pos h0] at h; cases h; subst h0; exact .inl (by simp)
      rw [if_neg h0] at h
      by_cases h92 : r = 92
      · rw [if_pos h92] at h
        have key2 := fun j => by have := key j; rw [if_neg h34, if_neg h0, if_pos h92] at this; exact this
        match t, hn with
        | [], _ =>
          cases h
          refine .inr (.inr ⟨[some 34, some 34], ([], buf ++ encode 34), ?_⟩)
          show consumeString 34 buf [some r, some 34, some 34] = _
          rw [key2]
          simp [consumeString, escape]
        | none :: t, _ =>
          cases h
          exact ⟨by simp, fun more => by rw [List.cons_append, key2]; rfl⟩
        | some r2 :: t, hn =>
          have hn : t.length ≤ n := by simp at hn; omega
          dsimp only at h
          cases hes : escape r2 34 with
          | ok c =>
            rw [hes] at h
            exact .cons2 (fun j => by rw [key2]; dsimp only; rw [hes]) (ih _ _ hn h)
          | error e' =>
            rw [hes] at h
            cases h
            have hst : Stays (consumeString 34 buf) (some r :: some r2 :: t) e := fun more => by
              rw [List.cons_append, List.cons_append, key2]; dsimp only; rw [hes]
            unfold escape at hes
            split at hes
            · rename_i h0; cases hes; subst h0; exact .inl (by simp)
            · rename_i h0
              split at hes <;> try cases hes
              split at hes <;> try cases hes
              split at hes <;> try cases hes
              split at hes <;> try cases hes
              split at hes <;> cases hes
              exact ⟨h0, by simp, hst⟩
      rw [if_neg h92] at h
      by_cases h10 : r = 10
      · rw [if_pos h10] at h
        cases h
        subst h10
        exact .inr (.inl (by simp))
      · rw [if_neg h10] at h
        exact .cons' (fun j => by rw [key, if_neg h34, if_neg h0, if_neg h92, if_neg h10]) (ih _ _ hn h)

theorem consumeRaw_tells (buf : Str) (i : In) {e : Err} (h : consumeRaw buf i = .error e) : Tells (consumeRaw buf) i e := by
  induction i generalizing buf with
  | nil => rw [consumeRaw] at h; cases h; exact .inr (.inr ⟨[some 96], ([], buf), by simp [consumeRaw]⟩)
  | cons c t ih =>
    cases c with
    | none => cases h; exact .unicode' fun j => rfl
    | some r =>
      rw [consumeRaw] at h
      by_cases h1 : r = 96
      · rw [if_pos h1] at h; cases h
      rw [if_neg h1] at h
      by_cases h0 : r = 0
      · rw [if_pos h0] at h; cases h; subst h0; exact .inl (by simp)
      · rw [if_neg h0] at h
        exact .cons' (fun j => by rw [consumeRaw, if_neg h1, if_neg h0]) (ih _ h)

theorem identifierLoop_tells (buf : Str) (i : In) {e : Err} (h : identifierLoop buf i = .error e) : Tells (identifierLoop buf) i e := by
  induction i generalizing buf with
  | nil => cases h
  | cons c t ih =>
    cases c with
    | none => cases h; exact .unicode' fun j => rfl
    | some r =>
      rw [identifierLoop] at h
      by_cases h2 : isId r = true
      · rw [if_pos h2] at h
        exact .cons' (fun j => by rw [identifierLoop, if_pos h2]) (ih _ h)
      · rw [if_neg h2] at h; cases h

theorem Tells.map {f : In → Lex α} {f' : In → Lex β} {g : α → β} {i : In} {e : Err} (h : ∀ j, f' j = (f j).map g) (ht : Tells f i e) : Tells f' i e :=
  .of (fun more => h _) (fun _ hx => hx) (fun hx => hx) ht

theorem buildToken_tells (r : Nat) (t : In) {e : Err} (h : buildToken r t = .error e) : Tells (buildToken r) t e := by
  unfold buildToken at h
  by_cases h1 : isDigit r = true
  · rw [if_pos h1] at h
    exact .map (fun j => by unfold buildToken consumeNumber; rw [if_pos h1]) (numberLoop_tells _ _ _ _ _ (Nat.le_refl _) (map_error h))
  rw [if_neg h1] at h
  by_cases h2 : isIdStart r = true
  · rw [if_pos h2] at h
    exact .map (fun j => by unfold buildToken; rw [if_neg h1, if_pos h2]) (identifierLoop_tells _ _ (map_error h))
  · rw [if_neg h2] at h; cases h

theorem signed_tells (r : Nat) (t : In) {e : Err} (h : signed r t = .error e) : Tells (signed r) t e := by
  match t with
  | [] => cases h; exact .inr ⟨[some 48], (⟨(if r = 45 then [45] else []) ++ encode 48, tInteger⟩, []), by simp [signed, isDigit, consumeNumber, numberLoop, Except.map]⟩
  | none :: t => cases h; exact .unicode' fun j => rfl
  | some n :: t =>
    unfold signed at h
    dsimp only at h
    by_cases h1 : isDigit n = true
    · rw [if_pos h1] at h
      exact .cons (fun j => by unfold signed consumeNumber; dsimp only; rw [if_pos h1]) (numberLoop_tells _ _ _ _ _ (Nat.le_refl _) (map_error h))
    · rw [if_neg h1] at h
      cases h
      exact .token fun j => by unfold signed; dsimp only; rw [if_neg h1]

theorem dots_tells (t : In) {e : Err} (h : dots t = .error e) : Tells dots t e := by
  match t with
  | [] => cases h
  | none :: t => cases h; exact .unicode' fun j => rfl
  | some r2 :: t =>
    unfold dots at h
    dsimp only at h
    by_cases h1 : r2 = 46
    · rw [if_pos h1] at h
      match t with
      | [] => cases h
      | none :: t => cases h; exact ⟨by simp, fun more => by unfold dots; simp [h1]⟩
      | some r3 :: t => dsimp only at h; split at h <;> cases h
    · rw [if_neg h1] at h; cases h

/-- **C92.**  Every error of the lexer tells what is the case. -/
theorem C92_tells (i : In) (e : Err) (h : nextToken i = .error e) : Tells nextToken i e := by
  induction i with
  | nil => cases h
  | cons c t ih =>
    cases c with
    | none => cases h; exact .unicode' fun j => by rw [nextToken]
    | some r =>
      have key := fun j => nextToken.eq_def (some r :: j)
      dsimp only at key
      rw [key] at h
      by_cases h0 : r = 0
      · rw [if_pos h0] at h; cases h
      rw [if_neg h0] at h
      by_cases h1 : r = 32 ∨ r = 9 ∨ r = 10
      · rw [if_pos h1] at h
        exact .cons' (fun j => by rw [key, if_neg h0, if_pos h1]) (ih h)
      rw [if_neg h1] at h
      by_cases h2 : r = 96
      · rw [if_pos h2] at h
        exact .cons (fun j => by rw [key, if_neg h0, if_neg h1, if_pos h2]) (consumeRaw_tells _ _ (map_error h))
      rw [if_neg h2] at h
      by_cases h3 : r = 34
      · rw [if_pos h3] at h
        subst h3
        exact .cons (fun j => by rw [key, if_neg h0, if_neg h1, if_neg h2, if_pos rfl]) (consumeString_tells _ _ _ (Nat.le_refl _) (map_error h))
      rw [if_neg h3] at h
      by_cases h4 : r = 47
      · rw [if_pos h4] at h
        exact .cons (fun j => by rw [key, if_neg h0, if_neg h1, if_neg h2, if_neg h3, if_pos h4]) (consumeRegexp_tells _ _ _ (Nat.le_refl _) (map_error h))
      rw [if_neg h4] at h
      by_cases h5 : r = 46
      · rw [if_pos h5] at h
        exact .cons' (fun j => by rw [key, if_neg h0, if_neg h1, if_neg h2, if_neg h3, if_neg h4, if_pos h5]) (dots_tells _ h)
      rw [if_neg h5] at h
      by_cases h6 : r = 45 ∨ r = 43
      · rw [if_pos h6] at h
        exact .cons' (fun j => by rw [key, if_neg h0, if_neg h1, if_neg h2, if_neg h3, if_neg h4, if_neg h5, if_pos h6]) (signed_tells _ _ h)
      · rw [if_neg h6] at h
        exact .cons' (fun j => by rw [key, if_neg h0, if_neg h1, if_neg h2, if_neg h3, if_neg h4, if_neg h5, if_neg h6]) (buildToken_tells _ _ h)
/-- ` 12a`, `"a\q`, `1e-`, `0x`, `"abc` -/
example : nextToken [some 32, some 49, some 101, some 97] = .error (.unexpected 97) ∧ nextToken [some 34, some 97, some 92, some 113] = .error (.illegalEscape 113) ∧
    nextToken [some 49, some 101, some 45] = .error .unexpectedEnd ∧ nextToken [some 48, some 120] = .error .unexpectedEnd ∧
    nextToken [some 34, some 97, some 98] = .error .unterminatedString := ⟨rfl, rfl, rfl, rfl, rfl⟩

/-- **C92.**  A text without NUL and line ends that is refused is the beginning of one that is not, exactly if the error is an unexpected end or an unterminated
literal.  Left out: texts that end with a dot (`C92_dot_violated`). -/
theorem C92_incomplete_partial (i : In) (e : Err) (h : nextToken i = .error e) (h0 : some 0 ∉ i) (h10 : some 10 ∉ i) (hd : i.getLast? ≠ some (some 46)) :
    CanGoOn nextToken i ↔ e = .unexpectedEnd ∨ e = .unterminatedString ∨ e = .unterminatedRegexp := by
  have ht := C92_tells i e h
  have no : Stays nextToken i e → ¬ CanGoOn nextToken i := by
    rintro hs ⟨more, x, hx⟩
    rw [hs] at hx
    cases hx
  cases e with
  | unexpected r => simpa using no (ht.2.2 hd)
  | illegalEscape r => simpa using no ht.2.2
  | unicode => simpa using no ht.2
  | unexpectedEnd => simpa using ht.resolve_left h0
  | unterminatedString => simpa using (ht.resolve_left h0).resolve_left h10
  | unterminatedRegexp => simpa using (ht.resolve_left h0).resolve_left h10
example : CanGoOn nextToken [some 47, some 97, some 92] := ⟨[some 47, some 47], _, rfl⟩

/-- **C92 is violated** for `1.5.`: the dot is said to be unexpected, but with another one the text is fine. -/
theorem C92_dot_violated : nextToken [some 49, some 46, some 53, some 46] = .error (.unexpected 46) ∧ CanGoOn nextToken [some 49, some 46, some 53, some 46] :=
  ⟨rfl, [some 46], (⟨[49, 46, 53], tFloat⟩, [some 46, some 46]), rfl⟩

end Verif.Text
