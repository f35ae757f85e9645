import Verif.Text.Cursor
import Verif.Text.Literal
import Verif.Text.Number
/-!
# C36, C37, C39, C40: reading text
-/
set_option autoImplicit false
namespace Verif.Text
open Verif.Value (Str)

/-! ### C36: string literals -/

theorem nextToken_quote (isPrint : Nat → Bool) (s rest : Str) : nextToken (runes (quote isPrint s ++ rest)) =
    (consumeString 34 [] (runes (quoteLoop isPrint s ++ ([34] ++ rest)))).map fun x => (⟨x.2, tString⟩, x.1) := by
  unfold quote
  rw [List.append_assoc, List.append_assoc, List.cons_append, List.nil_append, runes_ascii (by decide), nextToken.eq_def]
  rfl

/-- **C36, as far as it holds.**  A quoted string is read back, as one string token, if all of its characters are printable
(`strconv.IsPrint`) or one of tab, newline, carriage return, quote and backslash, and U+FFFD does not occur; what follows is left
as it is.  Otherwise reading fails: there is no string that is read as a different one.  (The full claim, that every string is
read back, is false: `C36_violated`.)  `hp`: control characters are not printable. -/
theorem C36_partial {isPrint : Nat → Bool} (hp : ∀ c < 32, isPrint c = false) (s rest : Str) :
    ((∃ cs : List Nat, (∀ c ∈ cs, Readable c ∧ (isPrint c = true ∨ c ∈ [9, 10, 13, 34, 92])) ∧ s = textOf cs) →
      nextToken (runes (quote isPrint s ++ rest)) = .ok (⟨s, tString⟩, runes rest)) ∧
    ((¬ ∃ cs : List Nat, (∀ c ∈ cs, Readable c ∧ (isPrint c = true ∨ c ∈ [9, 10, 13, 34, 92])) ∧ s = textOf cs) →
      ∃ e, nextToken (runes (quote isPrint s ++ rest)) = .error e) := by
  have hq : ∀ c, Quotable isPrint c ↔ (Readable c ∧ (isPrint c = true ∨ c ∈ [9, 10, 13, 34, 92])) := by
    intro c; unfold Quotable; simp
  have h := consume_quoted hp s rest []
  simp only [hq] at h
  rw [nextToken_quote]
  rcases h with ⟨h1, h2⟩ | ⟨h1, e, h2⟩
  · rw [h2]; exact ⟨fun _ => rfl, fun hn => absurd h1 hn⟩
  · rw [h2]; exact ⟨fun h => absurd h h1, fun _ => ⟨e, rfl⟩⟩

/-- The characters `a "\` and a line break are read back. -/
example : nextToken (runes (quote (fun c => decide (32 ≤ c ∧ c < 127)) [97, 32, 34, 92, 10] ++ [44])) =
    .ok (⟨[97, 32, 34, 92, 10], tString⟩, runes [44]) :=
  (C36_partial (isPrint := fun c => decide (32 ≤ c ∧ c < 127)) (by intro c hc; simp; omega) [97, 32, 34, 92, 10] [44]).1
    ⟨[97, 32, 34, 92, 10], by decide, rfl⟩

/-- **C36 is violated.**  The string that is the bell character is printed in a form that the parser rejects, whatever
characters are printable. -/
theorem C36_violated {isPrint : Nat → Bool} (hp : ∀ c < 32, isPrint c = false) :
    ∃ e, nextToken (runes (quote isPrint [7] ++ [])) = .error e := by
  refine (C36_partial hp [7] []).2 ?_
  rintro ⟨cs, h1, h2⟩
  match cs, h1, h2 with
  | [], _, h2 => cases h2
  | c :: cs, h1, h2 =>
    have hc := h1 c List.mem_cons_self
    rw [textOf, List.flatMap_cons] at h2
    have he := encode_inj (c := 7) (c' := c) (by decide) hc.1.1 (r := []) (r' := cs.flatMap encode) h2
    rw [← he.1] at hc
    rw [hp 7 (by decide)] at hc
    simp at hc

/-! ### C37: regular expressions -/

theorem nextToken_slash (s rest : Str) : nextToken (runes (slashQuote s ++ rest)) =
    (consumeRegexp [] (runes (slashLoop s ++ ([47] ++ rest)))).map fun x => (⟨x.2, tRegexp⟩, x.1) := by
  unfold slashQuote
  rw [List.append_assoc, List.append_assoc, List.cons_append, List.nil_append, runes_ascii (by decide), nextToken.eq_def]
  rfl

/-- **C37, as far as it holds.**  The source of a regular expression, printed between slashes, is read back exactly if it has
no backslash, no control character and no U+FFFD.  (The full claim is false: `C37_violated`.) -/
theorem C37_partial {cs : List Nat} (h : ∀ c ∈ cs, Scalar c) (rest : Str) :
    nextToken (runes (slashQuote (textOf cs) ++ rest)) = .ok (⟨textOf cs, tRegexp⟩, runes rest) ↔
      ∀ c ∈ cs, 32 ≤ c ∧ c ≠ 92 ∧ c ≠ 0xfffd := by
  rw [nextToken_slash]
  have inj : ∀ {cs cs' : List Nat}, (∀ c ∈ cs, Scalar c) → (∀ c ∈ cs', Scalar c) → textOf cs = textOf cs' → cs = cs' := by
    intro cs
    induction cs with
    | nil =>
      intro cs' _ _ h
      cases cs' with
      | nil => rfl
      | cons c cs' =>
        rw [textOf, textOf, List.flatMap_cons] at h
        exact absurd (List.append_eq_nil_iff.1 h.symm).1 (encode_ne_nil c)
    | cons c cs ih =>
      intro cs' h1 h2 h
      cases cs' with
      | nil =>
        rw [textOf, textOf, List.flatMap_cons] at h
        exact absurd (List.append_eq_nil_iff.1 h).1 (encode_ne_nil c)
      | cons c' cs' =>
        rw [textOf, textOf, List.flatMap_cons, List.flatMap_cons] at h
        obtain ⟨hc, h'⟩ := encode_inj (h1 c List.mem_cons_self) (h2 c' List.mem_cons_self) h
        rw [ih (fun c hc => h1 c (List.mem_cons_of_mem _ hc)) (fun c hc => h2 c (List.mem_cons_of_mem _ hc)) h', hc]
  rcases regexp_quoted (textOf cs) rest [] with ⟨cs', h1, h2, h3⟩ | ⟨h1, h2⟩
  · have := inj h (fun c hc => (h1 c hc).1) h2
    subst this
    rw [h3]
    have ha := slashRead_all h1
    rw [List.nil_append]
    constructor
    · intro hh
      simp only [Except.map, Except.ok.injEq, Prod.mk.injEq, Token.mk.injEq, and_true] at hh
      exact fun c hc => ⟨(ha.1 hh c hc).1, (ha.1 hh c hc).2, (h1 c hc).2⟩
    · intro hh
      rw [ha.2 fun c hc => ⟨(hh c hc).1, (hh c hc).2.1⟩]
      rfl
  · rw [h2]
    constructor
    · intro hh; cases hh
    · intro hh
      exact absurd ⟨cs, fun c hc => ⟨h c hc, (hh c hc).2.2⟩, rfl⟩ h1

/-- `a/b.` is read back. -/
example : nextToken (runes (slashQuote (textOf [97, 47, 98, 46]) ++ [])) = .ok (⟨textOf [97, 47, 98, 46], tRegexp⟩, runes []) :=
  (C37_partial (by decide) []).2 (by decide)

/-- **C37 is violated.**  The pattern `\d` is read back as `\\d`, a pattern for a backslash followed by the letter d. -/
theorem C37_violated : nextToken (runes (slashQuote [92, 100] ++ [])) = .ok (⟨[92, 92, 100], tRegexp⟩, runes []) := by
  rw [nextToken_slash]
  rcases regexp_quoted [92, 100] [] [] with ⟨cs', h1, h2, hx⟩ | ⟨h1, h2⟩
  · have : cs' = [92, 100] := by
      match cs', h1, h2 with
      | [], _, h2 => cases h2
      | c :: cs, h1, h2 =>
        rw [textOf, List.flatMap_cons] at h2
        obtain ⟨rfl, h3⟩ := encode_inj (c := 92) (c' := c) (by decide) (h1 c List.mem_cons_self).1 (r := [100]) h2
        clear h2
        match cs, h1, h3 with
        | [], _, h2 => cases h2
        | c :: cs, h1, h2 =>
          rw [List.flatMap_cons] at h2
          obtain ⟨rfl, h3⟩ := encode_inj (c := 100) (c' := c) (by decide) (h1 c (by simp)).1 (r := []) h2
          match cs, h3 with
          | [], _ => rfl
          | c :: cs, h2 =>
            rw [List.flatMap_cons] at h2
            exact absurd (List.append_eq_nil_iff.1 h2.symm).1 (encode_ne_nil c)
    subst this
    rw [hx]
    rfl
  · exact absurd ⟨[92, 100], by decide, rfl⟩ h1

/-! ### C39: the lexer -/

/-- The token source: `NextToken` is called `n` times, an error ends it. -/
def lexed (i : In) : Nat → Lex (List Token × In)
  | 0 => .ok ([], i)
  | n + 1 =>
    match nextToken i with
    | .error e => .error e
    | .ok (t, i') => (lexed i' n).map fun x => (t :: x.1, x.2)

/-- **C39 (progress).**  A token is made of characters at the front of what is left, and at least one, except for the end token
that is the answer when only blanks are left (then and at a character NUL). -/
theorem C39_progress {i i' : In} {t : Token} (h : nextToken i = .ok (t, i')) :
    (∃ used, used ≠ [] ∧ i = used ++ i' ∧ (t.type = 0 → some 0 ∈ used)) ∨
    (t.type = 0 ∧ i' = [] ∧ ∀ c ∈ i, c = some 32 ∨ c = some 9 ∨ c = some 10) := by
  rcases nextToken_suffix h with ⟨r, u, ⟨a, h1⟩, ⟨b, h2⟩, h3⟩ | ⟨h1, h2, h3⟩
  · refine Or.inl ⟨b ++ some r :: a, by simp, ?_, fun ht => ?_⟩
    · rw [← h2, ← h1]; simp
    · rw [h3 ht]; simp
  · exact Or.inr ⟨h2, h1, h3⟩

/-- `int]` has the token `int`, made of three characters. -/
example : nextToken (runes [105, 110, 116, 93]) = .ok (⟨[105, 110, 116], tIdentifier⟩, runes [93]) := by
  simp only [runes_cons, runes_nil]; rfl

theorem runes_length (s : Str) : (runes s).length ≤ s.length := by
  fun_induction runes s with
  | case1 => simp
  | case2 b t h ih => simp only [List.length_cons]; omega
  | case3 b t h1 h2 => simp
  | case4 b t h1 h2 ih =>
    have hl := Verif.Text.runeLen_cons b t
    rw [List.length_drop] at ih
    simp only [List.length_cons] at ih hl ⊢
    omega

/-- **C39 (total).**  On any text, calling `NextToken` again and again gets to the end token or to an error, after at most one call
for each character and one more. -/
theorem C39_total (s : Str) : ∃ n ≤ s.length + 1,
    (∃ e, lexed (runes s) n = .error e) ∨ ∃ ts t i, lexed (runes s) n = .ok (ts ++ [t], i) ∧ t.type = 0 ∧ ∀ x ∈ ts, x.type ≠ 0 := by
  have main : ∀ (k : Nat) (i : In), i.length ≤ k → ∃ n ≤ i.length + 1,
      (∃ e, lexed i n = .error e) ∨ ∃ ts t i', lexed i n = .ok (ts ++ [t], i') ∧ t.type = 0 ∧ ∀ x ∈ ts, x.type ≠ 0 := by
    intro k
    induction k with
    | zero =>
      intro i hi
      have : i = [] := List.length_eq_zero_iff.1 (by omega)
      subst this
      exact ⟨1, by simp, Or.inr ⟨[], ⟨[], tEnd⟩, [], rfl, rfl, by simp⟩⟩
    | succ k ih =>
      intro i hi
      cases hn : nextToken i with
      | error e => exact ⟨1, by omega, Or.inl ⟨e, by rw [lexed, hn]⟩⟩
      | ok x =>
        obtain ⟨t, i'⟩ := x
        by_cases ht : t.type = tEnd
        · exact ⟨1, by omega, Or.inr ⟨[], t, i', by rw [lexed, hn]; rfl, ht, by simp⟩⟩
        · have hl := nextToken_length hn ht
          obtain ⟨n, h1, h2⟩ := ih i' (by omega)
          refine ⟨n + 1, by omega, ?_⟩
          rcases h2 with ⟨e, h2⟩ | ⟨ts, t', i2, h2, h3, h4⟩
          · exact Or.inl ⟨e, by rw [lexed, hn]; dsimp only; rw [h2]; rfl⟩
          · refine Or.inr ⟨t :: ts, t', i2, by rw [lexed, hn]; dsimp only; rw [h2]; rfl, h3, ?_⟩
            intro x hx
            rcases List.mem_cons.1 hx with rfl | hx
            · exact ht
            · exact h4 x hx
  obtain ⟨n, h1, h2⟩ := main _ (runes s) Nat.le.refl
  refine ⟨n, ?_, h2⟩
  have := runes_length s
  omega

/-- `{1}` has three tokens and the end. -/
example : lexed (runes [123, 49, 125]) 4 = .ok ([⟨[], 123⟩, ⟨[49], tInteger⟩, ⟨[], 125⟩, ⟨[], tEnd⟩], []) := by
  simp only [runes_cons, runes_nil]; rfl

/-! ### C40: the string reader -/

/-- Every text is readable characters, up to its end or up to a place where reading panics. -/
theorem C40_texts (s : Str) : ∃ cs bad, IsText s cs bad := by
  obtain ⟨cs, r, h1, h2, h3⟩ := runes_split s
  rcases h3 with ⟨h3, _⟩ | ⟨h3, h4, _⟩
  · exact ⟨cs, false, h1, r, h2, by simpa using h3⟩
  · exact ⟨cs, true, h1, r, h2, by simpa using ⟨h3, h4⟩⟩

/-- **C40.**  Whatever calls are made on a new reader, and in whatever order: the results are those of a number that counts the
characters consumed (`specCalls`); and the line is one more than the number of line breaks consumed. -/
theorem C40_reader {s : Str} {cs : List Nat} {bad : Bool} (h : IsText s cs bad) (ops : List ROp) :
    ((newReader s).calls ops).map (fun x => (x.1, x.2.line)) =
      (specCalls cs bad 0 ops).map fun x => (x.1, 1 + (cs.take x.2).count 10) := by
  have hc := RInv.calls h ops (RInv.start h (r := newReader s) rfl rfl rfl rfl)
  have := congrArg (Option.map fun x : List Nat × Nat × Nat => (x.1, x.2.1)) hc
  rw [Option.map_map, Option.map_map] at this
  exact this

/-- The text `é` and a line break, read with one character looked ahead. -/
example : ((newReader [0xc3, 0xa9, 10]).calls [.peek2, .next, .peek, .next, .next, .rewind, .next]).map (fun x => (x.1, x.2.line)) =
    some ([10, 0xe9, 10, 10, 0, 0xe9], 1) :=
  C40_reader (cs := [0xe9, 10]) (bad := false) ⟨by decide, [], by decide, rfl⟩ _

/-- **C40, columns, as far as it holds.**  The column is one more than the number of characters consumed since the last line
break, plus one if there was a line break, plus one if the end has been read.  (The documentation says that the first column is 1,
which is what it is in the first line; `C40_column_violated` is the second line.) -/
theorem C40_column_partial {s : Str} {cs : List Nat} {bad : Bool} (h : IsText s cs bad) (ops : List ROp) :
    ((newReader s).calls ops).map (fun x => x.2.column) =
      (specCalls cs bad 0 ops).map fun x => 1 + ((cs.take x.2).reverse.takeWhile (· ≠ 10)).length +
        (if 10 ∈ cs.take x.2 then 1 else 0) + (if cs.length < x.2 then 1 else 0) := by
  have hc := RInv.calls h ops (RInv.start h (r := newReader s) rfl rfl rfl rfl)
  have := congrArg (Option.map fun x : List Nat × Nat × Nat => x.2.2) hc
  rw [Option.map_map, Option.map_map] at this
  exact this

/-- Two characters of the first line have been read: column 3. -/
example : ((newReader [97, 98, 99]).calls [.next, .next]).map (fun x => x.2.column) = some 3 :=
  C40_column_partial (cs := [97, 98, 99]) (bad := false) ⟨by decide, [], by decide, rfl⟩ _

/-- **C40, columns, is violated.**  When a line break has just been read, the column is 2 and not 1. -/
theorem C40_column_violated : ((newReader [10, 97]).calls [.next]).map (fun x => x.2.column) = some 2 :=
  C40_column_partial (cs := [10, 97]) (bad := false) ⟨by decide, [], by decide, rfl⟩ _

end Verif.Text
