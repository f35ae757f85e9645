import Verif.Text.Number
/-!
# The lexer of pcore expressions

streamer/pcore/lexer.go, on the runes that are left as in Text/Lexer.lean.  The functions `ConsumeNumber`, `ConsumeString` and
`ConsumeRegexp` of the package `parser` are those of Text/Lexer.lean.
-/
set_option autoImplicit false
set_option linter.unusedVariables false
namespace Verif.Pcore
open Verif.Value (Str)
open Verif.Text

/-- `name` and `rocket`: lexer.go:19-20.  The constants before them (lexer.go:13-18) are the same as in the package `parser`. -/
def tName : Nat := 6
def tRocket : Nat := 7

/-- `consumeLineComment`: lexer.go:114-121. -/
def consumeComment : In → Lex In
  | [] => .ok []
  | none :: _ => .error .unicode
  | some r :: t => if r = 0 ∨ r = 10 then .ok t else consumeComment t

/-- The loops of `consumeIdentifier` and `consumeTypeName`: lexer.go:123-152 and 154-183.  They differ in the character that must
follow `::`. -/
def nameLoop (start : Nat → Bool) (buf : Str) : In → Lex (In × Str)
  | [] => .ok ([], buf)
  | none :: _ => .error .unicode
  | some r :: t =>
    if r = 0 then .ok (some r :: t, buf)
    else if r = 58 then
      match t with
      | [] => .error (.unexpected 0)
      | none :: _ => .error .unicode
      | some r2 :: t2 =>
        if r2 = 58 then
          match t2 with
          | [] => .error (.unexpected 0)
          | none :: _ => .error .unicode
          | some r3 :: t3 => if start r3 then nameLoop start (buf ++ [58, 58] ++ encode r3) t3 else .error (.unexpected r3)
        else .error (.unexpected r2)
    else if r = 95 ∨ isLetter r ∨ isDigit r then nameLoop start (buf ++ encode r) t
    else .ok (some r :: t, buf)

/-- What must follow `::` in an identifier: lexer.go:137. -/
def identStart (r : Nat) : Bool := r == 95 || isLower r

/-- `buildToken`: lexer.go:95-112. -/
def build (r : Nat) (t : In) : Lex (Token × In) :=
  if isDigit r then (consumeNumber r [] tInteger t).map fun (ty, i, b) => (⟨b, ty⟩, i)
  else if isUpper r then (nameLoop isUpper (encode r) t).map fun (i, b) => (⟨b, tName⟩, i)
  else if isLower r then (nameLoop identStart (encode r) t).map fun (i, b) => (⟨b, tIdentifier⟩, i)
  else .ok (⟨[], r⟩, t)

/-- The case of a sign: lexer.go:79-86.  A plus is kept in the value of the token. -/
def sign (r : Nat) (t : In) : Lex (Token × In) :=
  match t with
  | [] => .error (.unexpected r)
  | none :: _ => .error .unicode
  | some n :: t2 =>
    if n < 48 ∨ n > 57 then .error (.unexpected r)
    else (consumeNumber n (encode r) tInteger t2).map fun (ty, i, b) => (⟨b, ty⟩, i)

/-- The case of `=`: lexer.go:72-78. -/
def equals (t : In) : Lex (Token × In) :=
  match t with
  | none :: _ => .error .unicode
  | some 62 :: t2 => .ok (⟨[61, 62], tRocket⟩, t2)
  | _ => .ok (⟨[], 61⟩, t)

theorem consumeComment_length {i i' : In} (h : consumeComment i = .ok i') : i'.length ≤ i.length := by
  induction i with
  | nil => rw [consumeComment] at h; cases h; exact Nat.le.refl
  | cons r t ih =>
    cases r with
    | none => rw [consumeComment] at h; cases h
    | some r =>
      rw [consumeComment] at h
      split at h
      · cases h; exact Nat.le_succ _
      · exact Nat.le_succ_of_le (ih h)

/-- `nextToken`: lexer.go:55-93. -/
def nextTok (i : In) : Lex (Token × In) :=
  match i with
  | [] => .ok (⟨[], tEnd⟩, [])
  | none :: _ => .error .unicode
  | some r :: t =>
    if r = 0 then .ok (⟨[], tEnd⟩, t)
    else if r = 32 ∨ r = 9 ∨ r = 10 then nextTok t
    else if r = 35 then
      match h : consumeComment t with
      | .error e => .error e
      | .ok t' => nextTok t'
    else if r = 39 ∨ r = 34 then (consumeString r [] t).map fun (i, b) => (⟨b, tString⟩, i)
    else if r = 47 then (consumeRegexp [] t).map fun (i, b) => (⟨b, tRegexp⟩, i)
    else if r = 61 then equals t
    else if r = 45 ∨ r = 43 then sign r t
    else build r t
termination_by i.length
decreasing_by
  · simp
  · have := consumeComment_length h
    simp; omega

theorem nameLoop_suffix {st : Nat → Bool} {buf : Str} {i i' : In} {b : Str} (h : nameLoop st buf i = .ok (i', b)) : i' <:+ i := by
  fun_induction nameLoop st buf i with
  | case1 => cases h; exact List.suffix_refl _
  | case2 => cases h
  | case3 => cases h; exact List.suffix_refl _
  | case4 => cases h
  | case5 => cases h
  | case6 => cases h
  | case7 => cases h
  | case8 _ _ _ _ _ ih => exact (ih h).trans (((List.suffix_cons _ _).trans (List.suffix_cons _ _)).trans (List.suffix_cons _ _))
  | case9 => cases h
  | case10 => cases h
  | case11 _ _ _ _ _ _ ih => exact (ih h).trans (List.suffix_cons _ _)
  | case12 => cases h; exact List.suffix_refl _

theorem build_suffix {r : Nat} (hr : r ≠ 0) {i i' : In} {t : Token} (h : build r i = .ok (t, i')) : i' <:+ i ∧ t.type ≠ tEnd := by
  unfold build at h
  split at h
  · obtain ⟨⟨ty, a, c⟩, h1, h2⟩ := map_ok h
    cases h2
    have := numberLoop_suffix (Or.inl rfl) h1
    exact ⟨this.1, number_ne_end this.2⟩
  · split at h
    · obtain ⟨⟨a, c⟩, h1, h2⟩ := map_ok h
      cases h2
      exact ⟨nameLoop_suffix h1, (by decide : tName ≠ tEnd)⟩
    · split at h
      · obtain ⟨⟨a, c⟩, h1, h2⟩ := map_ok h
        cases h2
        exact ⟨nameLoop_suffix h1, (by decide : tIdentifier ≠ tEnd)⟩
      · cases h; exact ⟨List.suffix_refl _, hr⟩

theorem sign_suffix {r : Nat} {i i' : In} {t : Token} (h : sign r i = .ok (t, i')) : i' <:+ i ∧ t.type ≠ tEnd := by
  unfold sign at h
  split at h
  · cases h
  · cases h
  · split at h
    · cases h
    · obtain ⟨⟨ty, a, c⟩, h1, h2⟩ := map_ok h
      cases h2
      have := numberLoop_suffix (Or.inl rfl) h1
      exact ⟨this.1.trans (List.suffix_cons _ _), number_ne_end this.2⟩

theorem equals_suffix {i i' : In} {t : Token} (h : equals i = .ok (t, i')) : i' <:+ i ∧ t.type ≠ tEnd := by
  unfold equals at h
  split at h
  · cases h
  · cases h; exact ⟨List.suffix_cons _ _, by decide⟩
  · cases h; exact ⟨List.suffix_refl _, by decide⟩

/-- Every token but the end consumes at least one character. -/
theorem nextTok_length {i i' : In} {t : Token} (h : nextTok i = .ok (t, i')) (ht : t.type ≠ tEnd) : i'.length < i.length := by
  fun_induction nextTok i with
  | case1 => cases h; exact absurd rfl ht
  | case2 => cases h
  | case3 _ => cases h; exact absurd rfl ht
  | case4 r u _ _ ih => have := ih h; simp; omega
  | case5 => cases h
  | case6 u u' hc _ _ ih => have := ih h; have := consumeComment_length hc; simp; omega
  | case7 r u =>
    obtain ⟨⟨a, c⟩, h1, h2⟩ := map_ok h
    cases h2
    have := (consumeString_suffix h1).length_le
    simp; omega
  | case8 u =>
    obtain ⟨⟨a, c⟩, h1, h2⟩ := map_ok h
    cases h2
    have := (consumeRegexp_suffix h1).length_le
    simp; omega
  | case9 u => have := (equals_suffix h).1.length_le; simp; omega
  | case10 r u => have := (sign_suffix h).1.length_le; simp; omega
  | case11 r u h0 => have := (build_suffix h0 h).1.length_le; simp; omega

/-- The tokens up to the end: what `NextToken` yields when it is called again and again. -/
def tokens (i : In) : Lex (List Token) :=
  match h : nextTok i with
  | .error e => .error e
  | .ok (t, i') => if ht : t.type = tEnd then .ok [t] else (tokens i').map (t :: ·)
termination_by i.length
decreasing_by exact nextTok_length h ht

theorem tokens_end {i i' : In} {t : Token} (h : nextTok i = .ok (t, i')) (ht : t.type = tEnd) : tokens i = .ok [t] := by
  rw [tokens]
  split
  · rename_i h'; rw [h] at h'; cases h'
  · rename_i h'
    rw [h] at h'; cases h'
    rw [dif_pos ht]

theorem tokens_cons {i i' : In} {t : Token} (h : nextTok i = .ok (t, i')) (ht : t.type ≠ tEnd) : tokens i = (tokens i').map (t :: ·) := by
  rw [tokens]
  split
  · rename_i h'; rw [h] at h'; cases h'
  · rename_i h'
    rw [h] at h'; cases h'
    rw [dif_neg ht]

end Verif.Pcore
