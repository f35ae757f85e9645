import Verif.Text.TokenProps
import Verif.Text.Props
/-!
# C94: the position in the errors of the parser
-/
set_option autoImplicit false
set_option linter.unusedVariables false
set_option linter.unusedSimpArgs false
namespace Verif.Text
open Verif.Value (Str)

/-- `NextToken`, parser.go:213-223, of a reader that has consumed `n` of the characters `cs`: the token, and how many characters are then consumed.  The end
is read like a character, `Reader.next`. -/
def tokenAt (cs : List Nat) (n : Nat) : Lex (Token × Nat) :=
  (nextToken ((cs.drop n).map some)).map fun (t, i) =>
    (t, if (cs.drop n).all (fun c => c = 32 ∨ c = 9 ∨ c = 10) then cs.length + 1 else cs.length - i.length)

/-- The line and the column that `DoParse` adds to an error, parser.go:145-164: `r` is the reader, `t` is the last token (`PeekToken` calls `NextToken`, so it
is the one that the reader has read last).  Left out: that the line is told only if it is not the first, or if there is a file name. -/
def errorPos (r : Reader) (t : Token) : Nat × Int :=
  (r.line, (r.column : Int) - if t.value = [] then 1 else (t.value.length : Int))

/-! ## Specification -/

/-- The line of the character at the index `n`, and its column: the first is 1 -/
def position (cs : List Nat) (n : Nat) : Nat × Nat := (1 + (cs.take n).count 10, 1 + sinceBreak (cs.take n))

/-- The token is not a string or regexp, nor a number with a plus sign -/
def Plain (t : Token) (src : List Nat) : Prop := t.type ≠ tString ∧ t.type ≠ tRegexp ∧ src.head? ≠ some 43

/-! ## Lemmas -/

theorem nexts {cs : List Nat} (k n : Nat) : ∃ x, specCalls cs false n (List.replicate k .next) = some (x, n + k) := by
  induction k generalizing n with
  | zero => exact ⟨[], rfl⟩
  | succ k ih =>
    rw [List.replicate_succ, specCalls]
    have : ∃ c, charAt cs false n = some c := by
      unfold charAt
      cases cs[n]? with
      | none => exact ⟨0, rfl⟩
      | some c => exact ⟨c, rfl⟩
    obtain ⟨c, hc⟩ := this
    obtain ⟨x, hx⟩ := ih (n + 1)
    refine ⟨[c] ++ x, ?_⟩
    rw [specCall, hc]
    simp only [Option.map_some]
    rw [hx, Nat.add_right_comm, Nat.add_assoc]
    rfl

/-- the position of a reader that has consumed `n` characters -/
theorem reader_pos {s : Str} {cs : List Nat} (h : IsText s cs false) (n : Nat) (t : Token) :
    ((newReader s).calls (List.replicate n .next)).map (fun x => errorPos x.2 t) =
      some (1 + (cs.take n).count 10, (1 + sinceBreak (cs.take n) + (if 10 ∈ cs.take n then 1 else 0) + (if cs.length < n then 1 else 0) : Nat) -
        if t.value = [] then 1 else (t.value.length : Int)) := by
  have hc := RInv.calls h (List.replicate n .next) (RInv.start h (r := newReader s) rfl rfl rfl rfl)
  obtain ⟨x, hx⟩ := nexts (cs := cs) n 0
  rw [hx, Nat.zero_add] at hc
  cases hr : (newReader s).calls (List.replicate n .next) with
  | none => rw [hr] at hc; cases hc
  | some y =>
    rw [hr] at hc
    simp only [Option.map_some, Option.some.injEq, Prod.mk.injEq, specPos] at hc
    simp only [Option.map_some, errorPos, hc.2.1, hc.2.2]

theorem ascii_length {cs : List Nat} (h : ∀ c ∈ cs, c < 128) : (textOf cs).length = cs.length := by
  induction cs with
  | nil => rfl
  | cons c cs ih =>
    rw [textOf_cons, List.length_append, ih fun c hc => h c (by simp [hc]), encode, if_pos (h c (by simp))]
    simp
    omega

theorem hex_ascii {c : Nat} (h : isHex c = true) : c < 128 ∧ c ≠ 10 := by
  unfold isHex isDigit at h
  simp at h
  omega

theorem id_ascii {c : Nat} (h : isId c = true) : c < 128 ∧ c ≠ 10 := by
  unfold isId isIdStart isLetter isUpper isLower isDigit at h
  simp at h
  omega

theorem number_ascii {ty : Nat} {s : List Nat} {p : Nat → In → Prop} (h : Number ty s p) : s ≠ [] ∧ ∀ c ∈ s, c < 128 ∧ c ≠ 10 := by
  refine ⟨by obtain ⟨r, s', rfl, -⟩ := number_char h; simp, ?_⟩
  have dig : ∀ {c : Nat}, isDigit c = true → c < 128 ∧ c ≠ 10 := fun h => by have := digit_range h; omega
  have exp : ∀ {es : List Nat}, Exponent es → ∀ c ∈ es, c < 128 ∧ c ≠ 10 := by
    rintro es ⟨e, sign, ds, rfl, h1, h2, h3⟩ c hc
    simp only [List.cons_append, List.mem_cons, List.mem_append] at hc
    rcases hc with rfl | hc | hc
    · omega
    · rcases h2 with rfl | rfl | rfl <;> simp at hc <;> omega
    · exact dig (h3.2 c hc)
  cases h with
  | integer h => exact fun c hc => dig (h.2 c hc)
  | hex hx h h0 hh =>
    intro c hc
    simp only [List.cons_append, List.mem_cons, List.mem_append] at hc
    rcases hc with rfl | hc | rfl | hc
    · decide
    · exact dig (h c hc)
    · omega
    · exact hex_ascii (hh c hc)
  | fraction h h' =>
    intro c hc
    simp only [List.mem_cons, List.mem_append] at hc
    rcases hc with hc | rfl | hc
    · exact dig (h.2 c hc)
    · decide
    · exact dig (h'.2 c hc)
  | exponent h he =>
    intro c hc
    rw [List.mem_append] at hc
    exact hc.elim (fun hc => dig (h.2 c hc)) (exp he c)
  | both h h' he =>
    intro c hc
    simp only [List.mem_cons, List.mem_append] at hc
    rcases hc with (hc | rfl | hc) | hc
    · exact dig (h.2 c hc)
    · decide
    · exact dig (h'.2 c hc)
    · exact exp he c hc

/-- The length of the value, and that there is no line end in it -/
theorem plain_length {t : Token} {src : List Nat} {i : In} (h : Lexeme t src i) (hp : Plain t src) (hne : src ≠ []) :
    (if t.value = [] then 1 else (t.value.length : Int)) = src.length ∧ 10 ∉ src := by
  cases h with
  | «end» => exact absurd rfl hne
  | raw h => exact absurd rfl hp.1
  | string h => exact absurd rfl hp.1
  | regexp h => exact absurd rfl hp.2.1
  | plus h hi => exact absurd rfl hp.2.2
  | number h hi =>
    obtain ⟨h1, h2⟩ := number_ascii h
    have hl := ascii_length fun c hc => (h2 c hc).1
    refine ⟨?_, fun hc => absurd rfl (h2 10 hc).2⟩
    rw [if_neg (by intro hc; simp only at hc; rw [hc] at hl; cases src with | nil => exact h1 rfl | cons a b => cases hl)]
    simp only [hl]
  | @minus _ s _ _ h hi =>
    obtain ⟨h1, h2⟩ := number_ascii h
    have hl := ascii_length fun c hc => (h2 c hc).1
    refine ⟨?_, fun hc => ?_⟩
    · rw [if_neg (by simp)]
      simp [hl]
    · simp only [List.mem_cons] at hc
      rcases hc with hc | hc
      · cases hc
      · exact absurd rfl (h2 10 hc).2
  | @identifier c cs _ h hs hi =>
    have h2 : ∀ d ∈ c :: cs, d < 128 ∧ d ≠ 10 := by
      intro d hd
      rw [List.mem_cons] at hd
      rcases hd with rfl | hd
      · exact id_ascii (by simp [isId, h])
      · exact id_ascii (hs d hd)
    have hl := ascii_length fun c hc => (h2 c hc).1
    refine ⟨?_, fun hc => absurd rfl (h2 10 hc).2⟩
    rw [if_neg (by intro hc; simp only at hc; rw [hc] at hl; cases hl)]
    simp only [hl]
  | char h h' =>
    refine ⟨rfl, ?_⟩
    simp at h' ⊢
    omega
  | _ => exact ⟨rfl, by decide⟩

theorem sinceBreak_append {a b : List Nat} (h : 10 ∉ b) : sinceBreak (a ++ b) = sinceBreak a + b.length := by
  unfold sinceBreak
  rw [List.reverse_append, List.takeWhile_append_of_pos (by
    intro c hc
    rw [List.mem_reverse] at hc
    have : c ≠ 10 := fun e => h (e ▸ hc)
    simpa using this)]
  simp
  omega

/-! ## C94 -/

/-- **C94**, in part.  The position that an error has, when `t` is the token read last, is that of the first character of the token.  Left out: strings, regexps
and numbers with a plus sign, and that the column is one more after the first line (`C94_violated`). -/
theorem C94_position_partial {s : Str} {cs : List Nat} (hs : IsText s cs false) {n n' : Nat} {t : Token} (h : tokenAt cs n = .ok (t, n')) :
    ∃ blanks src rest, cs.drop n = blanks ++ src ++ rest ∧ (∀ c ∈ blanks, Blank c) ∧ Lexeme t src (rest.map some) ∧
      (Plain t src → ((newReader s).calls (List.replicate n' .next)).map (fun x => errorPos x.2 t) =
        some ((position cs (n + blanks.length)).1,
          (position cs (n + blanks.length)).2 + if 10 ∈ cs.take (n + blanks.length) then (1 : Int) else 0)) := by
  obtain ⟨⟨t', i⟩, h1, h2⟩ := ok_of_map.1 h
  simp only [Prod.mk.injEq] at h2
  obtain ⟨rfl, rfl⟩ := h2
  obtain ⟨blanks, src, hb, h3, h4⟩ := (C93_tokens _ _ _).1 h1
  obtain ⟨rest, rfl⟩ : ∃ rest, i = List.map some rest := by
    rw [List.map_eq_append_iff] at h3
    obtain ⟨a, b, -, -, h⟩ := h3
    exact ⟨b, h.symm⟩
  have h5 : cs.drop n = blanks ++ src ++ rest := by
    rw [← List.map_append] at h3
    exact (List.map_inj_right fun a b h => Option.some.inj h).1 h3
  refine ⟨blanks, src, rest, h5, hb, h4, fun hp => ?_⟩
  rw [reader_pos hs]
  have hlen : cs.length - n = blanks.length + src.length + rest.length := by
    have := congrArg List.length h5
    simpa [Nat.add_assoc] using this
  by_cases hne : src = []
  · -- the end
    subst hne
    have hv : t'.value = [] ∧ rest = [] := by
      generalize hx : ([] : List Nat) = x at h4
      generalize hy : List.map some rest = y at h4
      cases h4 with
      | «end» => exact ⟨rfl, List.map_eq_nil_iff.1 hy⟩
      | number h' hi => subst hx; exact absurd rfl (number_ascii h').1
      | _ => cases hx
    obtain ⟨hv, rfl⟩ := hv
    rw [List.append_nil, List.append_nil] at h5
    have hall : (cs.drop n).all (fun c => c = 32 ∨ c = 9 ∨ c = 10) = true := by
      rw [h5, List.all_eq_true]
      intro c hc
      simpa [Blank] using hb c hc
    rw [if_pos hall, if_pos hv]
    simp only [List.length_nil, Nat.add_zero] at hlen
    have ht : cs.take (n + blanks.length) = cs := List.take_of_length_le (by omega)
    rw [List.take_of_length_le (Nat.le_succ _), if_pos (Nat.lt_succ_self _)]
    simp only [position, ht]
    congr 2
    split <;> omega
  · have hall : ¬ (cs.drop n).all (fun c => c = 32 ∨ c = 9 ∨ c = 10) = true := by
      intro hall
      rw [List.all_eq_true] at hall
      have hnb := lexeme_head h4
      cases src with
      | nil => exact hne rfl
      | cons d src =>
        refine hnb d rfl ?_
        have := hall d (by rw [h5]; simp)
        simpa [Blank] using this
    rw [if_neg hall]
    obtain ⟨h6, h7⟩ := plain_length h4 hp hne
    rw [h6]
    have hpos : 0 < src.length := List.length_pos_iff.2 hne
    have hnl : n ≤ cs.length := by omega
    have hn : cs.length - (List.map some rest).length = n + blanks.length + src.length := by rw [List.length_map]; omega
    rw [hn]
    have ht : cs.take (n + blanks.length + src.length) = cs.take (n + blanks.length) ++ src := by
      rw [List.take_add]
      congr 1
      rw [← List.drop_drop, h5, List.append_assoc, List.drop_left, List.take_left]
    rw [ht, List.count_append, List.count_eq_zero.2 h7, sinceBreak_append h7, if_neg (show ¬ cs.length < n + blanks.length + src.length by omega)]
    simp only [position, List.mem_append, h7, or_false, Nat.add_zero]
    congr 2
    split <;> omega

/-- the text `[a b]`, whose third token is at column 4 -/
example : tokenAt [91, 97, 32, 98, 93] 2 = .ok (⟨[98], tIdentifier⟩, 4) ∧ IsText [91, 97, 32, 98, 93] [91, 97, 32, 98, 93] false ∧
    Plain ⟨[98], tIdentifier⟩ [98] ∧ position [91, 97, 32, 98, 93] 3 = (1, 4) :=
  ⟨by rfl, ⟨by decide, [], by decide, rfl⟩, by simp [Plain]; decide, by decide⟩

/-- **C94** is violated for strings and for numbers with a plus sign, where the column is too large, and after the first line, where it is one more: the tokens
after `a ` in `a "bc"` and `a +5` are at column 3, and the second token of `a` and `b` on two lines is at column 1. -/
theorem C94_violated :
    (tokenAt [97, 32, 34, 98, 99, 34] 1 = .ok (⟨[98, 99], tString⟩, 6) ∧ position [97, 32, 34, 98, 99, 34] 2 = (1, 3) ∧
      ((newReader [97, 32, 34, 98, 99, 34]).calls (List.replicate 6 .next)).map (fun x => errorPos x.2 ⟨[98, 99], tString⟩) = some (1, 5)) ∧
    (tokenAt [97, 32, 43, 53] 1 = .ok (⟨[53], tInteger⟩, 4) ∧ position [97, 32, 43, 53] 2 = (1, 3) ∧
      ((newReader [97, 32, 43, 53]).calls (List.replicate 4 .next)).map (fun x => errorPos x.2 ⟨[53], tInteger⟩) = some (1, 4)) ∧
    (tokenAt [97, 10, 98] 1 = .ok (⟨[98], tIdentifier⟩, 3) ∧ position [97, 10, 98] 2 = (2, 1) ∧
      ((newReader [97, 10, 98]).calls (List.replicate 3 .next)).map (fun x => errorPos x.2 ⟨[98], tIdentifier⟩) = some (2, 2)) := by
  refine ⟨⟨by rfl, by decide, ?_⟩, ⟨by rfl, by decide, ?_⟩, by rfl, by decide, ?_⟩
  · rw [reader_pos (cs := [97, 32, 34, 98, 99, 34]) ⟨by decide, [], by decide, rfl⟩]; decide
  · rw [reader_pos (cs := [97, 32, 43, 53]) ⟨by decide, [], by decide, rfl⟩]; decide
  · rw [reader_pos (cs := [97, 10, 98]) ⟨by decide, [], by decide, rfl⟩]; decide

end Verif.Text
