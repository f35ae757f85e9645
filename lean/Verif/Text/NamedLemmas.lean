import Verif.Text.Named
import Verif.Print.Lemmas
/-!
# Lemmas about the text of values of named types
-/
set_option autoImplicit false
set_option linter.unusedVariables false
set_option linter.unusedSimpArgs false
namespace Verif.Text
open Verif.Value (Str Val F64)

/-! ## The text has one line -/

/-- A well formed text of one line -/
def Line (s : Str) : Prop := ∃ cs : List Nat, s = textOf cs ∧ ∀ c ∈ cs, Scalar c ∧ c ≠ 10

theorem Line.nil : Line [] := ⟨[], rfl, by simp⟩

theorem Line.append {s t : Str} (hs : Line s) (ht : Line t) : Line (s ++ t) := by
  obtain ⟨cs, rfl, h1⟩ := hs
  obtain ⟨ds, rfl, h2⟩ := ht
  refine ⟨cs ++ ds, by simp [textOf], fun c hc => ?_⟩
  rcases List.mem_append.1 hc with h | h
  · exact h1 c h
  · exact h2 c h

theorem Line.ascii : ∀ (s : Str), (∀ b ∈ s, b.toNat < 0x80 ∧ b.toNat ≠ 10) → Line s
  | [], _ => .nil
  | b :: s, h => by
    have hb := h b List.mem_cons_self
    have := Line.append ⟨[b.toNat], show [b] = textOf [b.toNat] by simp [textOf, encode_ascii hb.1], by
      intro c hc
      simp only [List.mem_cons, List.not_mem_nil, or_false] at hc
      subst hc
      exact ⟨Or.inl (by omega), hb.2⟩⟩ (Line.ascii s fun x hx => h x (List.mem_cons_of_mem _ hx))
    simpa using this

/-- The same, the last character is not blank -/
def LineEnd (s : Str) : Prop := ∃ (cs : List Nat) (c : Nat), s = textOf (cs ++ [c]) ∧ (∀ d ∈ cs ++ [c], Scalar d ∧ d ≠ 10) ∧ Print.blank c = false

theorem LineEnd.append_end {s t : Str} (hs : Line s) (ht : LineEnd t) : LineEnd (s ++ t) := by
  obtain ⟨cs, rfl, h1⟩ := hs
  obtain ⟨ds, c, rfl, h2, h3⟩ := ht
  refine ⟨cs ++ ds, c, by simp [textOf], fun c hc => ?_, h3⟩
  rw [List.append_assoc] at hc
  rcases List.mem_append.1 hc with h | h
  · exact h1 c h
  · exact h2 c h

theorem LineEnd.line {s : Str} (h : LineEnd s) : Line s := by
  obtain ⟨cs, c, rfl, h1, _⟩ := h
  exact ⟨_, rfl, h1⟩

theorem LineEnd.ascii {s : Str} (hne : s ≠ []) (h : ∀ b ∈ s, b.toNat < 0x80 ∧ b.toNat ≠ 10 ∧ b.toNat ≠ 32 ∧ b.toNat ≠ 9) : LineEnd s := by
  obtain ⟨t, b, rfl⟩ : ∃ t b, s = t ++ [b] := ⟨s.dropLast, s.getLast hne, (List.dropLast_append_getLast hne).symm⟩
  have hb := h b (by simp)
  refine .append_end (.ascii t fun x hx => ⟨(h x (by simp [hx])).1, (h x (by simp [hx])).2.1⟩) ⟨[], b.toNat, ?_, ?_, ?_⟩
  · simp [textOf, encode_ascii hb.1]
  · intro c hc
    simp only [List.nil_append, List.mem_cons, List.not_mem_nil, or_false] at hc
    subst hc
    exact ⟨Or.inl (by omega), hb.2.1⟩
  · simp [Print.blank]; omega

/-- `String` of an indenter returns such a text as it is. -/
theorem stringLoop_line {s : Str} (h : LineEnd s) : Print.stringLoop [] (Print.chars s) = s := by
  obtain ⟨cs, c, rfl, h1, h2⟩ := h
  rw [show textOf (cs ++ [c]) = (cs ++ [c]).flatMap encode from rfl, Print.chars_text fun d hd => (h1 d hd).1, Print.stringLoop_trim,
    Print.trimLines_self]
  rw [Print.lines_single _ fun h => (h1 10 h).2 rfl]
  intro l hl d hd
  simp only [List.mem_cons, List.not_mem_nil, or_false] at hl
  subst hl
  simp at hd
  rw [← hd]; exact h2

theorem LineEnd.digits {ds : Str} (h : Digits ds) : LineEnd ds := .ascii h.1 fun b hb => by have := h.2 b hb; omega
theorem Line.digits {ds : Str} (h : Digits ds) : Line ds := .ascii _ fun b hb => by have := h.2 b hb; omega

theorem line_sign {sg : Str} (h : sg = [] ∨ sg = [43] ∨ sg = [45]) : Line sg := by
  rcases h with rfl | rfl | rfl <;> exact .ascii _ (by decide)

theorem line_escape {isPrint : Nat → Bool} (hp : ∀ c < 32, isPrint c = false) {c : Nat} (h : Quotable isPrint c) : Line (escapeRune isPrint c) := by
  have hs : Scalar c := h.1.1
  unfold escapeRune
  split
  · rename_i hc
    rcases hc with rfl | rfl <;> exact .ascii _ (by decide)
  · split
    · rename_i hpr
      refine ⟨[c], by simp [textOf], ?_⟩
      intro d hd
      simp only [List.mem_cons, List.not_mem_nil, or_false] at hd
      subst hd
      refine ⟨hs, ?_⟩
      rintro rfl
      rw [hp 10 (by decide)] at hpr; cases hpr
    · rename_i h1 h2
      rcases h.2 with h3 | rfl | rfl | rfl | rfl | rfl
      · exact absurd h3 h2
      all_goals exact Line.ascii _ (by decide)

theorem line_quote {isPrint : Nat → Bool} (hp : ∀ c < 32, isPrint c = false) {cs : List Nat} (h : ∀ c ∈ cs, Quotable isPrint c) :
    LineEnd (quote isPrint (textOf cs)) := by
  have loop : ∀ cs : List Nat, (∀ c ∈ cs, Quotable isPrint c) → Line (quoteLoop isPrint (textOf cs)) := by
    intro cs
    induction cs with
    | nil => intro _; rw [show textOf [] = [] from rfl, quoteLoop_nil]; exact .nil
    | cons c cs ih =>
      intro h
      have hc := h c List.mem_cons_self
      rw [show textOf (c :: cs) = encode c ++ textOf cs from List.flatMap_cons, quoteLoop_char _ hc.1.1]
      exact .append (line_escape hp hc) (ih fun x hx => h x (List.mem_cons_of_mem _ hx))
  unfold quote
  exact .append_end (.append (.ascii _ (by decide)) (loop cs h)) (.ascii (by decide) (by decide))

theorem line_int (v : Int) : LineEnd (formatInt v) := by
  have hd : ∀ n, LineEnd (digits n) := fun n => .ascii (by obtain ⟨b, t, h, _⟩ := digits_head n; rw [h]; simp) fun b hb => by
    have := digits_dig n b hb
    unfold Dig at this
    omega
  unfold formatInt
  split
  · exact .append_end (s := [45]) (.ascii _ (by decide)) (hd _)
  · exact hd _

theorem line_float {s : Str} (h : PlainFloat s ∨ ExpFloat s) : LineEnd s := by
  rcases h with ⟨sg, ds, fs, hs, hd, hf, rfl⟩ | ⟨sg, ds, frac, es, xs, hs, hd, hf, he, hx, rfl⟩
  · refine .append_end (.append (.append (line_sign ?_) (.digits hd)) (.ascii _ (by decide))) (.digits hf)
    rcases hs with h | h <;> simp [h]
  · have hfr : Line frac := by
      rcases hf with rfl | ⟨fs, hf, rfl⟩
      · exact .nil
      · exact .append (.ascii _ (by decide)) (.digits hf)
    refine .append_end (.append (.append (.append (.append (line_sign ?_) (.digits hd)) hfr) (.ascii _ (by decide))) (line_sign he)) (.digits hx)
    rcases hs with h | h <;> simp [h]

theorem line_word {s : Str} (h : Word s) : LineEnd s := by
  obtain ⟨b, t, rfl, hb, ht⟩ := h
  refine .ascii (by simp) fun x hx => ?_
  rcases List.mem_cons.1 hx with rfl | hx
  · refine ⟨hb.1, ?_, ?_, ?_⟩ <;> intro h <;> rw [h] at hb <;> exact absurd hb.2 (by decide)
  · have := ht x hx
    refine ⟨this.1, ?_, ?_, ?_⟩ <;> intro h <;> rw [h] at this <;> exact absurd this.2 (by decide)

theorem line_piece {S : SEnv} (hp : ∀ c < 32, S.isPrint c = false) {p : Piece} (h : PieceOk S p) (hr : ∀ s, p ≠ .rx s) : LineEnd (p.text S) := by
  cases p with
  | word s => exact line_word h
  | int v => exact line_int v
  | float f => exact line_float h
  | str s =>
    obtain ⟨cs, h1, rfl⟩ := h
    exact line_quote hp h1
  | rx s => exact absurd rfl (hr s)
  | ch c =>
    refine .ascii (by simp [Piece.text]) fun b hb => ?_
    have hb : b = c := by simpa [Piece.text] using hb
    subst hb
    have := punct_facts h
    omega
  | dots2 => exact LineEnd.ascii (s := [46, 46]) (by decide) (by decide)
  | dots3 => exact LineEnd.ascii (s := [46, 46, 46]) (by decide) (by decide)

theorem line_pieces {S : SEnv} (hp : ∀ c < 32, S.isPrint c = false) : ∀ {ps : List Piece}, ps ≠ [] → Chain S ps → (∀ s, Piece.rx s ∉ ps) →
    LineEnd (textOfPieces S ps)
  | [p], _, h, hr => by
    rw [show textOfPieces S [p] = p.text S from by simp [textOfPieces]]
    exact line_piece hp h fun s e => hr s (e ▸ List.mem_cons_self)
  | p :: q :: ps, _, h, hr => by
    rw [show textOfPieces S (p :: q :: ps) = p.text S ++ textOfPieces S (q :: ps) from List.flatMap_cons]
    exact .append_end (line_piece hp h.head fun s e => hr s (e ▸ List.mem_cons_self)).line
      (line_pieces hp (by simp) h.tail fun s e => hr s (List.mem_cons_of_mem _ e))

/-! ## The tokens of a name and what follows it -/

/-- A name is one token, whatever follows that is no part of it. -/
theorem nextToken_name {s rest : Str} (h : Word s) (hr : runes rest = [] ∨ ∃ r t, runes rest = some r :: t ∧ isId r = false) :
    nextToken (runes (s ++ rest)) = .ok (⟨s, tIdentifier⟩, runes rest) := by
  obtain ⟨b, t, rfl, hb, hx⟩ := h
  have hl := identifier_loop hr t (encode b.toNat) hx
  have hd : isDigit b.toNat = false := by
    cases hd : isDigit b.toNat with
    | false => rfl
    | true =>
      have := hb.2
      unfold isDigit at hd
      unfold isIdStart isLetter isUpper isLower at this
      simp at hd this
      omega
  have hne : b.toNat ≠ 0 ∧ b.toNat ≠ 32 ∧ b.toNat ≠ 9 ∧ b.toNat ≠ 10 ∧ b.toNat ≠ 96 ∧ b.toNat ≠ 34 ∧ b.toNat ≠ 47 ∧ b.toNat ≠ 46 ∧ b.toNat ≠ 45 ∧ b.toNat ≠ 43 := by
    refine ⟨?_, ?_, ?_, ?_, ?_, ?_, ?_, ?_, ?_, ?_⟩ <;> intro h <;> rw [h] at hb <;> exact absurd hb.2 (by decide)
  rw [List.cons_append, runes_ascii hb.1, nextToken.eq_def]
  dsimp only
  rw [if_neg (by omega), if_neg (by omega), if_neg (by omega), if_neg (by omega), if_neg (by omega), if_neg (by omega), if_neg (by omega)]
  unfold buildToken
  rw [hd, if_neg (by simp), if_pos hb.2, hl, encode_ascii hb.1, u8_ext rfl]
  rfl

theorem nextToken_blank (rest : Str) : nextToken (runes (32 :: rest)) = nextToken (runes rest) := by
  rw [runes_ascii (by decide), nextToken.eq_def]
  rfl

theorem tokens_blank (rest : Str) : tokens (runes (32 :: rest)) = tokens (runes rest) := by
  have h := nextToken_blank rest
  rw [tokens.eq_def, tokens.eq_def (runes rest)]
  rw [h]

/-- The argument: nil, or a value that is read back -/
def ArgOk (S : SEnv) (E : PEnv) (d : Val) : Prop := d = .nil ∨ RtVal S E d

mutual
theorem val_norx {S : SEnv} {E : PEnv} (st : Val → List Piece) : (v : Val) → RtVal S E v → ∀ s, Piece.rx s ∉ valPieces S st v
  | .bool b, _, s => by simp [valPieces]
  | .int i, _, s => by simp [valPieces]
  | .float f, _, s => by simp [valPieces]
  | .str x, _, s => by simp [valPieces]
  | .arr vs, h, s => by
    rw [RtVal] at h
    have := vals_norx st vs h.2 s
    simp [valPieces, this]
  | .map es, h, s => by
    rw [RtVal] at h
    have := entries_norx st es h.1 s
    simp [valPieces, this]
  | .nil, h, _ => by rw [RtVal] at h; · exact h.elim
                     all_goals simp
  | .bin _, h, _ => by rw [RtVal] at h; · exact h.elim
                       all_goals simp
  | .time _, h, _ => by rw [RtVal] at h; · exact h.elim
                        all_goals simp
  | .regexp _, h, _ => by rw [RtVal] at h; · exact h.elim
                          all_goals simp
  | .sens _, h, _ => by rw [RtVal] at h; · exact h.elim
                        all_goals simp
  | .entry _ _, h, _ => by rw [RtVal] at h; · exact h.elim
                           all_goals simp

theorem vals_norx {S : SEnv} {E : PEnv} (st : Val → List Piece) : (vs : List Val) → RtVals S E vs → ∀ s, Piece.rx s ∉ valsPieces S st (.ch 44) vs
  | [], _, s => by simp [valsPieces]
  | [v], h, s => by rw [valsPieces]; rw [RtVals] at h; exact val_norx st v h.1 s
  | v :: w :: vs, h, s => by
    rw [RtVals] at h
    have h1 := val_norx st v h.1 s
    have h2 := vals_norx st (w :: vs) h.2 s
    rw [valsPieces]
    · simp only [List.mem_append, not_or]
      exact ⟨⟨h1, by simp⟩, h2⟩
    · simp

theorem entries_norx {S : SEnv} {E : PEnv} (st : Val → List Piece) : (es : List (Val × Val)) → RtEntries S E es → ∀ s, Piece.rx s ∉ entriesPieces S st es
  | [], _, s => by simp [entriesPieces]
  | [(k, v)], h, s => by
    rw [RtEntries] at h
    have h1 := val_norx st k h.1 s
    have h2 := val_norx st v h.2.2.1 s
    simp [entriesPieces, h1, h2]
  | (k, v) :: e :: es, h, s => by
    rw [RtEntries] at h
    have h1 := val_norx st k h.1 s
    have h2 := val_norx st v h.2.2.1 s
    have h3 := entries_norx st (e :: es) h.2.2.2 s
    rw [entriesPieces]
    · simp only [List.mem_append, not_or]
      exact ⟨⟨⟨⟨h1, by simp⟩, h2⟩, by simp⟩, h3⟩
    · simp
end

theorem arg_chain {S : SEnv} {E : PEnv} (st : Val → List Piece) {d : Val} (h : ArgOk S E d) : Chain S (valPieces S st d) := by
  rcases h with rfl | h
  · rw [valPieces]; exact word_ok
  · have := val_emb st d h [] (Or.inl rfl) True.intro
    rwa [List.append_nil] at this

theorem arg_pieces {S : SEnv} {E : PEnv} (st : Val → List Piece) {d : Val} (h : ArgOk S E d) :
    valPieces S st d ≠ [] ∧ ∀ s, Piece.rx s ∉ valPieces S st d := by
  rcases h with rfl | h
  · simp [valPieces]
  · refine ⟨fun e => ?_, val_norx st d h⟩
    obtain ⟨t, ts, h1, _⟩ := val_head st h
    rw [e] at h1; cases h1

theorem arg_te {S : SEnv} {E : PEnv} (st : Val → List Piece) {d : Val} (h : ArgOk S E d) (n : Nat) (hn : (toks S (valPieces S st d)).length ≤ n) :
    AtTe E n (toks S (valPieces S st d)) (pvVal d) := by
  rcases h with rfl | h
  · rw [valPieces] at hn ⊢; exact at_word hn fun _ _ _ => rfl
  · exact val_rt st d h n hn

theorem arg_exact {S : SEnv} {E : PEnv} {d : Val} (h : ArgOk S E d) : exactPV (pvVal d) = .val d := by
  rcases h with rfl | h
  · rfl
  · cases d <;> rfl

/-- What the text of an argument is written with -/
theorem arg_text {S : SEnv} {d : Val} (st : Val → List Piece) (h : joined d = true) : ∃ b t, textOfPieces S (valPieces S st d) = b :: t ∧ b.toNat < 0x80 ∧ isId b.toNat = false := by
  cases d <;> simp only [joined, Bool.false_eq_true] at h
  · rw [valPieces]; exact ⟨34, _, rfl, by decide, by decide⟩
  · rw [valPieces]; exact ⟨123, _, rfl, by decide, by decide⟩
  · rw [valPieces]; exact ⟨123, _, rfl, by decide, by decide⟩

end Verif.Text
