import Verif.Text.RereadTy
import Verif.Text.Props
/-!
# The text of a printed type consists of its tokens
-/
set_option autoImplicit false
set_option linter.unusedVariables false
set_option linter.unusedSimpArgs false
namespace Verif.Text
open Verif.Value (Str Val F64)
open Verif.Types (Ty Oid maxInt)

/-! ## Numbers -/

/-- A number, signed or not, is read by `numberLoop` after its first digit. -/
theorem nextToken_number {sg : Str} (hs : sg = [] ∨ sg = [45]) {b : UInt8} (hb : Dig b) (t rest : Str) {ty : Nat} {buf : Str} {i : In}
    (h : numberLoop (b.toNat == 48) tInteger (sg ++ [b]) (runes t) = .ok (ty, i, buf)) :
    nextToken (runes (sg ++ b :: t)) = .ok (⟨buf, ty⟩, i) := by
  have hd : isDigit b.toNat = true := by unfold Dig at hb; unfold isDigit; simp; omega
  unfold Dig at hb
  have he : encode b.toNat = [b] := by rw [encode_ascii (by omega), u8_ext rfl]
  have hc : consumeNumber b.toNat sg tInteger (runes t) = .ok (ty, i, buf) := by
    unfold consumeNumber
    rw [he, ← h]
    rfl
  rcases hs with rfl | rfl
  · rw [List.nil_append, runes_ascii (by omega), nextToken.eq_def]
    dsimp only
    rw [if_neg (by omega), if_neg (by omega), if_neg (by omega), if_neg (by omega), if_neg (by omega), if_neg (by omega), if_neg (by omega)]
    unfold buildToken
    rw [if_pos hd, hc]
    rfl
  · rw [List.cons_append, List.nil_append, runes_ascii (by decide), nextToken.eq_def]
    dsimp only
    rw [if_neg (by decide), if_neg (by decide), if_neg (by decide), if_neg (by decide), if_neg (by decide), if_neg (by decide),
      if_pos (by decide), runes_ascii (by omega)]
    unfold signed
    dsimp only
    rw [if_pos hd, if_pos (by decide), hc]
    rfl

theorem digits_cons {ds : Str} (h : Digits ds) : ∃ b t, ds = b :: t ∧ Dig b ∧ ∀ x ∈ t, Dig x := by
  obtain ⟨h1, h2⟩ := h
  cases ds with
  | nil => exact absurd rfl h1
  | cons b t => exact ⟨b, t, rfl, h2 b List.mem_cons_self, fun x hx => h2 x (List.mem_cons_of_mem _ hx)⟩

/-- The decimal point and the digits after it -/
theorem numberLoop_frac {fz : Bool} {fs : Str} (hf : Digits fs) (rest buf : Str) :
    numberLoop fz tInteger buf (runes ([46] ++ fs ++ rest)) = numberLoop false tFloat (buf ++ [46] ++ fs) (runes rest) := by
  obtain ⟨b, t, rfl, hb, ht⟩ := digits_cons hf
  have hd : isDigit b.toNat = true := by unfold Dig at hb; unfold isDigit; simp; omega
  have hb' := hb
  unfold Dig at hb
  have he : encode b.toNat = [b] := by rw [encode_ascii (by omega), u8_ext rfl]
  rw [List.append_assoc, List.cons_append, List.nil_append, List.cons_append, runes_ascii (by decide), runes_ascii (by omega), numberLoop.eq_def]
  dsimp only
  rw [if_neg (by decide), if_neg (by decide), if_neg (by decide), if_neg (by decide), if_pos (by decide), if_neg (by omega),
    if_pos (by decide), if_pos hd, he, numberLoop_digits _ _ _ _ _ ht]
  congr 1
  simp [encode]

theorem nextToken_plain {s : Str} (h : PlainFloat s) (rest : Str) (hr : Stops (runes rest)) :
    nextToken (runes (s ++ rest)) = .ok (⟨s, tFloat⟩, runes rest) := by
  obtain ⟨sg, ds, fs, hs, hd, hf, rfl⟩ := h
  obtain ⟨b, t, rfl, hb, ht⟩ := digits_cons hd
  have := nextToken_number hs hb (t ++ ([46] ++ fs ++ rest)) rest (ty := tFloat) (buf := sg ++ (b :: t) ++ [46] ++ fs) (i := runes rest) (by
    rw [numberLoop_digits _ _ _ _ _ ht, numberLoop_frac hf, numberLoop_stops hr]
    simp)
  rw [← this]
  simp

/-- What may follow a number with an exponent -/
def StopsExp : In → Prop
  | [] => True
  | none :: _ => False
  | some r :: _ => isDigit r = false ∧ isLetter r = false ∧ r ≠ 46

theorem unsigned_digits {rest : Str} (hr : StopsExp (runes rest)) : ∀ (ds buf : Str), (∀ b ∈ ds, Dig b) →
    consumeUnsigned buf (runes (ds ++ rest)) = .ok (runes rest, buf ++ ds)
  | [], buf, _ => by
    rw [List.nil_append, List.append_nil]
    unfold StopsExp at hr
    match hi : runes rest, hr with
    | [], _ => rfl
    | some r :: t, hr =>
      rw [consumeUnsigned, if_neg (by rw [hr.2.1]; simp [hr.2.2]), hr.1]
      rfl
  | b :: ds, buf, h => by
    have hb := h b List.mem_cons_self
    unfold Dig at hb
    have he : encode b.toNat = [b] := by rw [encode_ascii (by omega), u8_ext rfl]
    have hd : isDigit b.toNat = true := by unfold isDigit; simp; omega
    have hl : isLetter b.toNat = false := by unfold isLetter isUpper isLower; simp; omega
    rw [List.cons_append, runes_ascii (by omega), consumeUnsigned, if_neg (by rw [hl]; simp; omega), if_pos hd, he,
      unsigned_digits hr ds _ fun b hb => h b (List.mem_cons_of_mem _ hb)]
    simp

theorem exponent_digits {rest : Str} (hr : StopsExp (runes rest)) {xs : Str} (hx : Digits xs) (buf : Str) :
    exponentDigits buf (runes (xs ++ rest)) = .ok (runes rest, buf ++ xs) := by
  obtain ⟨b, t, rfl, hb, ht⟩ := digits_cons hx
  have hd : isDigit b.toNat = true := by unfold Dig at hb; unfold isDigit; simp; omega
  unfold Dig at hb
  have he : encode b.toNat = [b] := by rw [encode_ascii (by omega), u8_ext rfl]
  rw [List.cons_append, runes_ascii (by omega), exponentDigits, if_pos hd, he, unsigned_digits hr _ _ ht]
  simp

theorem consume_exponent {rest : Str} (hr : StopsExp (runes rest)) {es xs : Str} (he : es = [] ∨ es = [43] ∨ es = [45]) (hx : Digits xs) (buf : Str) :
    consumeExponent buf (runes (es ++ xs ++ rest)) = .ok (runes rest, buf ++ es ++ xs) := by
  have hsign : ∀ c : UInt8, (c = 43 ∨ c = 45) → consumeExponent buf (runes ([c] ++ xs ++ rest)) = .ok (runes rest, buf ++ [c] ++ xs) := by
    intro c hc
    have h1 : c.toNat < 0x80 ∧ c.toNat ≠ 0 ∧ (c.toNat = 43 ∨ c.toNat = 45) := by rcases hc with rfl | rfl <;> decide
    rw [List.append_assoc, List.cons_append, List.nil_append, runes_ascii h1.1, consumeExponent, if_neg h1.2.1, if_pos h1.2.2,
      exponent_digits hr hx, encode_ascii h1.1, u8_ext rfl]
  rcases he with rfl | rfl | rfl
  · obtain ⟨b, t, hbt, hb, ht⟩ := digits_cons hx
    unfold Dig at hb
    have h2 := exponent_digits hr hx buf
    rw [List.nil_append, List.append_nil]
    rw [hbt, List.cons_append, runes_ascii (by omega)] at h2 ⊢
    rw [consumeExponent, if_neg (by omega), if_neg (by omega), h2]
  · exact hsign _ (Or.inl rfl)
  · exact hsign _ (Or.inr rfl)

theorem numberLoop_exp {rest : Str} (hr : StopsExp (runes rest)) {es xs : Str} (he : es = [] ∨ es = [43] ∨ es = [45]) (hx : Digits xs)
    (fz : Bool) (ty : Nat) (buf : Str) : numberLoop fz ty buf (runes ([69] ++ es ++ xs ++ rest)) = .ok (tFloat, runes rest, buf ++ [69] ++ es ++ xs) := by
  have : [69] ++ es ++ xs ++ rest = 69 :: (es ++ xs ++ rest) := by simp
  rw [this, runes_ascii (by decide), numberLoop.eq_def]
  dsimp only
  rw [if_neg (by decide), if_neg (by decide), if_pos (by decide), consume_exponent hr he hx]
  rfl

theorem nextToken_exp {s : Str} (h : ExpFloat s) (rest : Str) (hr : StopsExp (runes rest)) :
    nextToken (runes (s ++ rest)) = .ok (⟨s, tFloat⟩, runes rest) := by
  obtain ⟨sg, ds, frac, es, xs, hs, hd, hf, he, hx, rfl⟩ := h
  obtain ⟨b, t, rfl, hb, ht⟩ := digits_cons hd
  have := nextToken_number hs hb (t ++ (frac ++ ([69] ++ es ++ xs ++ rest))) rest (ty := tFloat) (buf := sg ++ (b :: t) ++ frac ++ [69] ++ es ++ xs)
    (i := runes rest) (by
    rw [numberLoop_digits _ _ _ _ _ ht]
    rcases hf with rfl | ⟨fs, hf, rfl⟩
    · rw [List.nil_append, numberLoop_exp hr he hx]; simp
    · rw [numberLoop_frac hf, numberLoop_exp hr he hx]; simp)
  rw [← this]
  simp

/-! ## Pieces -/

/-- The punctuation that the printer writes -/
def Punct (c : UInt8) : Prop := c ∈ ([33, 38, 40, 41, 44, 58, 63, 91, 93, 94, 123, 124, 125, 126] : Str)

def Word (s : Str) : Prop := ∃ b t, s = b :: t ∧ (b.toNat < 0x80 ∧ isIdStart b.toNat = true) ∧ ∀ x ∈ t, x.toNat < 0x80 ∧ isId x.toNat = true

def PieceOk (S : SEnv) : Piece → Prop
  | .word s => Word s
  | .int _ => True
  | .float f => PlainFloat (S.ftoa f) ∨ ExpFloat (S.ftoa f)
  | .str s => StrOk S s
  | .rx s => RxOk s
  | .ch c => Punct c
  | .dots2 | .dots3 => True

/-- May `q` follow `p`? -/
def Adj (S : SEnv) : Piece → Piece → Prop
  | .word _, .ch _ => True
  | .word _, _ => False
  | .int _, .ch _ | .int _, .dots2 | .int _, .dots3 => True
  | .int _, _ => False
  | .float _, .ch _ => True
  | .float f, .dots2 | .float f, .dots3 => PlainFloat (S.ftoa f)
  | .float _, _ => False
  | .dots2, .dots2 | .dots2, .dots3 => False
  | _, _ => True

def Chain (S : SEnv) : List Piece → Prop
  | [] => True
  | [p] => PieceOk S p
  | p :: q :: ps => PieceOk S p ∧ Adj S p q ∧ Chain S (q :: ps)

theorem Chain.tail {S : SEnv} {p : Piece} {ps : List Piece} (h : Chain S (p :: ps)) : Chain S ps := by
  cases ps with
  | nil => exact True.intro
  | cons q ps => exact h.2.2

theorem Chain.head {S : SEnv} {p : Piece} {ps : List Piece} (h : Chain S (p :: ps)) : PieceOk S p := by
  cases ps with
  | nil => exact h
  | cons q ps => exact h.1

theorem punct_facts {c : UInt8} (h : Punct c) : c.toNat < 0x80 ∧ isDigit c.toNat = false ∧ isLetter c.toNat = false ∧ isId c.toNat = false ∧ isIdStart c.toNat = false ∧
    c.toNat ≠ 46 ∧ c.toNat ≠ 0 ∧ c.toNat ≠ 32 ∧ c.toNat ≠ 9 ∧ c.toNat ≠ 10 ∧ c.toNat ≠ 96 ∧ c.toNat ≠ 34 ∧ c.toNat ≠ 47 ∧ c.toNat ≠ 45 ∧ c.toNat ≠ 43 := by
  unfold Punct at h
  simp only [List.mem_cons, List.not_mem_nil, or_false] at h
  rcases h with rfl | rfl | rfl | rfl | rfl | rfl | rfl | rfl | rfl | rfl | rfl | rfl | rfl | rfl <;> decide

theorem stops_of_letter {r : Nat} {t : In} (h1 : isDigit r = false) (h2 : isLetter r = false) (h3 : r ≠ 46) : Stops (some r :: t) := by
  refine ⟨h1, ?_, ?_, ?_, ?_, fun h => absurd h h3⟩ <;> rintro rfl <;> cases h2

theorem identifier_loop {rest : Str} (hr : runes rest = [] ∨ ∃ r t, runes rest = some r :: t ∧ isId r = false) : ∀ (s buf : Str),
    (∀ x ∈ s, x.toNat < 0x80 ∧ isId x.toNat = true) → identifierLoop buf (runes (s ++ rest)) = .ok (runes rest, buf ++ s)
  | [], buf, _ => by
    rw [List.nil_append, List.append_nil]
    rcases hr with h | ⟨r, t, h, h'⟩
    · rw [h]; rfl
    · rw [h, identifierLoop, h']; rfl
  | b :: s, buf, h => by
    have hb := h b List.mem_cons_self
    rw [List.cons_append, runes_ascii hb.1, identifierLoop, if_pos hb.2, encode_ascii hb.1, u8_ext rfl,
      identifier_loop hr s _ fun x hx => h x (List.mem_cons_of_mem _ hx)]
    simp

theorem ftoa_dot {S : SEnv} {f : F64} (h : PlainFloat (S.ftoa f) ∨ ExpFloat (S.ftoa f)) : ∃ b t, S.ftoa f = b :: t ∧ b.toNat < 0x80 ∧ b.toNat ≠ 46 := by
  have key : ∀ (sg ds r : Str), (sg = [] ∨ sg = [45]) → Digits ds → ∃ b t, sg ++ ds ++ r = b :: t ∧ b.toNat < 0x80 ∧ b.toNat ≠ 46 := by
    intro sg ds r hs hd
    obtain ⟨b, t, rfl, hb, ht⟩ := digits_cons hd
    rcases hs with rfl | rfl
    · unfold Dig at hb; exact ⟨b, t ++ r, rfl, by omega, by omega⟩
    · exact ⟨45, b :: t ++ r, rfl, by decide, by decide⟩
  rcases h with ⟨sg, ds, fs, hs, hd, hf, h⟩ | ⟨sg, ds, frac, es, xs, hs, hd, hf, he, hx, h⟩
  · have := key sg ds ([46] ++ fs) hs hd
    rw [h]; simpa using this
  · have := key sg ds (frac ++ [69] ++ es ++ xs) hs hd
    rw [h]; simpa using this

theorem formatInt_dot (v : Int) : ∃ b t, formatInt v = b :: t ∧ b.toNat < 0x80 ∧ b.toNat ≠ 46 := by
  unfold formatInt
  split
  · exact ⟨45, _, rfl, by decide, by decide⟩
  · obtain ⟨b, t, h1, h2, h3⟩ := digits_head v.natAbs
    unfold Dig at h2
    exact ⟨b, t, h1, by omega, by omega⟩

/-- What begins a piece that may follow two dots -/
theorem first_dot {S : SEnv} {q : Piece} (h : PieceOk S q) (hq : Adj S .dots2 q) : ∃ b t, q.text S = b :: t ∧ b.toNat < 0x80 ∧ b.toNat ≠ 46 := by
  cases q with
  | word s =>
    obtain ⟨b, t, rfl, hb, _⟩ := h
    refine ⟨b, t, rfl, hb.1, ?_⟩
    intro h; rw [h] at hb; exact absurd hb.2 (by decide)
  | int v => exact formatInt_dot v
  | float f => exact ftoa_dot h
  | str s => exact ⟨34, _, rfl, by decide, by decide⟩
  | rx s => exact ⟨47, _, rfl, by decide, by decide⟩
  | ch c => exact ⟨c, [], rfl, (punct_facts h).1, (punct_facts h).2.2.2.2.2.1⟩
  | dots2 => exact hq.elim
  | dots3 => exact hq.elim

/-- A piece is one token, whatever follows that may follow it. -/
theorem nextToken_piece_tail {S : SEnv} (hp : ∀ c < 32, S.isPrint c = false) {p : Piece} {ps : List Piece} (h : Chain S (p :: ps)) (tl : Str)
    (htl : ps = [] → tl = [] ∨ ∃ c, p = .ch c) :
    nextToken (runes (textOfPieces S (p :: ps) ++ tl)) = .ok (p.tok S, runes (textOfPieces S ps ++ tl)) := by
  have ht : textOfPieces S (p :: ps) = p.text S ++ textOfPieces S ps := List.flatMap_cons
  rw [ht, List.append_assoc]
  have hpo := h.head
  -- what follows: nothing, a punctuation, or dots
  have hfol : (∀ c, p ≠ .ch c) → (∀ q u, ps = q :: u → (∃ c, q = .ch c) ∨ q = .dots2 ∨ q = .dots3) → Stops (runes (textOfPieces S ps ++ tl)) := by
    intro hnc hq
    cases ps with
    | nil =>
      obtain rfl : tl = [] := (htl rfl).resolve_right fun ⟨c, hc⟩ => hnc c hc
      rw [show textOfPieces S [] ++ [] = [] from rfl, runes_nil]; exact True.intro
    | cons q u =>
      have h2 := h.tail.head
      have hu : textOfPieces S (q :: u) = q.text S ++ textOfPieces S u := List.flatMap_cons
      rw [hu, List.append_assoc]
      rcases hq q u rfl with ⟨c, rfl⟩ | rfl | rfl
      · have hf := punct_facts h2
        show Stops (runes (c :: (textOfPieces S u ++ tl)))
        rw [runes_ascii hf.1]
        exact stops_of_letter hf.2.1 hf.2.2.1 hf.2.2.2.2.2.1
      · show Stops (runes (46 :: 46 :: (textOfPieces S u ++ tl)))
        rw [runes_ascii (by decide), runes_ascii (by decide)]
        exact ⟨by decide, by decide, by decide, by decide, by decide, fun _ => ⟨_, rfl⟩⟩
      · show Stops (runes (46 :: 46 :: 46 :: (textOfPieces S u ++ tl)))
        rw [runes_ascii (by decide), runes_ascii (by decide)]
        exact ⟨by decide, by decide, by decide, by decide, by decide, fun _ => ⟨_, rfl⟩⟩
  have hch : (∀ c, p ≠ .ch c) → (∀ q u, ps = q :: u → ∃ c, q = .ch c) → StopsExp (runes (textOfPieces S ps ++ tl)) ∧
      (runes (textOfPieces S ps ++ tl) = [] ∨ ∃ r t, runes (textOfPieces S ps ++ tl) = some r :: t ∧ isId r = false) := by
    intro hnc hq
    cases ps with
    | nil =>
      obtain rfl : tl = [] := (htl rfl).resolve_right fun ⟨c, hc⟩ => hnc c hc
      rw [show textOfPieces S [] ++ [] = [] from rfl, runes_nil]; exact ⟨True.intro, Or.inl rfl⟩
    | cons q u =>
      have h2 := h.tail.head
      have hu : textOfPieces S (q :: u) = q.text S ++ textOfPieces S u := List.flatMap_cons
      rw [hu, List.append_assoc]
      obtain ⟨c, rfl⟩ := hq q u rfl
      have hf := punct_facts h2
      show StopsExp (runes (c :: (textOfPieces S u ++ tl))) ∧ (runes (c :: (textOfPieces S u ++ tl)) = [] ∨ ∃ r t, runes (c :: (textOfPieces S u ++ tl)) = some r :: t ∧ isId r = false)
      rw [runes_ascii hf.1]
      exact ⟨⟨hf.2.1, hf.2.2.1, hf.2.2.2.2.2.1⟩, Or.inr ⟨_, _, rfl, hf.2.2.2.1⟩⟩
  cases p with
  | word s =>
    obtain ⟨b, t, rfl, hb, hx⟩ := hpo
    have hq : ∀ q u, ps = q :: u → ∃ c, q = .ch c := by
      rintro q u rfl
      cases q <;> first | exact ⟨_, rfl⟩ | exact h.2.1.elim
    have hl := identifier_loop (hch (by simp) hq).2 t (encode b.toNat) hx
    have hd : isDigit b.toNat = false := by
      cases hd : isDigit b.toNat with
      | false => rfl
      | true =>
        have := hb.2
        unfold isDigit at hd
        unfold isIdStart isLetter isUpper isLower at this
        simp at hd this
        omega
    have hne : b.toNat ≠ 0 ∧ b.toNat ≠ 32 ∧ b.toNat ≠ 9 ∧ b.toNat ≠ 10 ∧ b.toNat ≠ 96 ∧ b.toNat ≠ 34 ∧ b.toNat ≠ 47 ∧ b.toNat ≠ 46 ∧ b.toNat ≠ 45 ∧ b.toNat ≠ 43 := by
      refine ⟨?_, ?_, ?_, ?_, ?_, ?_, ?_, ?_, ?_, ?_⟩ <;> intro h <;> rw [h] at hb <;> exact absurd hb.2 (by decide)
    show nextToken (runes (b :: (t ++ (textOfPieces S ps ++ tl)))) = .ok (⟨b :: t, tIdentifier⟩, _)
    rw [runes_ascii hb.1, nextToken.eq_def]
    dsimp only
    rw [if_neg (by omega), if_neg (by omega), if_neg (by omega), if_neg (by omega), if_neg (by omega), if_neg (by omega), if_neg (by omega)]
    unfold buildToken
    rw [hd, if_neg (by simp), if_pos hb.2, hl, encode_ascii hb.1, u8_ext rfl]
    rfl
  | int v =>
    refine nextToken_format v _ (hfol (by simp) ?_)
    rintro q u rfl
    cases q <;> first | exact Or.inl ⟨_, rfl⟩ | exact Or.inr (Or.inl rfl) | exact Or.inr (Or.inr rfl) | exact h.2.1.elim
  | float f =>
    by_cases hpl : PlainFloat (S.ftoa f)
    · refine nextToken_plain hpl _ (hfol (by simp) ?_)
      rintro q u rfl
      cases q <;> first | exact Or.inl ⟨_, rfl⟩ | exact Or.inr (Or.inl rfl) | exact Or.inr (Or.inr rfl) | exact h.2.1.elim
    · refine nextToken_exp (hpo.resolve_left hpl) _ (hch (by simp) ?_).1
      rintro q u rfl
      cases q <;> first | exact ⟨_, rfl⟩ | exact absurd h.2.1 hpl | exact h.2.1.elim
  | str s =>
    obtain ⟨cs, h1, h2⟩ := hpo
    refine (C36_partial hp s _).1 ⟨cs, ?_, h2⟩
    intro c hc
    have := h1 c hc
    unfold Quotable at this
    simpa using this
  | rx s =>
    obtain ⟨cs, h1, rfl⟩ := hpo
    exact (C37_partial (fun c hc => (h1 c hc).1) _).2 fun c hc => (h1 c hc).2
  | ch c =>
    have hf := punct_facts hpo
    show nextToken (runes (c :: (textOfPieces S ps ++ tl))) = .ok (⟨[], c.toNat⟩, _)
    rw [runes_ascii hf.1, nextToken.eq_def]
    dsimp only
    rw [if_neg (by omega), if_neg (by omega), if_neg (by omega), if_neg (by omega), if_neg (by omega), if_neg (by omega), if_neg (by omega)]
    unfold buildToken
    rw [hf.2.1, if_neg (by simp), hf.2.2.2.2.1, if_neg (by simp)]
  | dots2 =>
    show nextToken (runes (46 :: 46 :: (textOfPieces S ps ++ tl))) = .ok (⟨[46, 46], tDotdot⟩, _)
    rw [runes_ascii (by decide), runes_ascii (by decide), nextToken.eq_def]
    dsimp only
    rw [if_neg (by decide), if_neg (by decide), if_neg (by decide), if_neg (by decide), if_neg (by decide), if_pos (by decide)]
    cases ps with
    | nil =>
      obtain rfl : tl = [] := (htl rfl).resolve_right fun ⟨c, hc⟩ => by cases hc
      rw [show textOfPieces S [] ++ [] = [] from rfl, runes_nil]; rfl
    | cons q u =>
      obtain ⟨b, t, h1, h2, h3⟩ := first_dot h.tail.head h.2.1
      have hu : textOfPieces S (q :: u) = q.text S ++ textOfPieces S u := List.flatMap_cons
      rw [hu, List.append_assoc, h1, List.cons_append, runes_ascii h2]
      unfold dots
      dsimp only
      rw [if_pos (by decide), if_neg h3]
  | dots3 =>
    show nextToken (runes (46 :: 46 :: 46 :: (textOfPieces S ps ++ tl))) = .ok (⟨[46, 46, 46], tDotdotdot⟩, _)
    rw [runes_ascii (by decide), runes_ascii (by decide), runes_ascii (by decide), nextToken.eq_def]
    rfl

theorem nextToken_piece {S : SEnv} (hp : ∀ c < 32, S.isPrint c = false) {p : Piece} {ps : List Piece} (h : Chain S (p :: ps)) :
    nextToken (runes (textOfPieces S (p :: ps))) = .ok (p.tok S, runes (textOfPieces S ps)) := by
  have := nextToken_piece_tail hp h [] fun _ => .inl rfl
  rwa [List.append_nil, List.append_nil] at this

theorem tok_ne_end {S : SEnv} {p : Piece} (h : PieceOk S p) : (p.tok S).type ≠ tEnd := by
  cases p <;> first | exact (by decide : tIdentifier ≠ tEnd) | exact (by decide : tInteger ≠ tEnd) | exact (by decide : tFloat ≠ tEnd) |
    exact (by decide : tString ≠ tEnd) | exact (by decide : tRegexp ≠ tEnd) | exact (punct_facts h).2.2.2.2.2.2.1 |
    exact (by decide : tDotdot ≠ tEnd) | exact (by decide : tDotdotdot ≠ tEnd)

theorem tokens_pieces {S : SEnv} (hp : ∀ c < 32, S.isPrint c = false) : ∀ {ps : List Piece}, Chain S ps →
    tokens (runes (textOfPieces S ps)) = .ok (toks S ps ++ [⟨[], tEnd⟩])
  | [], _ => by
    rw [show textOfPieces S [] = [] from rfl, runes_nil]
    exact tokens_end (t := ⟨[], tEnd⟩) rfl rfl
  | p :: ps, h => by
    rw [tokens_cons (nextToken_piece hp h) (tok_ne_end h.head), tokens_pieces hp h.tail]
    rfl

/-- The tokens of pieces that end with a punctuation, and of what follows -/
theorem tokens_pieces_tail {S : SEnv} (hp : ∀ c < 32, S.isPrint c = false) (tl : Str) (rest : List Token)
    (hr : tokens (runes tl) = .ok rest) : ∀ {ps : List Piece}, Chain S ps → (∀ p, ps.getLast? = some p → ∃ c, p = .ch c) →
    tokens (runes (textOfPieces S ps ++ tl)) = .ok (toks S ps ++ rest)
  | [], _, _ => hr
  | p :: ps, h, hl => by
    have h1 := nextToken_piece_tail hp h tl (by rintro rfl; exact .inr (hl p rfl))
    rw [tokens_cons h1 (tok_ne_end h.head), tokens_pieces_tail hp tl rest hr h.tail]
    · rfl
    · intro q hq
      cases ps with
      | nil => cases hq
      | cons a as => exact hl q (by simpa using hq)

end Verif.Text
