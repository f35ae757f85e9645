import Verif.Pcore.ReadType
import Verif.Text.Relex
/-!
# The tokens of the text of pieces
-/
set_option autoImplicit false
set_option linter.unusedVariables false
set_option linter.unusedSimpArgs false
set_option linter.unnecessarySeqFocus false
namespace Verif.Pcore
open Verif.Value (Str Val F64)
open Verif.Text

/-- Names, words and literals; they must be kept apart. -/
def Pc.isWord : Pc → Bool
  | .name _ | .dflt | .undef | .bool _ | .int _ | .float _ | .str _ | .rx _ => true
  | _ => false

def Apart : List Pc → Prop
  | [] => True
  | [_] => True
  | p :: q :: ps => (p.isWord = true → q.isWord = false) ∧ Apart (q :: ps)

theorem Apart.tail {p : Pc} {ps : List Pc} (h : Apart (p :: ps)) : Apart ps := by
  cases ps with
  | nil => trivial
  | cons q ps => exact h.2

theorem apart_cons {s : Pc} (hs : s.isWord = false) {b : List Pc} (h : Apart b) : Apart (s :: b) := by
  cases b with
  | nil => trivial
  | cons q b => exact ⟨fun h' => absurd (hs.symm.trans h') (by decide), h⟩

theorem apart_sep {s : Pc} (hs : s.isWord = false) {b : List Pc} (hb : Apart b) : ∀ {a : List Pc}, Apart a → Apart (a ++ s :: b)
  | [], _ => apart_cons hs hb
  | [p], _ => ⟨fun _ => hs, apart_cons hs hb⟩
  | p :: q :: a, h => ⟨h.1, apart_sep hs hb h.2⟩

theorem apart_commas : ∀ {as : List (List Pc)}, (∀ a ∈ as, Apart a) → Apart (commas as)
  | [], _ => trivial
  | [a], h => h a List.mem_cons_self
  | a :: b :: as, h => apart_sep rfl (apart_commas fun x hx => h x (List.mem_cons_of_mem _ hx)) (h a List.mem_cons_self)

theorem apart_brackets {as : List (List Pc)} (n : Name) (h : ∀ a ∈ as, Apart a) : Apart (.name n :: inBrackets as) :=
  ⟨fun _ => rfl, apart_cons rfl (apart_sep (b := []) rfl trivial (apart_commas h))⟩

theorem apart_args {as : List (List Pc)} (n : Name) (h : ∀ a ∈ as, Apart a) : Apart (.name n :: args as) := by
  cases as with
  | nil => trivial
  | cons a as => exact apart_brackets n h

theorem apart_lim (l : Lim) : ∀ a ∈ l.args, Apart a := by
  cases l <;> simp [Lim.args, Apart]

theorem apart_key (k : Str) (o : Bool) : Apart (keyPieces k o) := by
  cases o with
  | false => trivial
  | true => exact apart_brackets _ (by simp [Apart])

mutual
theorem apart_pieces : ∀ p : Pt, Apart p.pieces
  | .any => trivial
  | .undef => trivial
  | .boolean => trivial
  | .trueT => trivial
  | .falseT => trivial
  | .timestamp => trivial
  | .integer l => apart_args _ (apart_lim l)
  | .floatAny => trivial
  | .floatLow lo => apart_brackets _ (by simp [Apart])
  | .float lo hi => apart_brackets _ (by simp [Apart])
  | .numberAny => trivial
  | .number lo hi => apart_brackets _ (by simp [Apart])
  | .stringAny => trivial
  | .stringLow lo => apart_brackets _ (by simp [Apart])
  | .string lo hi => apart_brackets _ (by simp [Apart])
  | .stringVal s => apart_brackets _ (by simp [Apart])
  | .binary l => apart_args _ (apart_lim l)
  | .enumAny => trivial
  | .enum ss none => apart_brackets _ (by simp [Apart])
  | .enum ss (some ci) => apart_brackets _ (by
      intro a ha
      rcases List.mem_append.1 ha with ha | ha
      · obtain ⟨s, _, rfl⟩ := List.mem_map.1 ha; trivial
      · rw [List.mem_singleton.1 ha]; trivial)
  | .patternAny => trivial
  | .pattern rs => apart_brackets _ (by simp [Apart])
  | .regexpAny => trivial
  | .regexp r => apart_brackets _ (by simp [Apart])
  | .arrayAny l => apart_args _ (apart_lim l)
  | .array e l => apart_brackets _ (List.forall_mem_cons.2 ⟨apart_pieces e, apart_lim l⟩)
  | .hashAny l => apart_args _ (apart_lim l)
  | .hash k v l => apart_brackets _ (List.forall_mem_cons.2 ⟨apart_pieces k, List.forall_mem_cons.2 ⟨apart_pieces v, apart_lim l⟩⟩)
  | .tupleAny => trivial
  | .tuple ts => apart_brackets _ (apart_list ts)
  | .structAny => trivial
  | .struct fs => ⟨fun _ => rfl, apart_cons rfl (apart_cons rfl (apart_sep (b := [.close]) rfl trivial (apart_commas (apart_fields fs))))⟩
  | .variantAny => trivial
  | .variant ts => apart_brackets _ (apart_list ts)
  | .optionalAny => trivial
  | .optional t => apart_brackets _ (List.forall_mem_singleton.2 (apart_pieces t))
  | .optionalVal s => apart_brackets _ (by simp [Apart])
  | .notUndefAny => trivial
  | .notUndef t => apart_brackets _ (List.forall_mem_singleton.2 (apart_pieces t))
  | .sensitiveAny => trivial
  | .sensitive t => apart_brackets _ (List.forall_mem_singleton.2 (apart_pieces t))
  | .typeAny => trivial
  | .type t => apart_brackets _ (List.forall_mem_singleton.2 (apart_pieces t))

theorem apart_list : ∀ (ts : List Pt), ∀ a ∈ piecesList ts, Apart a
  | [], a, h => by cases h
  | t :: ts, a, h => by
    by_cases he : a = t.pieces
    · rw [he]; exact apart_pieces t
    · exact apart_list ts a ((List.mem_cons.1 h).resolve_left he)

theorem apart_fields : ∀ (fs : List (Str × Bool × Pt)), ∀ a ∈ piecesFields fs, Apart a
  | [], a, h => by cases h
  | (k, o, t) :: fs, a, h => by
    by_cases he : a = keyPieces k o ++ .rocket :: t.pieces
    · rw [he]; exact apart_sep rfl (apart_pieces t) (apart_key k o)
    · exact apart_fields fs a ((List.mem_cons.1 h).resolve_left he)
end

/-! ## One piece -/

/-- What may follow a word -/
def Free (t : Str) : Prop := t = [] ∨ ∃ c u, t = c :: u ∧ c ∈ ([32, 9, 10, 35, 44, 91, 93, 123, 125, 61] : Str)

theorem free_facts {c : UInt8} (h : c ∈ ([32, 9, 10, 35, 44, 91, 93, 123, 125, 61] : Str)) :
    c.toNat < 0x80 ∧ isDigit c.toNat = false ∧ isLetter c.toNat = false ∧ c.toNat ≠ 46 ∧ c.toNat ≠ 0 ∧ c.toNat ≠ 58 ∧ c.toNat ≠ 95 := by
  simp only [List.mem_cons, List.not_mem_nil, or_false] at h
  rcases h with rfl | rfl | rfl | rfl | rfl | rfl | rfl | rfl | rfl | rfl <;> decide

theorem Free.stops {t : Str} (h : Free t) : Stops (runes t) ∧ StopsExp (runes t) := by
  rcases h with rfl | ⟨c, u, rfl, hc⟩
  · rw [runes_nil]; exact ⟨trivial, trivial⟩
  · have hf := free_facts hc
    rw [runes_ascii hf.1]
    exact ⟨stops_of_letter hf.2.1 hf.2.2.1 hf.2.2.2.1, hf.2.1, hf.2.2.1, hf.2.2.2.1⟩

theorem name_loop {st : Nat → Bool} {rest : Str} (hr : Free rest) : ∀ (s buf : Str),
    (∀ x ∈ s, x.toNat < 0x80 ∧ isLetter x.toNat = true) → nameLoop st buf (runes (s ++ rest)) = .ok (runes rest, buf ++ s)
  | [], buf, _ => by
    rw [List.nil_append, List.append_nil]
    rcases hr with rfl | ⟨c, u, rfl, hc⟩
    · rw [runes_nil]; rfl
    · have hf := free_facts hc
      rw [runes_ascii hf.1, nameLoop.eq_def]
      dsimp only
      rw [if_neg hf.2.2.2.2.1, if_neg hf.2.2.2.2.2.1, if_neg (by rw [hf.2.1, hf.2.2.1]; simpa using hf.2.2.2.2.2.2)]
  | b :: s, buf, h => by
    have hb := h b List.mem_cons_self
    have h0 : b.toNat ≠ 0 ∧ b.toNat ≠ 58 := by
      constructor <;> intro h <;> rw [h] at hb <;> exact absurd hb.2 (by decide)
    rw [List.cons_append, runes_ascii hb.1, nameLoop.eq_def]
    dsimp only
    rw [if_neg h0.1, if_neg h0.2, if_pos (Or.inr (Or.inl hb.2)), encode_ascii hb.1, u8_ext rfl,
      name_loop hr s _ fun x hx => h x (List.mem_cons_of_mem _ hx)]
    simp

theorem nextTok_build {r : Nat} (t : In) (h : isDigit r = true ∨ isLetter r = true ∨ r ∈ [44, 91, 93, 123, 125]) :
    nextTok (some r :: t) = build r t := by
  have hn : r ≠ 0 ∧ r ≠ 32 ∧ r ≠ 9 ∧ r ≠ 10 ∧ r ≠ 35 ∧ r ≠ 39 ∧ r ≠ 34 ∧ r ≠ 47 ∧ r ≠ 61 ∧ r ≠ 45 ∧ r ≠ 43 := by
    refine ⟨?_, ?_, ?_, ?_, ?_, ?_, ?_, ?_, ?_, ?_, ?_⟩ <;> rintro rfl <;> revert h <;> decide
  rw [nextTok.eq_def]
  dsimp only
  rw [if_neg hn.1, if_neg (by omega), if_neg (by omega), if_neg (by omega), if_neg (by omega), if_neg (by omega), if_neg (by omega)]

theorem nextTok_name {b : UInt8} {s rest : Str} (hb : b.toNat < 0x80 ∧ isUpper b.toNat = true) (hs : ∀ x ∈ s, x.toNat < 0x80 ∧ isLetter x.toNat = true)
    (hr : Free rest) : nextTok (runes (b :: s ++ rest)) = .ok (⟨b :: s, tName⟩, runes rest) := by
  have hl : isLetter b.toNat = true := by unfold isLetter; rw [hb.2]; rfl
  have hd : isDigit b.toNat = false := by
    have := hb.2
    unfold isUpper at this
    unfold isDigit
    simp at this ⊢
    omega
  rw [List.cons_append, runes_ascii hb.1, nextTok_build _ (Or.inr (Or.inl hl)), build, hd, if_neg (by simp), if_pos hb.2,
    name_loop hr s _ hs, encode_ascii hb.1, u8_ext rfl]
  rfl

theorem nextTok_word {b : UInt8} {s rest : Str} (hb : b.toNat < 0x80 ∧ isLower b.toNat = true) (hs : ∀ x ∈ s, x.toNat < 0x80 ∧ isLetter x.toNat = true)
    (hr : Free rest) : nextTok (runes (b :: s ++ rest)) = .ok (⟨b :: s, tIdentifier⟩, runes rest) := by
  have hl : isLetter b.toNat = true := by unfold isLetter; rw [hb.2]; simp
  have hd : isDigit b.toNat = false ∧ isUpper b.toNat = false := by
    have := hb.2
    unfold isLower at this
    unfold isDigit isUpper
    simp at this ⊢
    omega
  rw [List.cons_append, runes_ascii hb.1, nextTok_build _ (Or.inr (Or.inl hl)), build, hd.1, hd.2, if_neg (by simp), if_neg (by simp), if_pos hb.2,
    name_loop hr s _ hs, encode_ascii hb.1, u8_ext rfl]
  rfl

theorem name_word (n : Name) : ∃ b s, n.text = b :: s ∧ (b.toNat < 0x80 ∧ isUpper b.toNat = true) ∧ ∀ x ∈ s, x.toNat < 0x80 ∧ isLetter x.toNat = true := by
  cases n <;> exact ⟨_, _, rfl, by decide, by decide⟩

/-- Numbers are read as the lexer of dgo reads them. -/
theorem nextTok_number {sg : Str} (hs : sg = [] ∨ sg = [45]) {b : UInt8} (hb : Dig b) (t : Str) :
    nextTok (runes (sg ++ b :: t)) = nextToken (runes (sg ++ b :: t)) := by
  have hd : isDigit b.toNat = true := by
    unfold Dig at hb; unfold isDigit; simp; omega
  have h8 : b.toNat < 0x80 := by unfold Dig at hb; omega
  rcases hs with rfl | rfl
  · rw [List.nil_append, runes_ascii h8, nextTok_build _ (Or.inl hd), build, if_pos hd, nextToken.eq_def]
    dsimp only
    unfold Dig at hb
    rw [if_neg (by omega), if_neg (by omega), if_neg (by omega), if_neg (by omega), if_neg (by omega), if_neg (by omega), if_neg (by omega),
      buildToken, if_pos hd]
  · rw [List.cons_append, List.nil_append, runes_ascii (by decide), runes_ascii h8, nextToken.eq_def, nextTok.eq_def]
    dsimp only
    unfold Dig at hb
    rw [if_neg (by decide), if_neg (by decide), if_neg (by decide), if_neg (by decide), if_neg (by decide), if_neg (by decide), if_pos (by decide),
      if_neg (by decide), if_neg (by decide), if_neg (by decide), if_neg (by decide), if_neg (by decide), if_neg (by decide), if_pos (by decide),
      sign, signed, if_neg (by omega), if_pos hd]
    rfl

theorem nextTok_int (v : Int) {rest : Str} (hr : Free rest) : nextTok (runes (formatInt v ++ rest)) = .ok (⟨formatInt v, tInteger⟩, runes rest) := by
  rw [← nextToken_format v rest hr.stops.1]
  unfold formatInt
  obtain ⟨b, t, h1, h2, h3⟩ := digits_head v.natAbs
  split
  · rw [h1]
    exact nextTok_number (Or.inr rfl) h2 (t ++ rest)
  · rw [h1]
    exact nextTok_number (Or.inl rfl) h2 (t ++ rest)

theorem nextTok_float {s rest : Str} (h : PlainFloat s ∨ ExpFloat s) (hr : Free rest) : nextTok (runes (s ++ rest)) = .ok (⟨s, tFloat⟩, runes rest) := by
  have hn : nextToken (runes (s ++ rest)) = .ok (⟨s, tFloat⟩, runes rest) := by
    rcases h with h | h
    · exact nextToken_plain h rest hr.stops.1
    · exact nextToken_exp h rest hr.stops.2
  rw [← hn]
  rcases h with ⟨sg, ds, fs, hs, hd, hf, rfl⟩ | ⟨sg, ds, frac, es, xs, hs, hd, hf, he, hx, rfl⟩
  · obtain ⟨b, t, rfl, hb, _⟩ := digits_cons hd
    have := nextTok_number hs hb (t ++ ([46] ++ fs ++ rest))
    simpa only [List.append_assoc, List.cons_append] using this
  · obtain ⟨b, t, rfl, hb, _⟩ := digits_cons hd
    have := nextTok_number hs hb (t ++ (frac ++ ([69] ++ es ++ xs ++ rest)))
    simpa only [List.append_assoc, List.cons_append] using this

theorem nextTok_quote (t : In) : nextTok (some 34 :: t) = nextToken (some 34 :: t) := by
  rw [nextTok.eq_def, nextToken.eq_def]
  rfl

theorem nextTok_slash (t : In) : nextTok (some 47 :: t) = nextToken (some 47 :: t) := by
  rw [nextTok.eq_def, nextToken.eq_def]
  rfl

theorem nextTok_punct {c : UInt8} (h : c.toNat < 0x80 ∧ c.toNat ∈ [44, 91, 93, 123, 125]) (rest : Str) :
    nextTok (runes (c :: rest)) = .ok (⟨[], c.toNat⟩, runes rest) := by
  have hd : isDigit c.toNat = false ∧ isUpper c.toNat = false ∧ isLower c.toNat = false := by
    have := h.2
    simp only [List.mem_cons, List.not_mem_nil, or_false] at this
    rcases this with h | h | h | h | h <;> rw [h] <;> decide
  rw [runes_ascii h.1, nextTok_build _ (Or.inr (Or.inr h.2)), build, hd.1, hd.2.1, hd.2.2]
  rfl

/-- A piece is one token. -/
theorem nextTok_piece {S : SEnv} {E : Env} (hp : ∀ c < 32, S.isPrint c = false) {p : Pc} (hf : p.Fine S E) {rest : Str} (hr : p.isWord = true → Free rest) :
    nextTok (runes (p.text S ++ rest)) = .ok (p.tok S, runes rest) := by
  cases p with
  | name n =>
    obtain ⟨b, s, e, hb, hs⟩ := name_word n
    show nextTok (runes (n.text ++ rest)) = .ok (⟨n.text, tName⟩, _)
    rw [e]
    exact nextTok_name hb hs (hr rfl)
  | dflt => exact nextTok_word (by decide) (by decide) (hr rfl)
  | undef => exact nextTok_word (by decide) (by decide) (hr rfl)
  | bool b => cases b <;> exact nextTok_word (by decide) (by decide) (hr rfl)
  | int i => exact nextTok_int _ (hr rfl)
  | float f => exact nextTok_float hf.1 (hr rfl)
  | str s =>
    obtain ⟨cs, h1, h2⟩ := hf
    have := (C36_partial hp s rest).1 ⟨cs, fun c hc => by have := h1 c hc; unfold Quotable at this; simpa using this, h2⟩
    show nextTok (runes (quote S.isPrint s ++ rest)) = .ok (⟨s, tString⟩, runes rest)
    rw [← this]
    show nextTok (runes (34 :: (_ ++ rest))) = nextToken (runes (34 :: (_ ++ rest)))
    rw [runes_ascii (by decide)]
    exact nextTok_quote _
  | rx s =>
    obtain ⟨cs, h1, rfl⟩ := hf
    have := (C37_partial (cs := cs) (fun c hc => (h1 c hc).1) rest).2 fun c hc => (h1 c hc).2
    show nextTok (runes (slashQuote (textOf cs) ++ rest)) = .ok (⟨textOf cs, tRegexp⟩, runes rest)
    rw [← this]
    show nextTok (runes (47 :: (_ ++ rest))) = nextToken (runes (47 :: (_ ++ rest)))
    rw [runes_ascii (by decide)]
    exact nextTok_slash _
  | comma => exact nextTok_punct (by decide) rest
  | open_ => exact nextTok_punct (by decide) rest
  | close => exact nextTok_punct (by decide) rest
  | openB => exact nextTok_punct (by decide) rest
  | closeB => exact nextTok_punct (by decide) rest
  | rocket =>
    show nextTok (runes (61 :: 62 :: rest)) = _
    rw [runes_ascii (by decide), runes_ascii (by decide), nextTok.eq_def]
    rfl

theorem comment_chars (rest : Str) : ∀ cs : List Nat, (∀ c ∈ cs, Readable c ∧ c ≠ 0 ∧ c ≠ 10) →
    consumeComment (runes (textOf cs ++ 10 :: rest)) = .ok (runes rest)
  | [], _ => by
    show consumeComment (runes (10 :: rest)) = _
    rw [runes_ascii (by decide), consumeComment]
    rfl
  | c :: cs, h => by
    have hc := h c List.mem_cons_self
    have ht : textOf (c :: cs) = encode c ++ textOf cs := rfl
    rw [ht, List.append_assoc, runes_encode hc.1, consumeComment, if_neg (by omega)]
    exact comment_chars rest cs fun c hc => h c (List.mem_cons_of_mem _ hc)

theorem single_chars (rest : Str) : ∀ (cs : List Nat) (buf : Str), (∀ c ∈ cs, Readable c ∧ 32 ≤ c ∧ c ≠ 39 ∧ c ≠ 92) →
    consumeString 39 buf (runes (textOf cs ++ 39 :: rest)) = .ok (runes rest, buf ++ textOf cs)
  | [], buf, _ => by
    show consumeString 39 buf (runes (39 :: rest)) = _
    rw [runes_ascii (by decide), consumeString.eq_def]
    simp [textOf]
  | c :: cs, buf, h => by
    have hc := h c List.mem_cons_self
    have ht : textOf (c :: cs) = encode c ++ textOf cs := rfl
    rw [ht, List.append_assoc, runes_encode hc.1, consumeString.eq_def]
    dsimp only
    rw [if_neg (by omega), if_neg (by omega), if_neg (by omega), if_neg (by omega),
      single_chars rest cs _ fun c hc => h c (List.mem_cons_of_mem _ hc), List.append_assoc]

theorem nextTok_single {cs : List Nat} (h : ∀ c ∈ cs, Readable c ∧ 32 ≤ c ∧ c ≠ 39 ∧ c ≠ 92) (rest : Str) :
    nextTok (runes (39 :: (textOf cs ++ 39 :: rest))) = .ok (⟨textOf cs, tString⟩, runes rest) := by
  rw [runes_ascii (by decide), nextTok.eq_def]
  dsimp only
  rw [if_neg (by decide), if_neg (by decide), if_neg (by decide), if_pos (by decide), show (39 : UInt8).toNat = 39 from rfl, single_chars rest cs [] h]
  rfl

theorem nextTok_comment {cs : List Nat} (h : ∀ c ∈ cs, Readable c ∧ c ≠ 0 ∧ c ≠ 10) (rest : Str) :
    nextTok (runes (35 :: (textOf cs ++ 10 :: rest))) = nextTok (runes rest) := by
  rw [runes_ascii (by decide), nextTok.eq_def]
  dsimp only
  rw [if_neg (by decide), if_neg (by decide), if_pos (by decide)]
  split
  · rename_i h'; rw [comment_chars rest cs h] at h'; cases h'
  · rename_i h'; rw [comment_chars rest cs h] at h'; cases h'; rfl

theorem Written.free {S : SEnv} {p : Pc} (hp : p.isWord = true) {ps : List Pc} {t : Str} (h : Written S ps t) (ha : Apart (p :: ps)) : Free t := by
  cases h with
  | nil => exact Or.inl rfl
  | blank c hc _ => exact Or.inr ⟨c, _, rfl, by simp; tauto⟩
  | comment cs hc _ => exact Or.inr ⟨_, _, rfl, by decide⟩
  | single cs hc _ => exact absurd (ha.1 hp) (by simp [Pc.isWord])
  | piece q h =>
    have hq := ha.1 hp
    cases q with
    | comma => exact Or.inr ⟨_, _, rfl, by decide⟩
    | open_ => exact Or.inr ⟨_, _, rfl, by decide⟩
    | close => exact Or.inr ⟨_, _, rfl, by decide⟩
    | openB => exact Or.inr ⟨_, _, rfl, by decide⟩
    | closeB => exact Or.inr ⟨_, _, rfl, by decide⟩
    | rocket => exact Or.inr ⟨_, _, rfl, by decide⟩
    | _ => cases hq

theorem tokens_congr {i i' : In} (h : nextTok i = nextTok i') : tokens i = tokens i' := by
  cases hn : nextTok i' with
  | error e =>
    rw [tokens.eq_def, tokens.eq_def]
    split
    · split
      · simp_all
      · simp_all
    · simp_all
  | ok x =>
    obtain ⟨t, j⟩ := x
    by_cases ht : t.type = tEnd
    · rw [tokens_end (h.trans hn) ht, tokens_end hn ht]
    · rw [tokens_cons (h.trans hn) ht, tokens_cons hn ht]

theorem tok_type (S : SEnv) (p : Pc) : (p.tok S).type ≠ tEnd := by
  cases p with
  | bool b => cases b <;> simp [Pc.tok, tEnd, tIdentifier]
  | _ => simp [Pc.tok, tEnd, tName, tIdentifier, tInteger, tFloat, tString, tRegexp, tRocket]

/-- The tokens of a text are those of its pieces. -/
theorem tokens_written {S : SEnv} {E : Env} (hp : ∀ c < 32, S.isPrint c = false) {ps : List Pc} {t : Str} (h : Written S ps t) :
    Apart ps → (∀ p ∈ ps, p.Fine S E) → tokens (runes t) = .ok (tk S ps ++ [⟨[], tEnd⟩]) := by
  induction h with
  | nil => intro _ _; rw [runes_nil]; exact tokens_end (by rw [nextTok.eq_def]) rfl
  | @blank ps t c hc h ih =>
    intro ha hf
    rw [← ih ha hf]
    apply tokens_congr
    rw [runes_ascii (by rcases hc with rfl | rfl | rfl <;> decide), nextTok.eq_def]
    dsimp only
    rw [if_neg (by rcases hc with rfl | rfl | rfl <;> decide), if_pos (by rcases hc with rfl | rfl | rfl <;> decide)]
  | @comment ps t cs hc h ih =>
    intro ha hf
    rw [← ih ha hf]
    exact tokens_congr (nextTok_comment hc t)
  | @single ps t cs hc h ih =>
    intro ha hf
    rw [tokens_cons (nextTok_single hc t) (by show tString ≠ tEnd; decide), ih ha.tail fun q hq => hf q (List.mem_cons_of_mem _ hq)]
    rfl
  | @piece ps t p h ih =>
    intro ha hf
    rw [tokens_cons (nextTok_piece hp (hf p List.mem_cons_self) fun hw => h.free hw ha) (tok_type S p),
      ih ha.tail fun q hq => hf q (List.mem_cons_of_mem _ hq)]
    rfl

end Verif.Pcore
