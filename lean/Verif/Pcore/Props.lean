import Verif.Pcore.Data
import Verif.Pcore.Total
import Verif.Types.Props
/-!
# C61 – C65: pcore expressions
-/
set_option autoImplicit false
set_option linter.unusedVariables false
set_option linter.unusedSimpArgs false
namespace Verif.Pcore
open Verif.Value (Str Val F64 WF)
open Verif.Types (Ty Oid Fits instanceOf)
open Verif.Text (SEnv PEnv PErr Token In runes runes_cons runes_nil runes_ascii w tEnd tString tIdentifier tInteger tRegexp tFloat map_ok numberLoop_suffix
  consumeString_suffix consumeRegexp_suffix textOf Readable peekTok formatInt)

/-- The functions that the model leaves open, for the examples: numbers are converted as in Go on amd64; the only text of a float is
`1.5`. -/
def E1 : Env where
  parseFloat := fun _ => 0x3ff8000000000000
  ofInt := Value.F64.ofInt
  lower := fun s => s
  compiles := fun _ => true
  trunc := Value.F64.toInt
  types := Types.Ex.E0
def S1 : SEnv where
  isPrint := fun c => decide (32 ≤ c)
  ftoa := fun _ => w ['1', '.', '5']
  encode := fun _ => []
  timeText := fun _ => []

theorem S1_print : ∀ c < 32, S1.isPrint c = false := by
  intro c hc
  show decide (32 ≤ c) = false
  simp; omega

/-- Pieces one after the other -/
theorem written_plain (S : SEnv) : ∀ ps : List Pc, Written S ps (ps.flatMap (Pc.text S))
  | [] => .nil
  | p :: ps => .piece p (written_plain S ps)

theorem parse_plain (E : Env) (ps : List Pc) (ts : List Token) {t : Str} (ht : ps.flatMap (Pc.text S1) = t) (hts : tk S1 ps ++ [⟨[], tEnd⟩] = ts)
    (ha : Apart ps) (hf : ∀ p ∈ ps, p.Fine S1 E) : parse E t = parseTokens E ts := by
  rw [← ht, ← hts]
  exact parse_written S1_print (written_plain S1 ps) ha hf

/-! ### C61: parsing terminates -/

/-- **C61.**  Parsing any text as pcore terminates with a value, a type or an error: the nesting of the calls of the parser and the rounds
of its loops are bounded by the number of tokens (the fuel is never used up), and every token but the end takes a character. -/
theorem C61_total (E : Env) (text : Str) : (∃ v, parse E text = .ok v) ∨ ∃ e, parse E text = .error e ∧ e ≠ .fuel := by
  unfold parse
  cases tokens (runes text) with
  | error e => exact Or.inr ⟨_, rfl, by intro h; cases h⟩
  | ok ts =>
    dsimp only
    have hc := parseTokens_fuel E ts
    cases h : parseTokens E ts with
    | ok v => exact Or.inl ⟨v, rfl⟩
    | error e => exact Or.inr ⟨e, rfl, by rintro rfl; rw [h] at hc; exact hc⟩

/-- `{ [ {`: a text that ends too early -/
example (E : Env) : parse E (w ['{', '[', '{']) = .error (.syntax ⟨[], tEnd⟩) := by
  rw [parse_plain E [.openB, .open_, .openB] [⟨[], 123⟩, ⟨[], 91⟩, ⟨[], 123⟩, ⟨[], tEnd⟩] (t := w ['{', '[', '{']) rfl rfl (by simp [Apart, Pc.isWord]) (by simp [Pc.Fine])]
  rfl

/-! ### C62: the types that expressions describe -/

/-- **C62.**  The text of a type expression, with blanks and comments wherever one likes, is read as a type whose instances are the values
that the expression describes.  `Pt.Ok` and `Pc.Fine` are what must be excluded (see their definitions and the theorems below). -/
theorem C62_partial {S : SEnv} {E : Env} (hp : ∀ c < 32, S.isPrint c = false) {p : Pt} (hok : p.Ok E) (hf : ∀ c ∈ p.pieces, c.Fine S E)
    {text : Str} (hw : Written S p.pieces text) :
    ∃ t, parseType E text = .ok t ∧ ∀ v, WF v → Fits v → (instanceOf E.types t v = true ↔ Den E p v) := by
  obtain ⟨x, e, t, rfl, g⟩ := parseTokens_reads (reads_type p hok hf)
  refine ⟨t, ?_, g.inst⟩
  rw [parseType, parse_written hp hw (apart_pieces p) hf, e]
  rfl

/-- `Struct[{'a' => Array[Integer[0], 2], Optional['b'] => Variant[Undef, Float[1.5,1.5]]}]` -/
example : let p : Pt := .struct [(w ['a'], false, .array (.integer (.low (some 0))) (.low (some 2))),
      (w ['b'], true, .variant [.undef, .float (.float 0x3ff8000000000000) (.float 0x3ff8000000000000)])]
    ∃ t, parseType E1 (p.pieces.flatMap (Pc.text S1)) = .ok t ∧
      ∀ v, WF v → Fits v → (instanceOf E1.types t v = true ↔ Den E1 p v) := by
  intro p
  refine C62_partial S1_print ?_ ?_ (written_plain S1 _)
  · refine ⟨by decide, by decide, ?_⟩
    simp only [OkFields, Pt.Ok, OkAll, Lim.size, Lim.ordered, Pt.onlyUndef, true_and, and_true, fle, FB.val, Option.some.injEq, forall_eq']
    refine ⟨by decide, by decide, by decide⟩
  · have hs : ∀ c : Nat, 32 ≤ c → c < 127 → c ≠ 34 → c ≠ 92 → Verif.Text.StrOk S1 (textOf [c]) := by
      intro c h1 h2 h3 h4
      refine ⟨[c], ?_, rfl⟩
      intro x hx
      rw [List.mem_singleton.1 hx]
      refine ⟨⟨by unfold Verif.Text.Scalar; omega, by unfold Verif.Text.runeError; omega⟩, Or.inl ?_⟩
      show decide (32 ≤ c) = true
      simpa using h1
    have hfl : Verif.Text.FloatOk S1 E1.toPEnv 0x3ff8000000000000 :=
      ⟨Or.inl ⟨[], [49], [53], Or.inl rfl, ⟨by decide, by decide⟩, ⟨by decide, by decide⟩, rfl⟩, rfl⟩
    intro c hc
    simp only [p, Pt.pieces, piecesFields, piecesList, keyPieces, inBrackets, commas, Lim.args, limPc, args, FB.pc, List.mem_cons, List.mem_append,
      List.not_mem_nil, or_false, if_true, List.append_assoc, List.cons_append, List.nil_append, Bool.false_eq_true, if_false] at hc
    rcases hc with rfl | rfl | rfl | rfl | h
    · trivial
    · trivial
    · trivial
    · exact hs 97 (by decide) (by decide) (by decide) (by decide)
    · rcases h with rfl | rfl | rfl | rfl | rfl | rfl | rfl | rfl | rfl | rfl | rfl | rfl | rfl | rfl | rfl | rfl | rfl | rfl | rfl | rfl | rfl | rfl | rfl | rfl | rfl | rfl | rfl | rfl | rfl <;>
        first | trivial | exact hfl | exact hs 98 (by decide) (by decide) (by decide) (by decide)

theorem parseType_plain (E : Env) (ps : List Pc) (ts : List Token) {t : Str} {u : Ty} (ht : ps.flatMap (Pc.text S1) = t)
    (hts : tk S1 ps ++ [⟨[], tEnd⟩] = ts) (ha : Apart ps) (hf : ∀ p ∈ ps, p.Fine S1 E) (hu : parseTokens E ts = .ok (.ty u)) : parseType E t = .ok u := by
  rw [parseType, parse_plain E ps ts ht hts ha hf, hu]
  rfl

theorem parseType_error (E : Env) (ps : List Pc) (ts : List Token) {t : Str} {e : PErr} (ht : ps.flatMap (Pc.text S1) = t)
    (hts : tk S1 ps ++ [⟨[], tEnd⟩] = ts) (ha : Apart ps) (hf : ∀ p ∈ ps, p.Fine S1 E) (hu : parseTokens E ts = .error e) : parseType E t = .error e := by
  rw [parseType, parse_plain E ps ts ht hts ha hf, hu]

theorem fine_15 {E : Env} (hE : E.parseFloat (w ['1', '.', '5']) = 0x3ff8000000000000) : (Pc.float 0x3ff8000000000000).Fine S1 E :=
  ⟨Or.inl ⟨[], [49], [53], Or.inl rfl, ⟨by decide, by decide⟩, ⟨by decide, by decide⟩, rfl⟩, hE⟩

/-- **C62 is violated by floats without an upper limit.**  `Float` describes infinity, `Float[1.5]` does not. -/
theorem C62_float_violated (E : Env) (hE : E.parseFloat (w ['1', '.', '5']) = 0x3ff8000000000000) :
    ∃ t u, parseType E (w ['F', 'l', 'o', 'a', 't']) = .ok t ∧ parseType E (w ['F', 'l', 'o', 'a', 't', '[', '1', '.', '5', ']']) = .ok u ∧
      instanceOf E.types t (.float 0x7ff0000000000000) = true ∧ instanceOf E.types u (.float 0x7ff0000000000000) = false := by
  obtain ⟨u, hu, hi⟩ := C62_partial (S := S1) (E := E) S1_print (p := .floatLow (.float 0x3ff8000000000000)) (by
    show fle 0x3ff8000000000000 maxFloat ∧ Value.F64.eq 0x3ff8000000000000 Types.F64.min = false
    unfold fle; decide) (by
    simp only [Pt.pieces, inBrackets, commas, List.forall_mem_cons, List.cons_append, List.nil_append]
    exact ⟨trivial, trivial, fine_15 hE, trivial, by simp⟩) (text := w ['F', 'l', 'o', 'a', 't', '[', '1', '.', '5', ']']) (written_plain S1 _)
  refine ⟨_, u, parseType_plain E [.name .float] [⟨Name.text .float, tName⟩, ⟨[], tEnd⟩] rfl rfl trivial (by simp [Pc.Fine]) rfl, hu, rfl, ?_⟩
  cases h : instanceOf E.types u (.float 0x7ff0000000000000) with
  | false => rfl
  | true =>
    obtain ⟨f, hf, _, h⟩ := (hi _ (by simp only [WF]; decide) (by simp [Fits])).1 h
    cases hf
    exact absurd h (by unfold fle; decide)

/-- **C62 is violated by arrays of `Undef`.**  `Array[Undef, 1, 1]` panics; it should describe the array of one undef. -/
theorem C62_undef_violated (E : Env) :
    parseType E (w ['A', 'r', 'r', 'a', 'y', '[', 'U', 'n', 'd', 'e', 'f', ',', '1', ',', '1', ']']) = .error .badArgs := by
  refine parseType_error E (.name .array :: inBrackets [[.name .undef], [.int 1], [.int 1]])
    [⟨Name.text .array, tName⟩, ⟨[], 91⟩, ⟨Name.text .undef, tName⟩, ⟨[], 44⟩, ⟨[49], tInteger⟩, ⟨[], 44⟩, ⟨[49], tInteger⟩, ⟨[], 93⟩, ⟨[], tEnd⟩]
    (by decide +kernel) (by decide +kernel) (apart_brackets _ (by simp [Apart])) ?_ rfl
  simp [inBrackets, commas, Pc.Fine]

/-- **C62 is violated by the sizes of a tuple.**  `Tuple[Integer, 2, 3]` describes the empty array. -/
theorem C62_tuple_violated (E : Env) :
    ∃ t, parseType E (w ['T', 'u', 'p', 'l', 'e', '[', 'I', 'n', 't', 'e', 'g', 'e', 'r', ',', '2', ',', '3', ']']) = .ok t ∧
      instanceOf E.types t (.arr []) = true := by
  refine ⟨_, parseType_plain E (.name .tuple :: inBrackets [[.name .integer], [.int 2], [.int 3]])
    [⟨Name.text .tuple, tName⟩, ⟨[], 91⟩, ⟨Name.text .integer, tName⟩, ⟨[], 44⟩, ⟨[50], tInteger⟩, ⟨[], 44⟩, ⟨[51], tInteger⟩, ⟨[], 93⟩, ⟨[], tEnd⟩]
    (by decide +kernel) (by decide +kernel) (apart_brackets _ (by simp [Apart])) ?_ rfl, rfl⟩
  simp [inBrackets, commas, Pc.Fine]

/-- **C62 is violated by `Number` with limits that are no integers.**  `Number[1.5, 1.5]` describes the integer 1. -/
theorem C62_number_violated :
    ∃ t, parseType E1 (w ['N', 'u', 'm', 'b', 'e', 'r', '[', '1', '.', '5', ',', '1', '.', '5', ']']) = .ok t ∧ instanceOf E1.types t (.int 1) = true := by
  refine ⟨_, parseType_plain E1 (.name .number :: inBrackets [[.float 0x3ff8000000000000], [.float 0x3ff8000000000000]])
    [⟨Name.text .number, tName⟩, ⟨[], 91⟩, ⟨w ['1', '.', '5'], tFloat⟩, ⟨[], 44⟩, ⟨w ['1', '.', '5'], tFloat⟩, ⟨[], 93⟩, ⟨[], tEnd⟩] rfl rfl
    (apart_brackets _ (by simp [Apart])) ?_ rfl, rfl⟩
  simp only [inBrackets, commas, List.forall_mem_cons, List.cons_append, List.nil_append]
  exact ⟨trivial, trivial, fine_15 rfl, trivial, fine_15 rfl, trivial, by simp⟩

/-- **C62 is violated by `default` as a limit of a string.**  `String[default, 5]` panics. -/
theorem C62_default_violated (E : Env) :
    parseType E (w ['S', 't', 'r', 'i', 'n', 'g', '[', 'd', 'e', 'f', 'a', 'u', 'l', 't', ',', '5', ']']) = .error .badArgs := by
  refine parseType_error E (.name .string :: inBrackets [[.dflt], [.int 5]])
    [⟨Name.text .string, tName⟩, ⟨[], 91⟩, ⟨w ['d', 'e', 'f', 'a', 'u', 'l', 't'], tIdentifier⟩, ⟨[], 44⟩, ⟨[53], tInteger⟩, ⟨[], 93⟩, ⟨[], tEnd⟩]
    (by decide +kernel) (by decide +kernel) (apart_brackets _ (by simp [Apart])) ?_ rfl
  simp [inBrackets, commas, Pc.Fine]

/-! ### C63: literals of values -/

/-- **C63.**  The literal of a value is read as that value: undef, booleans, integers, floats, strings, regular expressions, and arrays and
hashes of them.  `Pc.Fine` excludes the floats, strings and regular expressions that are not read back. -/
theorem C63_partial {S : SEnv} {E : Env} (hp : ∀ c < 32, S.isPrint c = false) {v : Val} (hl : Literal E v) (hf : ∀ c ∈ valPieces v, c.Fine S E)
    {text : Str} (hw : Written S (valPieces v) text) : ∃ x, parse E text = .ok x ∧ x.toVal = some v := by
  obtain ⟨x, e, hx⟩ := parseTokens_reads (reads_val v hl hf)
  exact ⟨x, by rw [parse_written hp hw (apart_val v) hf, e], hx⟩

/-- `{1 => [true, undef], -7 => {}}` -/
example (E : Env) : ∃ x, parse E ((valPieces (.map [(.int 1, .arr [.bool true, .nil]), (.int (-7), .map [])])).flatMap (Pc.text S1)) = .ok x ∧
    x.toVal = some (.map [(.int 1, .arr [.bool true, .nil]), (.int (-7), .map [])]) := by
  refine C63_partial S1_print (by simp [Literal, Literals, LiteralEntries]) ?_ (written_plain S1 _)
  intro c hc
  simp only [valPieces, valsPieces, entriesPieces, inBrackets, commas, List.mem_cons, List.cons_append, List.nil_append, List.append_assoc, List.mem_append,
    List.not_mem_nil, or_false] at hc
  rcases hc with rfl | rfl | rfl | rfl | rfl | rfl | rfl | rfl | rfl | rfl | rfl | rfl | rfl | rfl <;> trivial

/-- **C63 is violated by a key that is repeated.**  `{1 => 2, 1 => 3}` is a hash with two entries for one key. -/
theorem C63_violated (E : Env) : parse E (w ['{', '1', '=', '>', '2', ',', '1', '=', '>', '3', '}']) =
    .ok (.map [(.val (.int 1), .val (.int 2)), (.val (.int 1), .val (.int 3))]) := by
  rw [parse_plain E [.openB, .int 1, .rocket, .int 2, .comma, .int 1, .rocket, .int 3, .closeB]
    [⟨[], 123⟩, ⟨[49], tInteger⟩, tRock, ⟨[50], tInteger⟩, ⟨[], 44⟩, ⟨[49], tInteger⟩, tRock, ⟨[51], tInteger⟩, ⟨[], 125⟩, ⟨[], tEnd⟩]
    (t := w ['{', '1', '=', '>', '2', ',', '1', '=', '>', '3', '}']) (by decide +kernel) (by decide +kernel) (by simp [Apart, Pc.isWord]) (by simp [Pc.Fine])]
  rfl

/-! ### C64: blanks and comments -/

/-- **C64.**  Blanks, line breaks and comments between the pieces of a text, and which quotes are around a string, make no difference,
whether the text is accepted or not. -/
theorem C64_layout {S : SEnv} {E : Env} (hp : ∀ c < 32, S.isPrint c = false) {ps : List Pc} (ha : Apart ps) (hf : ∀ c ∈ ps, c.Fine S E)
    {t t' : Str} (h : Written S ps t) (h' : Written S ps t') : parse E t = parse E t' := by
  rw [parse_written hp h ha hf, parse_written hp h' ha hf]

/-- `[1,2]` and a version of it in three lines with a comment -/
example (E : Env) : parse E ([91] ++ formatInt 1 ++ [44] ++ formatInt 2 ++ [93]) =
    parse E ([32, 91, 10] ++ formatInt 1 ++ [44, 35, 195, 169, 93, 10, 9] ++ formatInt 2 ++ [93, 32]) := by
  refine C64_layout (S := S1) S1_print (ps := [.open_, .int 1, .comma, .int 2, .close]) (by simp [Apart, Pc.isWord]) (by simp [Pc.Fine])
    (t := [91] ++ formatInt 1 ++ [44] ++ formatInt 2 ++ [93]) ?_ ?_
  · have := written_plain S1 [.open_, .int 1, .comma, .int 2, .close]
    simpa [List.flatMap_cons, Pc.text, w] using this
  simp only [List.cons_append, List.nil_append, List.append_assoc]
  refine .blank 32 (by decide) (.piece .open_ (.blank 10 (by decide) (.piece (.int 1) (.piece .comma ?_))))
  exact .comment [233, 93] (by decide) (.blank 9 (by decide) (.piece (.int 2) (.piece .close (.blank 32 (by decide) .nil))))

/-! ### C65: what does not belong to the language -/

/-- How a token of each type starts: a digit or a sign, quotes, a slash, a letter, `=`; or it is the character itself. -/
def StartsWith (c : Nat) (t : Token) : Prop :=
  (t.type ∈ [1, 2] ∧ (48 ≤ c ∧ c ≤ 57 ∨ c = 43 ∨ c = 45)) ∨ (t.type = 3 ∧ (c = 34 ∨ c = 39)) ∨ (t.type = 4 ∧ c = 47) ∨
  (t.type = 5 ∧ 97 ≤ c ∧ c ≤ 122) ∨ (t.type = 6 ∧ 65 ≤ c ∧ c ≤ 90) ∨ (t.type = 7 ∧ t.value = [61, 62] ∧ c = 61) ∨
  (t.type = c ∧ t.value = [] ∧ 7 < c)

/-- A blank, or a comment with the line break after it -/
inductive Skipped : In → Prop where
  | blank (c : Nat) : c = 32 ∨ c = 9 ∨ c = 10 → Skipped [some c]
  | comment (cs : List Nat) (e : Nat) : e = 0 ∨ e = 10 → Skipped (some 35 :: cs.map some ++ [some e])

theorem consumeComment_split {i i' : In} (h : consumeComment i = .ok i') (hn : i' ≠ []) : ∃ (cs : List Nat) (e : Nat), (e = 0 ∨ e = 10) ∧ i = cs.map some ++ some e :: i' := by
  induction i with
  | nil => rw [consumeComment] at h; cases h; exact absurd rfl hn
  | cons r t ih =>
    cases r with
    | none => rw [consumeComment] at h; cases h
    | some r =>
      rw [consumeComment] at h
      split at h
      · cases h; exact ⟨[], r, by assumption, rfl⟩
      · obtain ⟨cs, e, he, rfl⟩ := ih h
        exact ⟨r :: cs, e, he, rfl⟩

/-- **C65, as far as it holds.**  If none of the characters with the codes 0 to 7 occurs, then a token other than the end token starts,
after blanks and comments, with a character that such a token may start with; any other character yields a token of its own, which no rule
of the grammar has unless it is one of the punctuation characters. -/
theorem C65_partial {i i' : In} {t : Token} (h : nextTok i = .ok (t, i')) (hc : ∀ c, some c ∈ i → 7 < c) (ht : t.type ≠ 0) :
    ∃ (skipped : List In) (c : Nat) (u : In), (∀ b ∈ skipped, Skipped b) ∧ i = skipped.flatten ++ some c :: u ∧ i' <:+ u ∧ StartsWith c t := by
  fun_induction nextTok i with
  | case1 => cases h; exact absurd rfl ht
  | case2 => cases h
  | case3 _ => cases h; exact absurd rfl ht
  | case4 r t' _ hr ih =>
    obtain ⟨bl, c, u, h1, h2, h3⟩ := ih h fun c hm => hc c (List.mem_cons_of_mem _ hm)
    refine ⟨[some r] :: bl, c, u, ?_, by rw [h2]; rfl, h3⟩
    intro b hb
    rcases List.mem_cons.1 hb with rfl | hb
    · exact .blank r hr
    · exact h1 b hb
  | case5 => cases h
  | case6 u u' hcm _ _ ih =>
    have hne : u' ≠ [] := by
      rintro rfl
      rw [nextTok.eq_def] at h
      cases h
      exact ht rfl
    obtain ⟨cs, e, he, rfl⟩ := consumeComment_split hcm hne
    obtain ⟨bl, c, v, h1, h2, h3⟩ := ih h fun c hm => hc c (List.mem_cons_of_mem _ (List.mem_append_right _ (List.mem_cons_of_mem _ hm)))
    refine ⟨(some 35 :: cs.map some ++ [some e]) :: bl, c, v, ?_, by rw [h2]; simp, h3⟩
    intro b hb
    rcases List.mem_cons.1 hb with rfl | hb
    · exact .comment cs e he
    · exact h1 b hb
  | case7 r u _ _ _ hq =>
    obtain ⟨⟨a, c⟩, h1, h2⟩ := map_ok h
    cases h2
    exact ⟨[], _, _, by simp, rfl, consumeString_suffix h1, Or.inr (Or.inl ⟨rfl, by omega⟩)⟩
  | case8 u =>
    obtain ⟨⟨a, c⟩, h1, h2⟩ := map_ok h
    cases h2
    exact ⟨[], _, _, by simp, rfl, consumeRegexp_suffix h1, Or.inr (Or.inr (Or.inl ⟨rfl, rfl⟩))⟩
  | case9 u =>
    refine ⟨[], _, _, by simp, rfl, (equals_suffix h).1, ?_⟩
    unfold equals at h
    unfold StartsWith
    split at h
    · cases h
    · cases h; simp [tRocket]
    · cases h; simp
  | case10 r u _ _ _ _ _ _ hs =>
    refine ⟨[], _, _, by simp, rfl, (sign_suffix h).1, ?_⟩
    unfold sign at h
    split at h
    · cases h
    · cases h
    · split at h
      · cases h
      · obtain ⟨⟨ty, a, c⟩, h1, h2⟩ := map_ok h
        cases h2
        have := (numberLoop_suffix (Or.inl rfl) h1).2
        exact Or.inl ⟨by rcases this with h | h <;> rw [show (Token.mk c ty).type = ty from rfl, h] <;> decide, by omega⟩
  | case11 r u h0 =>
    refine ⟨[], _, _, by simp, rfl, (build_suffix h0 h).1, ?_⟩
    have h7 := hc r List.mem_cons_self
    unfold build at h
    split at h
    · rename_i hd
      obtain ⟨⟨ty, a, c⟩, h1, h2⟩ := map_ok h
      cases h2
      have := (numberLoop_suffix (Or.inl rfl) h1).2
      refine Or.inl ⟨by rcases this with h | h <;> rw [show (Token.mk c ty).type = ty from rfl, h] <;> decide, Or.inl ?_⟩
      unfold Text.isDigit at hd
      simpa using hd
    · split at h
      · rename_i hd
        obtain ⟨⟨a, c⟩, h1, h2⟩ := map_ok h
        cases h2
        unfold Text.isUpper at hd
        exact Or.inr (Or.inr (Or.inr (Or.inr (Or.inl ⟨rfl, by simpa using hd⟩))))
      · split at h
        · rename_i hd
          obtain ⟨⟨a, c⟩, h1, h2⟩ := map_ok h
          cases h2
          unfold Text.isLower at hd
          exact Or.inr (Or.inr (Or.inr (Or.inl ⟨rfl, by simpa using hd⟩)))
        · cases h
          exact Or.inr (Or.inr (Or.inr (Or.inr (Or.inr (Or.inr ⟨rfl, rfl, h7⟩)))))

/-- A comment and a blank before a name -/
example : ∃ (skipped : List In) (c : Nat) (u : In), (∀ b ∈ skipped, Skipped b) ∧ runes ([35, 120, 10, 32] ++ w ['A', 'n', 'y']) = skipped.flatten ++ some c :: u ∧ [] <:+ u ∧
    StartsWith c ⟨w ['A', 'n', 'y'], tName⟩ := by
  have hr : runes ([35, 120, 10, 32] ++ w ['A', 'n', 'y']) = [some 35, some 120, some 10, some 32, some 65, some 110, some 121] := by
    simp only [w, List.map, List.cons_append, List.nil_append]
    rw [runes_ascii (by decide), runes_ascii (by decide), runes_ascii (by decide), runes_ascii (by decide), runes_ascii (by decide),
      runes_ascii (by decide), runes_ascii (by decide), runes_nil]
    rfl
  rw [hr]
  refine C65_partial (i' := []) ?_ (by simp) (show tName ≠ 0 by decide)
  decide +kernel

/-- **C65 is violated.**  The control character U+0001 is read as the integer 0, U+0003 as the empty string, and everything after a
character NUL is ignored. -/
theorem C65_violated (E : Env) :
    parse E [1] = .ok (.val (.int 0)) ∧ parse E [3] = .ok (.val (.str [])) ∧
    ∀ garbage : Str, parse E ([91, 93, 0] ++ garbage) = .ok (.arr []) := by
  have h1 : nextTok [] = .ok (⟨[], tEnd⟩, []) := by rw [nextTok.eq_def]
  refine ⟨?_, ?_, ?_⟩
  · have h : nextTok (runes [1]) = .ok (⟨[], tInteger⟩, []) := by
      rw [runes_ascii (by decide), runes_nil, nextTok.eq_def]; rfl
    unfold parse
    rw [tokens_cons h (show tInteger ≠ tEnd by decide), tokens_end h1 rfl]
    rfl
  · have h : nextTok (runes [3]) = .ok (⟨[], tString⟩, []) := by
      rw [runes_ascii (by decide), runes_nil, nextTok.eq_def]; rfl
    unfold parse
    rw [tokens_cons h (show tString ≠ tEnd by decide), tokens_end h1 rfl]
    rfl
  · intro g
    have h : nextTok (runes ([91, 93, 0] ++ g)) = .ok (⟨[], 91⟩, runes ([93, 0] ++ g)) := nextTok_punct (c := 91) (by decide) _
    have h2 : nextTok (runes ([93, 0] ++ g)) = .ok (⟨[], 93⟩, runes ([0] ++ g)) := nextTok_punct (c := 93) (by decide) _
    have h3 : nextTok (runes ([0] ++ g)) = .ok (⟨[], tEnd⟩, runes g) := by
      rw [List.cons_append, List.nil_append, runes_ascii (by decide), nextTok.eq_def]; rfl
    unfold parse
    rw [tokens_cons h (by decide), tokens_cons h2 (by decide), tokens_end h3 rfl]
    rfl

end Verif.Pcore
