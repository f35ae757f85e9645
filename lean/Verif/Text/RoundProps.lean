import Verif.Text.Chains
/-!
# C35, C38: what is printed is read back
-/
set_option autoImplicit false
set_option linter.unusedVariables false
set_option linter.unusedSimpArgs false
namespace Verif.Text
open Verif.Value (Str Val F64)
open Verif.Types (Ty Oid maxInt)

/-! ### C35: types -/

/-- **C35, as far as it holds.**  A type that is printed and parsed again is the same type (`strip` forgets which object a type
is, nothing else).  `RtTy` (Text/Domain.lean) says for which types: it covers all nestings of `|`, `&`, `^`, `!`, arrays, maps,
tuples, structs, ranges, sizes and literals but for the cases listed in DESIGN.md, of which `C35_violated` shows some.
`hp`: control characters are not printable. -/
theorem C35_partial {S : SEnv} {E : PEnv} (hp : ∀ c < 32, S.isPrint c = false) {t : Ty} (h : RtTy S E t) :
    parseType E (typeString S t) = .ok (strip t) := by
  unfold parseType
  rw [parse_typeString hp h]
  show Except.ok _ = _
  rw [pvOf_asType h]

/-- ASCII as it is printed -/
def asciiEnv : SEnv := ⟨fun c => decide (32 ≤ c ∧ c < 127), fun _ => [], fun _ => [], fun _ => []⟩

theorem asciiEnv_ctrl : ∀ c < 32, asciiEnv.isPrint c = false := by
  intro c hc; simp [asciiEnv]; omega

/-- `{"a":1..5|nil,"b"?:[1,7](!"x"&string),...}` -/
def exampleTy : Ty :=
  .struct (.user 1) true [(.str [97], true, .anyOf (.user 2) [.intRange 1 5 true, .nilT]),
    (.str [98], false, .sizedArr (.user 3) (.allOf (.user 4) [.not (.exact (.str [120])), .strT]) 1 7)]

theorem exampleTy_ok (E : PEnv) : RtTy asciiEnv E exampleTy := by
  have hs : ∀ c : UInt8, (c = 97 ∨ c = 98 ∨ c = 120) → StrOk asciiEnv [c] := by
    intro c hc
    refine ⟨[c.toNat], ?_, ?_⟩
    · intro d hd
      simp only [List.mem_singleton] at hd
      subst hd
      unfold Quotable
      rcases hc with rfl | rfl | rfl <;> decide
    · rcases hc with rfl | rfl | rfl <;> rfl
  simp only [exampleTy, RtTy, RtTys, RtFields, RtVal, keyOk, plain, scalar, SizesOk]
  simp [hs, maxInt, Types.minI64, Types.maxI64, Ty.isAny, Ty.isExact]

example (E : PEnv) : parseType E (typeString asciiEnv exampleTy) = .ok (strip exampleTy) ∧
    typeString asciiEnv exampleTy =
      [123, 34, 97, 34, 58, 49, 46, 46, 53, 124, 110, 105, 108, 44, 34, 98, 34, 63, 58, 91, 49, 44, 55, 93,
        40, 33, 34, 120, 34, 38, 115, 116, 114, 105, 110, 103, 41, 44, 46, 46, 46, 125] := by
  refine ⟨C35_partial asciiEnv_ctrl (exampleTy_ok E), ?_⟩
  have hq : ∀ c : UInt8, (c = 97 ∨ c = 98 ∨ c = 120) → quote asciiEnv.isPrint [c] = [34, c, 34] := by
    intro c hc
    unfold quote
    rw [quoteLoop.eq_def]
    rcases hc with rfl | rfl | rfl <;> (simp [quoteLoop_nil, Value.runeLen, decode, runeError, escapeRune, asciiEnv, encode])
  have hd : ∀ n : Nat, n < 10 → digits n = [UInt8.ofNat (48 + n)] := by
    intro n h; rw [digits, if_pos h]
  simp only [typeString, exampleTy, tyPieces, fieldPieces, valPieces, joinPieces, ternary, textOfPieces, intRangePieces, sizeBoundaries]
  simp [Piece.text, commaPrio, orPrio, typePrio, andPrio, hq, formatInt, hd, maxInt, Types.minI64, Types.maxI64, wNil, wString, w]

/-- Two types that are read back are printed the same only if they are the same. -/
theorem C35_injective_partial {S : SEnv} {E : PEnv} (hp : ∀ c < 32, S.isPrint c = false) {t u : Ty} (ht : RtTy S E t) (hu : RtTy S E u)
    (h : typeString S t = typeString S u) : strip t = strip u := by
  have h1 := C35_partial hp ht
  rw [h, C35_partial hp hu] at h1
  exact (Except.ok.inj h1).symm

example (E : PEnv) (o : Oid) (h : typeString asciiEnv (.not (.sens o .any)) = typeString asciiEnv exampleTy) : strip (.not (.sens o .any)) = strip exampleTy :=
  C35_injective_partial (E := E) asciiEnv_ctrl (by simp [RtTy]) (exampleTy_ok E) h

/-- Printing once more what was read yields the same text. -/
theorem C35_stable_partial {S : SEnv} {E : PEnv} (hp : ∀ c < 32, S.isPrint c = false) {t : Ty} (h : RtTy S E t) :
    (parseType E (typeString S t)).map (typeString S) = .ok (typeString S t) := by
  rw [C35_partial hp h]
  show Except.ok (typeString S (strip t)) = _
  unfold typeString
  rw [pieces_strip]

example (E : PEnv) : (parseType E (typeString asciiEnv exampleTy)).map (typeString asciiEnv) = .ok (typeString asciiEnv exampleTy) :=
  C35_stable_partial asciiEnv_ctrl (exampleTy_ok E)

/-- **C35 is violated.**  Types that are not read back:
* the array of anything but strings, printed `[]!string`: parsing fails;
* the tuple without elements, printed `{}`: read as the map without entries;
* the tuple of nil, printed `{nil}`: parsing panics;
* the map from true to 1, printed `{true:1}`: read as the map from the string "true";
* the sensitive type of the exact integer 1, printed `sensitive[1]`: parsing panics;
* the tuple of the integers less than 5, printed `{...5}`: read as a list of any number of 5s. -/
theorem C35_violated {S : SEnv} {E : PEnv} (hp : ∀ c < 32, S.isPrint c = false) (o : Oid) :
    (∃ e, parseType E (typeString S (.sizedArr o (.not .strT) 0 maxInt)) = .error e) ∧
    parseType E (typeString S (.tuple o [] false)) = .ok (.exactD O (.map [])) ∧
    (∃ e, parseType E (typeString S (.tuple o [.nilT] false)) = .error e) ∧
    parseType E (typeString S (.exactD o (.map [(.bool true, .int 1)]))) = .ok (.exactD O (.map [(.str wTrue, .int 1)])) ∧
    (∃ e, parseType E (typeString S (.sens o (.exact (.int 1)))) = .error e) ∧
    parseType E (typeString S (.tuple o [.intRange Types.minI64 5 false] false)) = .ok (.tuple O [.exact (.int 5)] true) := by
  have run : ∀ ps : List Piece, Emb S ps → parse E (textOfPieces S ps) = parseTokens E (toks S ps ++ [⟨[], tEnd⟩]) := by
    intro ps h
    have hc := h [] (Or.inl rfl) True.intro
    rw [List.append_nil] at hc
    unfold parse
    rw [tokens_pieces hp hc]
  have e1 : formatInt (1 : BitVec 64).toInt = [49] := by
    show formatInt 1 = _
    unfold formatInt; rw [if_neg (by decide)]; rw [show Int.natAbs 1 = 1 from rfl, digits, if_pos (by decide)]; rfl
  have e5 : formatInt (5 : BitVec 64).toInt = [53] := by
    show formatInt 5 = _
    unfold formatInt; rw [if_neg (by decide)]; rw [show Int.natAbs 5 = 5 from rfl, digits, if_pos (by decide)]; rfl
  refine ⟨?_, ?_, ?_, ?_, ?_, ?_⟩
  · have : tyPieces S (sensPieces S) commaPrio (.sizedArr o (.not .strT) 0 maxInt) = [.ch 91, .ch 93, .ch 33, .word wString] := by
      simp [tyPieces]
    refine ⟨.syntax ⟨[], 33⟩, ?_⟩
    unfold parseType typeString
    rw [this, run [.ch 91, .ch 93, .ch 33, .word wString] (.ch punct (.ch punct (.ch punct (.word word_ok))))]
    rfl
  · have : tyPieces S (sensPieces S) commaPrio (.tuple o [] false) = [.ch 123, .ch 125] := by simp [tyPieces, tuplePieces]
    unfold parseType typeString
    rw [this, run [.ch 123, .ch 125] (.ch punct (.ch punct .nil))]
    rfl
  · have : tyPieces S (sensPieces S) commaPrio (.tuple o [.nilT] false) = [.ch 123, .word wNil, .ch 125] := by simp [tyPieces, tuplePieces]
    refine ⟨.badArgs, ?_⟩
    unfold parseType typeString
    rw [this, run [.ch 123, .word wNil, .ch 125] (Emb.brace (ps := [.word wNil]) (.word word_ok))]
    rfl
  · have : tyPieces S (sensPieces S) commaPrio (.exactD o (.map [(.bool true, .int 1)])) =
        [.ch 123, .word wTrue, .ch 58, .int (1 : BitVec 64).toInt, .ch 125] := by simp [tyPieces, valPieces, entriesPieces]
    unfold parseType typeString
    rw [this, run [.ch 123, .word wTrue, .ch 58, .int (1 : BitVec 64).toInt, .ch 125]
      (Emb.brace (Emb.sep (c := 58) (a := [.word wTrue]) (b := [.int (1 : BitVec 64).toInt]) punct (.word word_ok) (.int _)))]
    have ht : toks S [.ch 123, .word wTrue, .ch 58, .int (1 : BitVec 64).toInt, .ch 125] =
        [⟨[], 123⟩, ⟨wTrue, tIdentifier⟩, ⟨[], 58⟩, ⟨[49], tInteger⟩, ⟨[], 125⟩] := by
      simp only [toks, List.map_cons, List.map_nil, Piece.tok, e1]; rfl
    rw [ht]
    rfl
  · have : tyPieces S (sensPieces S) commaPrio (.sens o (.exact (.int 1))) =
        [.word wSensitive, .ch 91, .int (1 : BitVec 64).toInt, .ch 93] := by simp [tyPieces, valPieces, Ty.isAny]
    refine ⟨.badArgs, ?_⟩
    unfold parseType typeString
    rw [this, run [.word wSensitive, .ch 91, .int (1 : BitVec 64).toInt, .ch 93]
      (Emb.append (a := [.word wSensitive]) (.word word_ok) (bracket_emb (.int _)) (Or.inr ⟨_, _, rfl⟩))]
    have ht : toks S [.word wSensitive, .ch 91, .int (1 : BitVec 64).toInt, .ch 93] =
        [⟨wSensitive, tIdentifier⟩, ⟨[], 91⟩, ⟨[49], tInteger⟩, ⟨[], 93⟩] := by
      simp only [toks, List.map_cons, List.map_nil, Piece.tok, e1]; rfl
    rw [ht]
    rfl
  · have : tyPieces S (sensPieces S) commaPrio (.tuple o [.intRange Types.minI64 5 false] false) =
        [.ch 123, .dots3, .int (5 : BitVec 64).toInt, .ch 125] := by
      simp [tyPieces, tuplePieces, intRangePieces, Types.minI64, Types.maxI64]
    unfold parseType typeString
    rw [this, run [.ch 123, .dots3, .int (5 : BitVec 64).toInt, .ch 125] (Emb.brace (.dots3 (.int _)))]
    have ht : toks S [.ch 123, .dots3, .int (5 : BitVec 64).toInt, .ch 125] =
        [⟨[], 123⟩, ⟨[46, 46, 46], tDotdotdot⟩, ⟨[53], tInteger⟩, ⟨[], 125⟩] := by
      simp only [toks, List.map_cons, List.map_nil, Piece.tok, e5]; rfl
    rw [ht]
    rfl

/-! ### C38: integers and ranges -/

/-- A printed integer is one token that denotes the integer, whatever follows that is not a digit, a letter or a single dot. -/
theorem C38_token (v : BitVec 64) (rest : Str) (h : Stops (runes rest)) :
    ∃ t, nextToken (runes (formatInt v.toInt ++ rest)) = .ok (t, runes rest) ∧ t.type = tInteger ∧ tokenInt t = v :=
  ⟨_, nextToken_format v.toInt rest h, rfl, tokenInt_toInt v⟩

example : ∃ t, nextToken (runes (formatInt (BitVec.toInt Types.minI64) ++ [46, 46, 53])) = .ok (t, runes [46, 46, 53]) ∧
    t.type = tInteger ∧ tokenInt t = Types.minI64 :=
  C38_token _ _ (by
    rw [runes_ascii (by decide), runes_ascii (by decide)]
    exact ⟨by decide, by decide, by decide, by decide, by decide, fun _ => ⟨_, rfl⟩⟩)

/-- **C38.**  Every integer, and every range of integers, inclusive or not, bounded or not, is read back from its printed form. -/
theorem C38_ranges {S : SEnv} {E : PEnv} (hp : ∀ c < 32, S.isPrint c = false) :
    (∀ v : BitVec 64, parse E (typeString S (.exact (.int v))) = .ok (.val (.int v))) ∧
    ∀ (min max : BitVec 64) (inclusive : Bool) (t : Ty), Types.integerType min max inclusive = some t →
      parseType E (typeString S t) = .ok t := by
  refine ⟨fun v => parse_typeString hp (by rw [RtTy, RtVal]; exact ⟨rfl, True.intro⟩), ?_⟩
  intro min max inclusive t ht
  have h : RtTy S E t ∧ strip t = t := by
    unfold Types.integerType at ht
    split at ht
    · split at ht
      · cases ht
      · cases ht; exact ⟨by rw [RtTy, RtVal]; exact ⟨rfl, True.intro⟩, by simp [strip]⟩
    · rename_i hne
      have hne' : max.slt min = false → min.slt max = true := by
        intro h
        have hi : min.toInt ≠ max.toInt := fun h => hne (BitVec.toInt_inj.1 h)
        simp [BitVec.slt] at h ⊢; omega
      dsimp only at ht
      cases hs : max.slt min <;> rw [hs] at ht <;>
        simp only [if_true, if_false, Bool.false_eq_true] at ht <;> split at ht <;> cases ht
      all_goals first
        | exact ⟨by rw [RtTy]; exact True.intro, by simp [strip]⟩
        | (rename_i hx; exact ⟨by rw [RtTy]; exact ⟨hne' hs, hx⟩, by simp [strip]⟩)
        | (rename_i hx; exact ⟨by rw [RtTy]; exact ⟨hs, hx⟩, by simp [strip]⟩)
  have := C35_partial (E := E) hp h.1
  rwa [h.2] at this

/-- `7...10`, given with the bounds swapped -/
example (E : PEnv) : parseType E (typeString asciiEnv (.intRange 7 10 false)) = .ok (.intRange 7 10 false) :=
  (C38_ranges asciiEnv_ctrl).2 10 7 false _ rfl

end Verif.Text
