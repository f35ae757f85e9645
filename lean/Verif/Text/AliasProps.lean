import Verif.Text.AliasLemmas
import Verif.Text.RoundProps
import Verif.Text.NamedLemmas
/-!
# C126: types printed with names are read back

`NamesOk N E` (Text/AliasSpec.lean): the alias map of the printer (`N`, `GetName`) and the one of the parser (`E.alias_`, `GetType`) agree, names are
identifiers that are no words of the language, and no type of a value has a name.
-/
set_option autoImplicit false
set_option linter.unusedVariables false
set_option linter.unusedSimpArgs false
namespace Verif.Text
open Verif.Value (Str Val F64)
open Verif.Types (Ty Oid maxInt)

/-- **C126, as far as it holds.**  A type that is printed with the names of an alias map and parsed with the same alias map is the same type (`strip` forgets
which object a type is, nothing else), wherever in the type the names occur.  `RtN` (Text/AliasSpec.lean) are the types of `C35_partial` with any types at
all as parts, if those have names. -/
theorem C126_partial {N : Names} {S : SEnv} {E : PEnv} (hN : NamesOk N E) (hp : ∀ c < 32, S.isPrint c = false) {t : Ty} (h : RtN N S E t) :
    parseType E (typeStringWith N S t) = .ok (strip t) := by
  unfold parseType
  rw [Nam.parse_typeString hN hp h]
  show Except.ok _ = _
  rw [Nam.pvOf_asTypeN hN h]

/-- In particular the types of `C35_partial` are read back whichever types have names. -/
theorem C126_all_names_partial {N : Names} {S : SEnv} {E : PEnv} (hN : NamesOk N E) (hp : ∀ c < 32, S.isPrint c = false) {t : Ty} (h : RtTy S E t) :
    parseType E (typeStringWith N S t) = .ok (strip t) := C126_partial hN hp (Nam.RtTy.rtN t h)

/-- Names do not change what a text means: the text with names and the one without are read as the same type. -/
theorem C126_meaning_partial {N : Names} {S : SEnv} {E : PEnv} (hN : NamesOk N E) (hp : ∀ c < 32, S.isPrint c = false) {t : Ty} (h : RtTy S E t) :
    parseType E (typeStringWith N S t) = parseType E (typeString S t) := by
  rw [C126_all_names_partial hN hp h, C35_partial hp h]

/-- Types with the same text are the same, with names too. -/
theorem C126_injective_partial {N : Names} {S : SEnv} {E : PEnv} (hN : NamesOk N E) (hp : ∀ c < 32, S.isPrint c = false) {t u : Ty} (ht : RtN N S E t)
    (hu : RtN N S E u) (h : typeStringWith N S t = typeStringWith N S u) : strip t = strip u := by
  have h1 := C126_partial hN hp ht
  rw [h, C126_partial hN hp hu] at h1
  exact (Except.ok.inj h1).symm

/-- Without names it is the text of `TypeString`. -/
theorem C126_no_names (S : SEnv) (t : Ty) : typeStringWith (fun _ => none) S t = typeString S t := by
  unfold typeStringWith typeString
  rw [Nam.aux_eq (fun _ _ => rfl), Nam.aux_plain]

/-- A type with a name is printed as the name, and the name is read as what the parser knows under it, whatever that is. -/
theorem C126_name {N : Names} {S : SEnv} {E : PEnv} (hp : ∀ c < 32, S.isPrint c = false) {t u : Ty} {n : Str} (hn : N t = some n) (hw : Word n)
    (hk : n ∉ wordsOfTypes) (hu : E.alias_ n = some u) : typeStringWith N S t = n ∧ parseType E (typeStringWith N S t) = .ok u := by
  have e : namPieces N S (sensPieces S) commaPrio t = [.word n] := by
    cases t <;> (rw [namPieces]; unfold named; rw [hn])
  have hc : Chain S [.word n] := hw
  have ht := tokens_pieces (S := S) hp hc
  unfold typeStringWith
  rw [e]
  refine ⟨by simp [textOfPieces, Piece.text], ?_⟩
  unfold parseType parse
  rw [ht]
  simp only [wordsOfTypes, wAny, wBool, wInt, wFloat, wBinary, wTrue, wFalse, wNil, wMap, wType, wString, wSensitive, List.mem_cons, List.not_mem_nil,
    or_false, not_or] at hk
  have ha : AtTe E 3 [⟨n, tIdentifier⟩] (.ty u) := at_word (by decide) fun rest te _ => by
    unfold pIdentifier
    simp [hk, hu]
  have h1 := ha.un.any.parses [⟨[], tEnd⟩] (by simp [FolAny, FolOne, FolAll, Fol, peekTok, tEnd])
  dsimp only
  unfold parseTokens
  have h2 : pAnyOf E (typeExpression E 3) ⟨n, tIdentifier⟩ [⟨[], tEnd⟩] = .ok (.ty u, [⟨[], tEnd⟩]) := h1
  show Except.map PV.asType (match pAnyOf E (typeExpression E 3) ⟨n, tIdentifier⟩ [⟨[], tEnd⟩] with
    | .error e => .error e
    | .ok (v, ts) => if (peekTok ts).type ≠ tEnd then .error (.syntax (peekTok ts)) else .ok v) = _
  rw [h2]
  rfl

/-- The name in angle brackets is read as the same, also if it is a word of the language. -/
theorem C126_angle {E : PEnv} {u : Ty} {n : Str} (hw : Word n) (hu : E.alias_ n = some u) : parseType E ([60] ++ n ++ [62]) = .ok u := by
  have h1 : nextToken (runes ([60] ++ n ++ [62])) = .ok (⟨[], 60⟩, runes (n ++ [62])) := by
    rw [List.append_assoc, List.cons_append, List.nil_append, runes_ascii (by decide), nextToken.eq_def]; rfl
  have h2 : nextToken (runes (n ++ [62])) = .ok (⟨n, tIdentifier⟩, runes [62]) := nextToken_name hw (Or.inr ⟨62, [], by decide +kernel, by decide⟩)
  have h3 : tokens (runes [62]) = .ok [⟨[], 62⟩, ⟨[], tEnd⟩] := by with_unfolding_all rfl
  unfold parseType parse
  rw [tokens_cons h1 (by decide), tokens_cons h2 (show tIdentifier ≠ tEnd by decide), h3]
  show Except.map PV.asType (parseTokens E [⟨[], 60⟩, ⟨n, tIdentifier⟩, ⟨[], 62⟩, ⟨[], tEnd⟩]) = _
  have h4 : Parses (typeExpression E 5) Fol [⟨[], 60⟩, ⟨n, tIdentifier⟩, ⟨[], 62⟩] (.ty u) := by
    intro rest _
    show pAngle E (⟨n, tIdentifier⟩ :: ⟨[], 62⟩ :: rest) = _
    unfold pAngle
    simp [peekTok, hu]
  have h5 := pAnyOf_of (pOneOf_of (pAllOf_of (pUnary_plain (E := E) h4 (by decide) (by decide)))) [⟨[], tEnd⟩]
    (by simp [FolAny, FolOne, FolAll, Fol, peekTok, tEnd])
  have h6 : pAnyOf E (typeExpression E 5) ⟨[], 60⟩ [⟨n, tIdentifier⟩, ⟨[], 62⟩, ⟨[], tEnd⟩] = .ok (.ty u, [⟨[], tEnd⟩]) := h5
  unfold parseTokens
  show Except.map PV.asType (match pAnyOf E (typeExpression E 5) ⟨[], 60⟩ [⟨n, tIdentifier⟩, ⟨[], 62⟩, ⟨[], tEnd⟩] with
    | .error e => .error e
    | .ok (v, ts) => if (peekTok ts).type ≠ tEnd then .error (.syntax (peekTok ts)) else .ok v) = _
  rw [h6]
  rfl

/-! ### Examples -/

/-- `port` for `1..65535` -/
def portTy : Ty := .intRange 1 65535 true
def wPort : Str := w ['p', 'o', 'r', 't']

/-- An alias map with `port` only: the printer's side -/
def portName : Names
  | .intRange min max inclusive => if min = 1 ∧ max = 65535 ∧ inclusive = true then some wPort else none
  | _ => none

/-- … and the parser's -/
def portEnv (P : PEnv) : PEnv := { P with alias_ := fun n => if n = wPort then some portTy else none }

theorem portNames (P : PEnv) : NamesOk portName (portEnv P) := by
  intro t n h
  cases t with
  | intRange min max inclusive =>
    simp only [portName] at h
    split at h
    · rename_i hc
      obtain ⟨rfl, rfl, rfl⟩ := hc
      cases h
      exact ⟨word_ok, by decide +kernel, by simp [portEnv, portTy, strip], rfl⟩
    · cases h
  | _ => cases h

/-- `{"from":port,"to"?:[]port}` -/
def portsTy : Ty := .struct (.user 1) false [(.str (w ['f', 'r', 'o', 'm']), true, portTy), (.str (w ['t', 'o']), false, .sizedArr (.user 2) portTy 0 maxInt)]

theorem portsTy_ok (P : PEnv) : RtTy asciiEnv P portsTy := by
  have h1 : StrOk asciiEnv (w ['f', 'r', 'o', 'm']) :=
    ⟨[102, 114, 111, 109], by unfold Quotable Readable Scalar asciiEnv; decide, by decide⟩
  have h2 : StrOk asciiEnv (w ['t', 'o']) := ⟨[116, 111], by unfold Quotable Readable Scalar asciiEnv; decide, by decide⟩
  simp only [portsTy, portTy, RtTy, RtFields, RtVal, keyOk, plain, SizesOk]
  simp [h1, h2, maxInt, Types.minI64, Types.maxI64, Ty.isAny, Ty.isExact]

example (P : PEnv) : parseType (portEnv P) (typeStringWith portName asciiEnv portsTy) = .ok (strip portsTy) :=
  C126_all_names_partial (portNames P) asciiEnv_ctrl (portsTy_ok _)

example (P : PEnv) : parseType (portEnv P) (typeStringWith portName asciiEnv portsTy) = parseType (portEnv P) (typeString asciiEnv portsTy) :=
  C126_meaning_partial (portNames P) asciiEnv_ctrl (portsTy_ok _)

example (P : PEnv) (h : typeStringWith portName asciiEnv portsTy = typeStringWith portName asciiEnv portTy) : strip portsTy = strip portTy :=
  C126_injective_partial (portNames P) asciiEnv_ctrl (Nam.RtTy.rtN _ (portsTy_ok P)) (Nam.RtTy.rtN _ (by simp [portTy, RtTy, Types.minI64, Types.maxI64])) h

/-- `when` for the type of times, which is printed as `time` otherwise, a word that the parser does not know -/
def whenName : Names
  | .timeT => some (w ['w', 'h', 'e', 'n'])
  | _ => none

def whenEnv (P : PEnv) : PEnv := { P with alias_ := fun n => if n = w ['w', 'h', 'e', 'n'] then some .timeT else none }

theorem whenNames (P : PEnv) : NamesOk whenName (whenEnv P) := by
  intro t n h
  cases t with
  | timeT =>
    cases h
    exact ⟨word_ok, by decide +kernel, by simp [whenEnv, strip], rfl⟩
  | _ => cases h

/-- `map[string]when` is read back although `map[string]time` is not. -/
example (P : PEnv) : parseType (whenEnv P) (typeStringWith whenName asciiEnv (.sizedMap (.user 1) .strT .timeT 0 maxInt)) =
    .ok (.sizedMap O .strT .timeT 0 maxInt) :=
  C126_partial (whenNames P) asciiEnv_ctrl (by
    rw [RtN]
    refine Or.inr ⟨Or.inr (by rw [RtTy]; trivial), Or.inl (by simp [whenName]), Or.inl rfl, by unfold SizesOk; decide, by simp [Ty.isAny]⟩)

/-- A name that means another type by now (`C102_stale_name`) is read as that one. -/
example (P : PEnv) : parseType { P with alias_ := fun _ => some .strT } (typeStringWith portName asciiEnv portTy) = .ok .strT :=
  (C126_name asciiEnv_ctrl (n := wPort) (by decide +kernel) word_ok (by decide +kernel) rfl).2

example (P : PEnv) : parseType (portEnv P) ([60] ++ wPort ++ [62]) = .ok portTy := C126_angle word_ok rfl

/-- `{"from":port,"to"?:[]port}` -/
example : typeStringWith portName asciiEnv portsTy =
    w ['{', '"', 'f', 'r', 'o', 'm', '"', ':', 'p', 'o', 'r', 't', ',', '"', 't', 'o', '"', '?', ':', '[', ']', 'p', 'o', 'r', 't', '}'] := by
  decide +kernel

/-! ### What is not read back -/

/-- The type of the string `a` has the name `x`, as after `x="a"`. -/
def keyName : Names
  | .exact (.str [97]) => some [120]
  | _ => none

/-- `{"a":int}` is then printed as `{x:int}`, and that is read as `{"x":int}`, a type without common instances.  The same holds for maps. -/
theorem C126_key_violated (P : PEnv) (o : Oid) :
    typeStringWith keyName asciiEnv (.struct o false [(.str [97], true, .intT)]) = w ['{', 'x', ':', 'i', 'n', 't', '}'] ∧
    parseType { P with alias_ := fun n => if n = [120] then some (.exact (.str [97])) else none }
      (typeStringWith keyName asciiEnv (.struct o false [(.str [97], true, .intT)])) = .ok (.struct O false [(.str [120], true, .intT)]) := by
  refine ⟨by with_unfolding_all rfl, by with_unfolding_all rfl⟩

/-- A name that is a word of the language (`AddAliases` takes any name): the type of all strings with the name `int` is read as the type of all integers. -/
theorem C126_word_violated (P : PEnv) (al : Str → Option Ty) :
    typeStringWith (fun | .strT => some wInt | _ => none) asciiEnv .strT = wInt ∧
    parseType { P with alias_ := al } (typeStringWith (fun | .strT => some wInt | _ => none) asciiEnv .strT) = .ok .intT := by
  refine ⟨by with_unfolding_all rfl, by with_unfolding_all rfl⟩

/-- A name that is no identifier: printed with the name `a b`, the type of all strings is not read at all. -/
theorem C126_blank_violated (P : PEnv) (t u : Ty) : ∃ e,
    parseType { P with alias_ := fun _ => some u } (typeStringWith (fun _ => some [97, 32, 98]) asciiEnv t) = .error e := by
  have e : typeStringWith (fun _ => some [97, 32, 98]) asciiEnv t = [97, 32, 98] := by
    unfold typeStringWith
    have : namPieces (fun _ => some [97, 32, 98]) asciiEnv (sensPieces asciiEnv) commaPrio t = [.word [97, 32, 98]] := by
      cases t <;> (rw [namPieces]; unfold named; rfl)
    rw [this]; rfl
  rw [e]
  exact ⟨_, by with_unfolding_all rfl⟩

end Verif.Text
