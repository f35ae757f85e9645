import Verif.Text.NamedLemmas
import Verif.Text.RoundProps
/-!
# C79: the text of a value of a named type is read back
-/
set_option autoImplicit false
set_option linter.unusedVariables false
set_option linter.unusedSimpArgs false
namespace Verif.Text
open Verif.Value (Str Val F64)

/-- The words of the language (docs/types.md), which are no names of types: `any`, `bool`, `int`, `float`, `dgo`, `binary`, `true`, `false`, `nil`,
`map`, `type`, `string`, `sensitive` and `func`, as bytes -/
def words : List Str :=
  [[97, 110, 121], [98, 111, 111, 108], [105, 110, 116], [102, 108, 111, 97, 116], [100, 103, 111], [98, 105, 110, 97, 114, 121],
   [116, 114, 117, 101], [102, 97, 108, 115, 101], [110, 105, 108], [109, 97, 112], [116, 121, 112, 101], [115, 116, 114, 105, 110, 103],
   [115, 101, 110, 115, 105, 116, 105, 118, 101], [102, 117, 110, 99]]

theorem builtin_words : builtin = words := by decide

theorem peek_end (E : PEnv) : FolAny (peekTok [(⟨[], tEnd⟩ : Token)]).type := folAny_close.2.2.2.2.2.2

/-- **C79** (partial) What `ValueString` writes for an argument is read as the value that `New` of the type makes of that argument; what it
writes without an argument is read as the type.  The argument may be nil, a boolean, integer, float or string, or a nesting of arrays
and maps of these.  Partial: empty arrays are read as empty maps, see `C79_violated`; other arguments are not covered.  `Word`: the
name is an identifier. -/
theorem C79_partial {S : SEnv} {E : PEnv} (hp : ∀ c < 32, S.isPrint c = false) (known : Str → Option Nat) (name : Str) (p : Nat)
    (hk : known name = some p) (hw : Word name) (hb : name ∉ words) :
    (∀ d, ArgOk S E d → parseNamed E known (valueString S name (some d)) = .ok (.new p (.val d))) ∧
      parseNamed E known (valueString S name none) = .ok (.type p) := by
  have hbc : builtin.contains name = false := by rw [builtin_words]; simpa using hb
  constructor
  · intro d hd
    have hch := arg_chain (sensPieces S) hd
    obtain ⟨hne, hrx⟩ := arg_pieces (sensPieces S) hd
    have hline : LineEnd (valueText S name (some d)) := by
      unfold valueText
      dsimp only
      refine .append_end (line_word hw).line (.append_end ?_ (line_pieces hp hne hch hrx))
      cases joined d <;> exact Line.ascii _ (by decide)
    have htok : tokens (runes (valueText S name (some d))) = .ok (⟨name, tIdentifier⟩ :: (toks S (valPieces S (sensPieces S) d) ++ [⟨[], tEnd⟩])) := by
      unfold valueText
      dsimp only
      rw [tokens_cons (nextToken_name hw ?_) (show tIdentifier ≠ tEnd by decide)]
      · have : tokens (runes ((if joined d = true then [] else [32]) ++ textOfPieces S (valPieces S (sensPieces S) d))) =
            .ok (toks S (valPieces S (sensPieces S) d) ++ [⟨[], tEnd⟩]) := by
          split
          · exact tokens_pieces hp hch
          · rw [List.cons_append, List.nil_append, tokens_blank]
            exact tokens_pieces hp hch
        rw [this]; rfl
      · right
        split
        · rename_i hj
          obtain ⟨b, t, h1, h2, h3⟩ := arg_text (S := S) (sensPieces S) hj
          exact ⟨b.toNat, runes t, by rw [List.nil_append, h1, runes_ascii h2], h3⟩
        · exact ⟨32, _, by rw [List.cons_append, runes_ascii (by decide)]; rfl, by decide⟩
    obtain ⟨t, ts, hts, hst⟩ : ∃ t ts, toks S (valPieces S (sensPieces S) d) = t :: ts ∧ Start t.type := by
      obtain ⟨t, ts, h1, h2, _⟩ := (arg_te (sensPieces S) hd _ (Nat.le_refl _)).head
      exact ⟨t, ts, h1, h2⟩
    have hnotend : isExpressionEnd t.type = false ∧ t.type ≠ 61 := by
      unfold Start at hst
      simp only [List.mem_cons, List.not_mem_nil, or_false] at hst
      rcases hst with h | h | h | h | h | h | h | h | h | h | h | h <;> rw [h] <;> decide
    have hpar := ((arg_te (E := E) (sensPieces S) hd
      ((⟨name, tIdentifier⟩ :: (toks S (valPieces S (sensPieces S) d) ++ [(⟨[], tEnd⟩ : Token)])).length + 1) (by simp; omega)).un.any).parses
      [⟨[], tEnd⟩] (peek_end E)
    unfold valueString
    rw [stringLoop_line hline]
    unfold parseNamed
    rw [htok]
    dsimp only [peekTok_cons, List.tail_cons]
    rw [hts] at hpar ⊢
    simp only [List.cons_append, peekTok_cons, List.tail_cons] at hpar ⊢
    unfold parseName
    rw [if_pos ⟨rfl, hnotend.2, hbc⟩, hk]
    dsimp only
    unfold pNamed
    simp only [peekTok_cons, hnotend.1, Bool.false_eq_true, if_false, List.tail_cons]
    rw [hpar]
    dsimp only
    rw [arg_exact hd]
    rfl
  · have hline : LineEnd (valueText S name none) := by
      unfold valueText
      dsimp only
      rw [List.append_nil]
      exact line_word hw
    have htok : tokens (runes (valueText S name none)) = .ok [⟨name, tIdentifier⟩, ⟨[], tEnd⟩] := by
      unfold valueText
      dsimp only
      rw [tokens_cons (nextToken_name hw (Or.inl runes_nil)) (show tIdentifier ≠ tEnd by decide), runes_nil, tokens_end (t := ⟨[], tEnd⟩) rfl rfl]
      rfl
    unfold valueString
    rw [stringLoop_line hline]
    unfold parseNamed
    rw [htok]
    dsimp only [peekTok_cons, List.tail_cons]
    unfold parseName
    rw [if_pos ⟨rfl, show tEnd ≠ 61 by decide, hbc⟩, hk]
    rfl

/-- `point` with a map: `point{"x":3}` -/
def Ex.point : Str := w ['p', 'o', 'i', 'n', 't']
def Ex.arg : Val := .map [(.str [120], .int 3)]

theorem Ex.word : Word Ex.point ∧ Ex.point ∉ words := by
  refine ⟨⟨112, _, rfl, by decide, ?_⟩, by decide⟩
  decide

theorem Ex.argOk (E : PEnv) : ArgOk asciiEnv E Ex.arg := by
  refine Or.inr ?_
  have : StrOk asciiEnv [120] := by
    refine ⟨[120], ?_, rfl⟩
    intro d hd
    simp only [List.mem_singleton] at hd
    subst hd
    unfold Quotable
    decide
  simp [Ex.arg, RtVal, RtEntries, this]

/-- No floats, no regular expressions, letters as they are -/
def Ex.penv : PEnv := ⟨fun _ => ⟨0⟩, fun _ => ⟨0⟩, id, fun _ => false, fun _ => none⟩

example : parseNamed Ex.penv (fun s => if s = Ex.point then some 4 else none) (valueString asciiEnv Ex.point (some Ex.arg)) =
    .ok (.new 4 (.val Ex.arg)) :=
  (C79_partial asciiEnv_ctrl _ Ex.point 4 (if_pos rfl) Ex.word.1 Ex.word.2).1 _ (Ex.argOk _)

/-- **C79** (partial) In a world of named types: if the extractor finds an argument in a value, and the constructor makes `u` of that
argument (and the checker accepts it), then the text of the value is read as `u`.  So if the constructor gives back a value for the
argument that was found in it, the text is read as that value.  Partial for the same reasons as `C79_partial`. -/
theorem C79_value_partial {S : SEnv} {E : PEnv} (hp : ∀ c < 32, S.isPrint c = false) (W : Named.World) (known : Str → Option Nat) (p : Nat)
    (hk : known (W.defs p).name = some p) (hw : Word (W.defs p).name) (hb : (W.defs p).name ∉ words) (v u : Named.V) (d : Val)
    (extract : Named.V → Named.Out Named.V) (he : (W.defs p).extractor = some extract) (hv : extract v = .ok (.data d)) (hd : ArgOk S E d)
    (make : Named.V → Named.Out Named.V) (hc : (W.defs p).ctor = some make) (hm : make (.data d) = .ok u)
    (hck : ∀ c, (W.defs p).checker = some c → c (.named p) (W.type u) = .ok true) :
    ∃ text nv, valueStringOf S W p v = some text ∧ parseNamed E known text = .ok nv ∧ nv.value W = some (.ok u) := by
  have h1 := (C79_partial hp known _ p hk hw hb).1 d hd
  refine ⟨_, _, ?_, h1, ?_⟩
  · unfold valueStringOf
    rw [he]
    dsimp only
    rw [hv]
  · simp only [NV.value, Named.new, Named.generic, hc, hm, Named.Out.bind]
    cases h : (W.defs p).checker with
    | none => rfl
    | some c => simp [hck c h, Named.Out.bind]

/-- A type with the extractor and constructor of the identity, so to speak: its values are those of dgo, packed -/
def Ex.W : Named.World where
  defs := fun _ => ⟨Ex.point, some fun | .data (.map [(_, .int i)]) => .ok (.host i.toNat) | _ => .panic,
    some fun | .host n => .ok (.data (.map [(.str [120], .int (BitVec.ofNat 64 n))])) | _ => .panic, none, none, none⟩
  typeOf := fun x => .nt (.exact (.named 0) (.host x))
  equals := fun | x, .host y => x == y | _, _ => false
  hash := fun _ => 0

example : ∃ text nv, valueStringOf asciiEnv Ex.W 0 (.host 3) = some text ∧ parseNamed Ex.penv (fun _ => some 0) text = .ok nv ∧
    nv.value Ex.W = some (.ok (.host 3)) :=
  C79_value_partial asciiEnv_ctrl Ex.W (fun _ => some 0) 0 rfl Ex.word.1 Ex.word.2 (.host 3) (.host 3) Ex.arg _ rfl rfl (Ex.argOk _) _ rfl rfl
    fun c h => by cases h

/-- **C79**, the words of the language are never read as the name of a type, whatever is registered under them. -/
theorem C79_words (E : PEnv) (known : Str → Option Nat) (fuel : Nat) (name : Str) (hw : name ∈ words) (ts : List Token) (v : NV) :
    parseName E known fuel ⟨name, tIdentifier⟩ ts ≠ .ok v := by
  have hbc : builtin.contains name = true := by rw [builtin_words]; simpa using hw
  unfold parseName
  rw [if_neg (fun h => by rw [hbc] at h; cases h.2.2)]
  exact fun h => by cases h

/-- `int`, if there is a named type `int` -/
example : parseName Ex.penv (fun _ => some 0) 3 ⟨[105, 110, 116], tIdentifier⟩ [⟨[], tEnd⟩] ≠ .ok (.type 0) :=
  C79_words _ _ _ _ (by decide) _ _

/-- Does the parser report a syntax error? -/
def isSyntax {α : Type} : Except PErr α → Bool
  | .error (.syntax _) => true
  | _ => false

/-- **C79** does not hold: an empty array is written like an empty map and read as such, whatever the name.  The text of a type with
parameters is not read at all, and neither is the text of a value of a type whose name is a word of the language. -/
theorem C79_violated :
    (∀ (S : SEnv) (E : PEnv) known name p, (∀ c < 32, S.isPrint c = false) → known name = some p → Word name → name ∉ words →
      parseNamed E known (valueString S name (some (.arr []))) = .ok (.new p (.val (.map [])))) ∧
    namedTypeText asciiEnv Ex.point [.int 0, .int 9] = w ['p', 'o', 'i', 'n', 't', '[', '0', ',', '9', ']'] ∧
    isSyntax (parseNamed Ex.penv (fun _ => some 0) (namedTypeText asciiEnv Ex.point [.int 0, .int 9])) = true ∧
    isSyntax (parse Ex.penv (valueString asciiEnv wInt (some (.int 5)))) = true := by
  refine ⟨?_, by decide +kernel, ?_, ?_⟩
  · intro S E known name p hp hk hw hb
    have h := (C79_partial (E := E) hp known name p hk hw hb).1 (.map []) (Or.inr (by simp [RtVal, RtEntries]))
    rw [← h]
    rfl
  · decide +kernel
  · decide +kernel

end Verif.Text
