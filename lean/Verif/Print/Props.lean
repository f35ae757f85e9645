import Verif.Print.Lemmas
/-!
# C49, C52, C56: printing
-/
set_option autoImplicit false
set_option linter.unusedVariables false
namespace Verif.Print
open Verif.Value (Str)
open Verif.Text (encode Scalar)

/-! ## The indenter -/

/-- **C52** What `String` returns: the text that was appended, without the blanks at the ends of its lines.  (A byte that is not part of
a well formed character comes out as U+FFFD, see `chars`.) -/
theorem C52_text (d : Ind) (i : Nat) (hi : i < d.levels.length) :
    (d.call i .string).2 = some ((trimLines (chars d.buf)).flatMap encode) := by
  simp only [Ind.call, List.getElem?_eq_getElem hi, stringLoop_trim]
example : (({ unit := [], buf := [97, 32, 10, 98, 9, 32], levels := [0] } : Ind).call 0 .string).2 = some [97, 10, 98] := by
  decide +kernel

/-- **C52** No line of the text ends with a blank, whatever was appended. -/
theorem C52_no_blanks (d : Ind) (i : Nat) (s : Str) (h : (d.call i .string).2 = some s) :
    ∀ l ∈ lines (chars s), ∀ c, l.getLast? = some c → c ≠ 32 ∧ c ≠ 9 := by
  by_cases hi : i < d.levels.length
  · rw [C52_text d i hi] at h
    injection h with h
    subst h
    rw [chars_text (trimLines_scalar (chars_scalar d.buf)), lines_trimLines]
    intro l hl c hc
    obtain ⟨m, hm, rfl⟩ := List.mem_map.mp hl
    have := trimEnd_last hc
    simpa [blank] using this
  · simp only [Ind.call, List.getElem?_eq_none (Nat.le_of_not_lt hi)] at h
    cases h
example : (({ unit := [], buf := [97, 32, 10, 98, 9, 32], levels := [0] } : Ind).call 0 .string).2 = some [97, 10, 98] ∧
    lines (chars [97, 10, 98]) = [[97], [98]] := by decide +kernel

/-- **C52** (partial) If the text is well formed and no line of it ends with a blank then it is returned as it is.  Without that
condition it need not be, see `C52_violated`. -/
theorem C52_concat_partial (d : Ind) (i : Nat) (hi : i < d.levels.length) (cs : List Nat) (hc : ∀ c ∈ cs, Scalar c)
    (hb : d.buf = cs.flatMap encode) (hl : ∀ l ∈ lines cs, ∀ c, l.getLast? = some c → c ≠ 32 ∧ c ≠ 9) :
    (d.call i .string).2 = some d.buf := by
  rw [C52_text d i hi, hb, chars_text hc, trimLines_self]
  intro l hl' c hc'
  have := hl l hl' c hc'
  simp [blank, this.1, this.2]
example : (∀ c ∈ [233, 32, 10, 10, 98], Scalar c) := by decide
example : ∀ l ∈ lines [233, 32, 120, 10, 10, 98], ∀ c, l.getLast? = some c → c ≠ 32 ∧ c ≠ 9 := by
  have : lines [233, 32, 120, 10, 10, 98] = [[233, 32, 120], [], [98]] := rfl
  simp [this]

/-- A line break and the indentation of a level; nothing if there is no indentation -/
def freshLine (unit : Str) (level : Nat) : Str :=
  match unit with
  | [] => []
  | b :: bs => 10 :: (List.replicate level (b :: bs)).flatten

theorem newLineText_fresh (unit : Str) (level : Nat) : newLineText unit level = freshLine unit level := by
  cases unit <;> simp [newLineText, freshLine]

/-- What a call appends, at the level of the indenter that is called -/
def written (unit : Str) (level : Nat) : Call → Str
  | .append s => s
  | .appendRune r => encode r
  | .appendIndented s => (freshLine unit level).intercalate (splitLines s)
  | .newLine => freshLine unit level
  | _ => []

/-- The levels of the indenters and what has been appended, when neither `String` nor `Reset` is called -/
def writtenAll (unit : Str) : List Nat → List (Nat × Call) → Str
  | _, [] => []
  | levels, (i, c) :: cs =>
    match levels[i]? with
    | none => writtenAll unit levels cs
    | some level => written unit level c ++ writtenAll unit (if c = .indent then levels ++ [level + 1] else levels) cs

/-- **C52** The buffer is the concatenation of what was appended, in the order of the calls, whichever of the indenters that share it
was called: `Append` and `AppendRune` append what they are given, `NewLine` a line break and the indentation of its level (nothing if
there is no indentation), and `AppendIndented` its argument with such a new line for each line break. -/
theorem C52_order (cs : List (Nat × Call)) : ∀ (d : Ind), (∀ x ∈ cs, x.2 ≠ .string ∧ x.2 ≠ .reset) →
    (d.calls cs).1.buf = d.buf ++ writtenAll d.unit d.levels cs ∧ (d.calls cs).2 = [] := by
  induction cs with
  | nil => intro d _; simp [Ind.calls, writtenAll]
  | cons x cs ih =>
    intro d h
    obtain ⟨i, c⟩ := x
    have hx := h (i, c) (by simp)
    have ih' := fun d => ih d fun x hx => h x (by simp [hx])
    rw [Ind.calls, writtenAll]
    cases hl : d.levels[i]? with
    | none =>
      have : d.call i c = (d, none) := by simp [Ind.call, hl]
      rw [this]
      simpa using ih' d
    | some level =>
      cases c with
      | string => exact absurd rfl hx.1
      | reset => exact absurd rfl hx.2
      | append s =>
        have : d.call i (.append s) = ({ d with buf := d.buf ++ s }, none) := by simp [Ind.call, hl]
        rw [this]; simpa [written] using ih' { d with buf := d.buf ++ s }
      | appendRune r =>
        have : d.call i (.appendRune r) = ({ d with buf := d.buf ++ encode r }, none) := by simp [Ind.call, hl]
        rw [this]; simpa [written] using ih' { d with buf := d.buf ++ encode r }
      | appendIndented s =>
        have : d.call i (.appendIndented s) = ({ d with buf := d.buf ++ indentedText (newLineText d.unit level) s }, none) := by
          simp [Ind.call, hl]
        rw [this]; simpa [written, indentedText_eq, newLineText_fresh] using ih' { d with buf := d.buf ++ indentedText (newLineText d.unit level) s }
      | indent =>
        have : d.call i .indent = ({ d with levels := d.levels ++ [level + 1] }, none) := by simp [Ind.call, hl]
        rw [this]; simpa [written] using ih' { d with levels := d.levels ++ [level + 1] }
      | newLine =>
        have : d.call i .newLine = ({ d with buf := d.buf ++ newLineText d.unit level }, none) := by simp [Ind.call, hl]
        rw [this]; simpa [written, newLineText_fresh] using ih' { d with buf := d.buf ++ newLineText d.unit level }
/-- `{`, a new line within, `a`, a new line outside, `}` -/
example : ((Ind.new [32, 32]).calls [(0, .append [123]), (0, .indent), (1, .newLine), (1, .append [97]), (0, .newLine),
    (0, .append [125])]).1.buf = [123, 10, 32, 32, 97, 10, 125] := by decide

/-- What the calls of `String` return: the text that was appended since the call of `String` or `Reset` before it, without the blanks at the
ends of its lines -/
def texts (unit : Str) : List Nat → Str → List (Nat × Call) → List Str
  | _, _, [] => []
  | levels, acc, (i, c) :: cs =>
    match levels[i]? with
    | none => texts unit levels acc cs
    | some level =>
      match c with
      | .string => (trimLines (chars acc)).flatMap encode :: texts unit levels [] cs
      | .reset => texts unit levels [] cs
      | .indent => texts unit (levels ++ [level + 1]) acc cs
      | c => texts unit levels (acc ++ written unit level c) cs

/-- **C52** All that the calls of `String` return, for any sequence of calls on any of the indenters that share the buffer. -/
theorem C52_texts (cs : List (Nat × Call)) : ∀ (d : Ind), (d.calls cs).2 = texts d.unit d.levels d.buf cs := by
  induction cs with
  | nil => intro d; simp [Ind.calls, texts]
  | cons x cs ih =>
    intro d
    obtain ⟨i, c⟩ := x
    rw [Ind.calls, texts]
    cases hl : d.levels[i]? with
    | none => simp [Ind.call, hl, ih]
    | some level =>
      cases c <;> simp [Ind.call, hl, ih, written, indentedText_eq, newLineText_fresh, stringLoop_trim]
/-- `a`, `Reset`, `b `, `String`, `c`, `String` -/
example : ((Ind.new []).calls [(0, .append [97]), (0, .reset), (0, .append [98, 32]), (0, .string), (0, .append [99]), (0, .string)]).2 =
    [[98], [99]] := by decide +kernel

/-- **C52** is violated: `String` empties the buffer, so that a second call returns the empty text; and without indentation too, blanks
at the end of a line are removed. -/
theorem C52_violated :
    (∃ (d : Ind) (s : Str), (d.calls [(0, .string), (0, .string)]).2 = [s, []] ∧ s ≠ []) ∧
    (∃ d : Ind, d.unit = [] ∧ d.buf = [97, 32] ∧ (d.call 0 .string).2 = some [97]) :=
  ⟨⟨⟨[], [97], [0]⟩, [97], by decide +kernel, by decide⟩, ⟨⟨[], [97, 32], [0]⟩, rfl, rfl, by decide +kernel⟩⟩

/-! ## Sensitive values -/

/-- **C49** The text of a value, indented or not, does not depend on what sensitive values wrap: if two heaps agree on the objects that can
be reached without looking into sensitive values, then the text is the same with both.  What is reachable through sensitive values only may
differ in any way. -/
theorem C49_redacted (isPrint : Nat → Bool) (unit : Str) {P : Nat → Prop} {h h' : Heap} (ha : AgreeBut P h h') (fuel p : Nat)
    (hp : P p) : toStringERP isPrint unit h fuel p = toStringERP isPrint unit h' fuel p := by
  unfold toStringERP pieces
  rcases ha p hp with ⟨v, v', h1, h2⟩ | ⟨o, h1, h2, hq⟩
  · rw [h1, h2]; rfl
  · rw [h1, h2]
    dsimp only
    rw [appendTo_congr 0 fun l r hr => appendValue_agree ha fuel (firstSeen p o) l r fun q e => hq q (e ▸ hr)]

/-- An array with a sensitive value, which wraps the string "x" or an array. -/
example : AgreeBut (· < 2) [.arr [.obj 1, .atom .nil], .sens (.atom (.str [120]))]
    [.arr [.obj 1, .atom .nil], .sens (.obj 2), .arr [.obj 0]] := by
  intro p hp
  match p, hp with
  | 0, _ => exact .inr ⟨_, rfl, rfl, by intro q hq; simp [Obj.refs] at hq; subst hq; decide⟩
  | 1, _ => exact .inl ⟨_, _, rfl, rfl⟩
  | p + 2, hp => exact absurd hp (by omega)
example : toStringERP (fun _ => true) [] [.arr [.obj 1, .atom .nil], .sens (.atom (.str [120]))] 3 0 =
    some (txt "{sensitive [value redacted],nil}") := by decide +kernel

/-! ## Values that contain themselves -/

/-- **C56** Printing a value ends, also when it contains itself: recursion is not deeper than there are objects. -/
theorem C56_ends (isPrint : Nat → Bool) (unit : Str) {h : Heap} (hw : WF h) (p : Nat) (hp : p < h.length) (fuel : Nat)
    (hf : h.length + 1 ≤ fuel) : (toStringERP isPrint unit h fuel p).isSome = true := by
  have ho : h[p]? = some h[p] := List.getElem?_eq_getElem hp
  unfold toStringERP pieces
  rw [ho, Option.isSome_map]
  refine appendTo_isSome 0 fun l r hr => appendValue_isSome hw _ _ _ _ (fun q e => hw p _ ho q (e ▸ hr)) ?_ ?_ ?_
  · unfold firstSeen; split <;> simp
  · unfold firstSeen; split <;> simp [hp]
  · omega

/-- A map that contains itself, and the text of it -/
def loopMap : Heap := [.map [1, 2], .entry true (.atom (.str [97])) (.atom (.other [49])), .entry true (.atom (.str [98])) (.obj 0)]
example : WF loopMap := by
  intro p o ho q hq
  match p, ho with
  | 0, ho => injection ho with ho; subst ho; simp [Obj.refs] at hq; rcases hq with rfl | rfl <;> decide
  | 1, ho => injection ho with ho; subst ho; simp [Obj.refs] at hq
  | 2, ho => injection ho with ho; subst ho; simp [Obj.refs] at hq; subst hq; decide
  | p + 3, ho => simp [loopMap] at ho
example : toStringERP (fun _ => true) [] loopMap 4 0 = some (txt "{\"a\":1,\"b\":<recursive self reference to map>}") := by
  decide +kernel

/-- **C56** More depth than needed makes no difference. -/
theorem C56_fuel (isPrint : Nat → Bool) (unit : Str) (h : Heap) (p : Nat) (s : Str) (fuel more : Nat)
    (hs : toStringERP isPrint unit h fuel p = some s) : toStringERP isPrint unit h (fuel + more) p = some s := by
  induction more with
  | zero => exact hs
  | succ m ih =>
    unfold toStringERP pieces at ih ⊢
    cases ho : h[p]? with
    | none => rw [ho] at ih; cases ih
    | some o =>
      rw [ho] at ih
      simp only [Option.map_eq_some_iff] at ih ⊢
      obtain ⟨ps, h1, h2⟩ := ih
      exact ⟨ps, appendTo_mono (fun l r _ ps h => appendValue_mono _ _ _ _ _ h) h1, h2⟩
example : toStringERP (fun _ => true) [] loopMap 4 0 = some (txt "{\"a\":1,\"b\":<recursive self reference to map>}") := by
  decide +kernel

/-- **C56** A value that does not contain itself is printed in full, however often parts of it are shared: the text is what printing
without looking for recursion gives. -/
theorem C56_shared (isPrint : Nat → Bool) (unit : Str) {h : Heap} {rank : Nat → Nat} (ha : Acyclic h rank) (fuel p : Nat) :
    toStringERP isPrint unit h (fuel) p =
      (plainValue isPrint (unit.length > 0) h (fuel + 1) 0 (.obj p)).map fun ps =>
        (trimLines (chars (ps.flatMap (Piece.render unit)))).flatMap encode := by
  unfold toStringERP pieces
  rw [plainValue]
  cases ho : h[p]? with
  | none => rfl
  | some o =>
    dsimp only
    simp only [stringLoop_trim]
    congr 1
    refine appendTo_congr 0 fun l r hr => appendValue_plain ha _ _ _ _ ?_
    intro q e x hx
    have : x = p := by unfold firstSeen at hx; split at hx <;> simp_all
    subst this
    exact ha _ o ho q (e ▸ hr)

/-- The same array twice in an array -/
example : Acyclic [.arr [.obj 1, .obj 1], .arr []] (fun p => 1 - p) := by
  intro p o ho q hq
  match p, ho with
  | 0, ho => injection ho with ho; subst ho; simp [Obj.refs] at hq; subst hq; decide
  | 1, ho => injection ho with ho; subst ho; simp [Obj.refs] at hq
  | p + 2, ho => simp at ho
example : toStringERP (fun _ => true) [32, 32] [.arr [.obj 1, .obj 1], .arr [.atom .nil]] 3 0 =
    some (txt "{\n  {\n    nil\n  },\n  {\n    nil\n  }\n}") := by decide +kernel

/-- **C56** An object that is being printed is not printed again: the marker is printed instead. -/
theorem C56_marker (isPrint : Nat → Bool) (ind : Bool) (h : Heap) (n : Nat) (seen : List Nat) (level p : Nat) (o : Obj)
    (ho : h[p]? = some o) (hs : ∀ v, o ≠ .sens v) (hp : p ∈ seen) :
    appendValue isPrint ind h (n + 1) seen level (.obj p) =
      some [.text (txt "<recursive self reference to " ++ kindName o ++ txt ">")] := by
  rw [appendValue_obj ho hs, if_pos (by simpa using hp)]
  rfl
example : loopMap[0]? = some (.map [1, 2]) ∧ 0 ∈ [0, 2] := by decide

/-- **C56** Where printing begins, the value is one that is being printed already (unless it is the entry of a map, see
`C56_entry_violated`): a value met inside itself is a marker. -/
theorem C56_begins_partial (isPrint : Nat → Bool) (ind : Bool) (h : Heap) (fuel p : Nat) (o : Obj) (ho : h[p]? = some o)
    (he : ∀ k v, o ≠ .entry true k v) :
    pieces isPrint ind h fuel p = appendTo ind (appendValue isPrint ind h fuel [p]) 0 o := by
  unfold pieces
  rw [ho]
  dsimp only
  congr 2
  unfold firstSeen
  split
  · exact absurd rfl (he _ _)
  · rfl
example : pieces (fun _ => true) false loopMap 4 0 = appendTo false (appendValue (fun _ => true) false loopMap 4 [0]) 0 (.map [1, 2]) :=
  C56_begins_partial _ _ loopMap 4 0 _ rfl (by simp)

/-- **C56** The entry of a map that contains the map: the entry is met inside itself and printed once more. -/
theorem C56_entry_violated :
    toStringERP (fun _ => true) [] loopMap 4 2 = some (txt "\"b\":{\"a\":1,\"b\":<recursive self reference to map>}") := by
  decide +kernel

end Verif.Print
