import Verif.Text.Layout
import Verif.Text.RoundProps
/-!
# Layout (C125)
-/
set_option autoImplicit false
set_option linter.unusedVariables false
namespace Verif.Text
open Verif.Value (Str Val)
open Verif.Types (Ty)

/-- **C125**: texts with the same tokens are read as the same, or refused alike, whatever the blanks, tabs and line ends between the tokens are and
whichever way of writing a token is chosen. -/
theorem C125_layout {a b : Str} (h : Relaid (runes a) (runes b)) (P : PEnv) : parse P a = parse P b ∧ parseType P a = parseType P b := by
  have : parse P a = parse P b := by unfold parse; rw [h.tokens]
  exact ⟨this, by unfold parseType; rw [this]⟩

/-- **C125**: a blank, a tab, a line end or the end of the text may follow every token: it ends the token where it ended before. -/
theorem C125_after {t : Token} {src : List Nat} {i j : In} (h : Lexeme t src i) (ht : t.type ≠ tEnd)
    (hj : ∀ c ∈ j.head?, ∃ n, c = some n ∧ Blank n) : Lexeme t src j := lexeme_after h ht hj

/-- **C125**: a text that is read can be written with any blanks, tabs and line ends between its tokens, before them and after them: each text has
tokens, parts of the text that are tokens of the grammar (`Lexeme`) with nothing but blanks between them, and all texts made of the same parts with other blanks between them (at least
one between two parts) are read as the same. -/
theorem C125_spread {P : PEnv} {cs : List Nat} {v : PV} (hc : ∀ c ∈ cs, Readable c) (h0 : 0 ∉ cs) (h : parse P (textOf cs) = .ok v) :
    ∃ parts last, cs = spread parts last ∧ (∀ p ∈ parts, Blanks p.1 ∧ ∃ t i, Lexeme t p.2 i) ∧ Blanks last ∧
      ∀ parts' last', parts'.map (·.2) = parts.map (·.2) → (∀ p ∈ parts', Blanks p.1) → Blanks last' → (∀ p ∈ parts'.tail, p.1 ≠ []) →
        parse P (textOf (spread parts' last')) = .ok v := by
  unfold parse at h
  rw [runes_text hc] at h
  cases ht : tokens (cs.map some) with
  | error e => rw [ht] at h; cases h
  | ok ts =>
    rw [ht] at h
    obtain ⟨parts, last, rfl, h1, h2, h3⟩ := cut _ cs ts (Nat.le_refl _) h0 ht
    refine ⟨parts, last, rfl, h1, h2, fun parts' last' hm hb hl hne => ?_⟩
    have hr : ∀ c ∈ spread parts' last', Readable c := by
      have hbl : ∀ c, Blank c → Readable c := by
        intro c hc
        rcases hc with rfl | rfl | rfl <;> decide
      intro c hc'
      rcases List.mem_append.1 hc' with hc' | hc'
      · obtain ⟨p, hp, hc'⟩ := List.mem_flatMap.1 hc'
        rcases List.mem_append.1 hc' with hc' | hc'
        · exact hbl c (hb p hp c hc')
        · have : p.2 ∈ parts.map (·.2) := by rw [← hm]; exact List.mem_map.2 ⟨p, hp, rfl⟩
          obtain ⟨q, hq, he⟩ := List.mem_map.1 this
          exact hc c (List.mem_append_left _ (List.mem_flatMap.2 ⟨q, hq, List.mem_append_right _ (by rw [he]; exact hc')⟩))
      · exact hbl c (hl c hc')
    unfold parse
    rw [runes_text hr, h3 parts' last' hm hb hl hne]
    exact h

/-- `int|1`, and the same on three lines with a sign before the 1 -/
example : Relaid (runes (textOf [105, 110, 116, 124, 49])) (runes (textOf [10, 105, 110, 116, 32, 124, 10, 9, 43, 49, 10])) := by
  rw [runes_text (by decide), runes_text (by decide)]
  refine .token (t := ⟨textOf [105, 110, 116], tIdentifier⟩) (b := []) (b' := [10]) (src := [105, 110, 116]) (src' := [105, 110, 116])
    (i := [some 124, some 49]) (i' := [some 32, some 124, some 10, some 9, some 43, some 49, some 10]) (by simp [Blanks]) (by simp [Blanks, Blank])
    (.identifier (by decide) (by decide) (.inr ⟨_, _, rfl, by decide⟩)) (.identifier (by decide) (by decide) (.inr ⟨_, _, rfl, by decide⟩)) ?_
  refine .token (t := ⟨[], 124⟩) (b := []) (b' := [32]) (src := [124]) (src' := [124]) (i := [some 49]) (i' := [some 10, some 9, some 43, some 49, some 10])
    (by simp [Blanks]) (by simp [Blanks, Blank]) (.char (by decide) (by decide)) (.char (by decide) (by decide)) ?_
  refine .token (t := ⟨textOf [49], tInteger⟩) (b := []) (b' := [10, 9]) (src := [49]) (src' := [43, 49]) (i := []) (i' := [some 10])
    (by simp [Blanks]) (by simp [Blanks, Blank]) (.number (.integer ⟨by simp, by decide⟩) (.inl rfl))
    (.plus (.integer ⟨by simp, by decide⟩) (.inr ⟨_, _, rfl, by decide, by decide, by decide, by decide, by decide, fun h => by cases h⟩)) ?_
  exact .last (b := []) (b' := [10]) (by simp [Blanks]) (by simp [Blanks, Blank])

/-- **C125**: however the text of a type is laid out, it is read as that type.

Partial: for the types of `RtTy`, as `C35_partial`. -/
theorem C125_printed_partial {S : SEnv} {P : PEnv} (hp : ∀ c < 32, S.isPrint c = false) {t : Ty} (h : RtTy S P t) {b : Str}
    (hr : Relaid (runes (typeString S t)) (runes b)) : parseType P b = .ok (strip t) := by
  rw [← (C125_layout hr P).2]
  exact C35_partial hp h

/-- **C125 is violated** by line ends as Windows has them: `[]` and `int` are read as one type if a line feed is between them, and refused if a
carriage return and a line feed are. -/
theorem C125_return_violated (P : PEnv) : (∃ t, parseType P [91, 93, 10, 105, 110, 116] = .ok t) ∧
    ∃ e, parseType P [91, 93, 13, 10, 105, 110, 116] = .error e :=
  ⟨⟨_, by with_unfolding_all rfl⟩, ⟨_, by with_unfolding_all rfl⟩⟩

end Verif.Text
