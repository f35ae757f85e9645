import Verif.Text.ParserTotal
/-!
# C54: parsing terminates
-/
set_option autoImplicit false
namespace Verif.Text
open Verif.Value (Str Val F64)
open Verif.Types (Ty Oid maxInt)

/-- **C54.**  Parsing any text, well formed or not, terminates with a value, a type or an error: the nesting of the calls of the
parser and the number of rounds of each of its loops are bounded by the number of tokens (the fuel is never used up), and the
number of tokens by the number of characters (`C39_total`). -/
theorem C54_total (E : PEnv) (text : Str) : (∃ v, parse E text = .ok v) ∨ ∃ e, parse E text = .error e ∧ e ≠ .fuel := by
  unfold parse
  cases tokens (runes text) with
  | error e => exact Or.inr ⟨_, rfl, by intro h; cases h⟩
  | ok ts =>
    dsimp only
    cases h : parseTokens E ts with
    | ok v => exact Or.inl ⟨v, rfl⟩
    | error e => exact Or.inr ⟨e, rfl, by rintro rfl; exact parseTokens_total E ts h⟩

/-- The value of a token list that is not a program: `{{{` without the rest -/
example (E : PEnv) : ∃ e, parse E [123, 123, 123] = .error e ∧ e ≠ .fuel := by
  rcases C54_total E [123, 123, 123] with ⟨v, h⟩ | h
  · exfalso
    unfold parse at h
    have ht : tokens (runes [123, 123, 123]) = .ok [⟨[], 123⟩, ⟨[], 123⟩, ⟨[], 123⟩, ⟨[], tEnd⟩] := by
      simp only [runes_cons, runes_nil]
      rw [tokens_cons (t := ⟨[], 123⟩) rfl (by decide), tokens_cons (t := ⟨[], 123⟩) rfl (by decide),
        tokens_cons (t := ⟨[], 123⟩) rfl (by decide), tokens_end (t := ⟨[], tEnd⟩) (i' := []) rfl rfl]
      rfl
    rw [ht] at h; dsimp only at h
    have : parseTokens E [⟨[], 123⟩, ⟨[], 123⟩, ⟨[], 123⟩, ⟨[], tEnd⟩] = .error (.syntax ⟨[], tEnd⟩) := rfl
    rw [this] at h
    cases h
  · exact h

end Verif.Text
