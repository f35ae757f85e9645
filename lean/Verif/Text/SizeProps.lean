import Verif.Text.Reader
import Verif.Types.Props
/-!
# C30: what the sizes of strings count

docs/types.md says that `string[10,12]` is a string "with a required length between 10 and 12 characters"; `Instance` counts bytes (internal/string.go:501-504).
-/
set_option autoImplicit false
namespace Verif.Text
open Verif.Value (Str Val)
open Verif.Types

/-- Texts of ASCII characters: the sizes count characters. -/
theorem C30_characters_partial (E : Env) (min max : Int) (cs : List Nat) (ha : ∀ c ∈ cs, c < 128) (hf : (cs.length : Int) ≤ maxInt) :
    instanceOf E (sizedStringType min max) (.str (textOf cs)) = true ↔ InSize min max cs.length := by
  have hl : (textOf cs).length = cs.length := by
    clear hf
    induction cs with
    | nil => rfl
    | cons c cs ih =>
      have hc := ha c (by simp)
      have ih := ih fun c hc => ha c (by simp [hc])
      have : (encode c).length = 1 := by simp [encode, hc]
      simp only [textOf, List.flatMap_cons, List.length_append, List.length_cons] at ih ⊢
      omega
  have hv : Fits (.str (textOf cs)) := by simp only [Fits, len, hl]; exact hf
  rw [C30_string min max hv]
  simp [len, hl]

example (E : Env) : instanceOf E (sizedStringType 2 3) (.str (textOf [97, 98])) = true :=
  (C30_characters_partial E 2 3 [97, 98] (by simp) (by simp [maxInt])).2 (by simp [InSize])

/-- "é" is one character, and no instance of `string[1,1]`; it is one of `string[2,2]`. -/
theorem C30_characters_violated (E : Env) : (textOf [0xE9]) = [0xC3, 0xA9] ∧ instanceOf E (sizedStringType 1 1) (.str (textOf [0xE9])) = false ∧
    instanceOf E (sizedStringType 2 2) (.str (textOf [0xE9])) = true := ⟨rfl, rfl, rfl⟩

end Verif.Text
