import Verif.Pcore.TokenSpec
/-!
# Names in pcore expressions: specification
-/
set_option autoImplicit false
namespace Verif.Pcore
open Verif.Value (Str)
open Verif.Text

/-- A part of a name: its first character, and those after it -/
abbrev Seg := Nat × List Nat
def Seg.Ok (s : Seg) : Prop := isUpper s.1 = true ∧ ∀ c ∈ s.2, NameChar c
/-- The parts of the name, with `::` between them -/
def pcoreName (segs : List Seg) : List Nat := [58, 58].intercalate (segs.map fun s => s.1 :: s.2)
/-- The parts, beginning with the small letters, with dots between them -/
def dgoName (segs : List Seg) : List Nat := [46].intercalate (segs.map fun s => (s.1 + 32) :: s.2)

/-- The text of a name -/
def IsName (x : Str) : Prop := ∃ segs : List Seg, segs ≠ [] ∧ (∀ s ∈ segs, s.Ok) ∧ x = textOf (pcoreName segs)

end Verif.Pcore
