import Verif.Text.AliasPrinter
import Verif.Text.Relex
/-!
# When an alias map gives names that can be read back
-/
set_option autoImplicit false
namespace Verif.Text
open Verif.Value (Str Val)
open Verif.Types (Ty maxInt)

/-- What the parser needs to know: a name of a type is an identifier that is no word of the language, the parser finds the type (up to which object it
is) under it, and the types of values have no names. -/
def NamesOk (N : Names) (E : PEnv) : Prop :=
  ∀ t n, N t = some n → Word n ∧ n ∉ wordsOfTypes ∧ E.alias_ n = some (strip t) ∧ t.isExact = false

mutual
/-- The types that are read back when they are printed with the names of `N`: a type with a name, whatever it is, or a type of `RtTy` (Text/Domain.lean,
the same arms) with parts that are read back. -/
def RtN (N : Names) (S : SEnv) (E : PEnv) : Ty → Prop
  | .sizedArr o e min max => N (.sizedArr o e min max) ≠ none ∨ (RtN N S E e ∧ (plain e = true ∨ ∃ s, N e = some s) ∧ SizesOk min max ∧
      ¬ (min = 0 ∧ max = maxInt ∧ e.isAny = true) ∧ ¬ (min = 1 ∧ max = 1 ∧ e.isExact = true))
  | .tuple o ts variadic => N (.tuple o ts variadic) ≠ none ∨ (RtNs N S E ts ∧ ts ≠ [] ∧
      if variadic then ∀ t ∈ ts.dropLast, startsOpen t = false
      else (∀ t ∈ ts, startsOpen t = false) ∧ ¬ ts.all Ty.isExact = true)
  | .sizedMap o k v min max => N (.sizedMap o k v min max) ≠ none ∨ (RtN N S E k ∧ RtN N S E v ∧ (plain v = true ∨ ∃ s, N v = some s) ∧
      SizesOk min max ∧ ¬ (min = 0 ∧ max = maxInt ∧ k.isAny = true ∧ v.isAny = true))
  | .struct o additional fs => N (.struct o additional fs) ≠ none ∨
      (RtNF N S E fs ∧ (additional = false → ¬ fs.all (fun f => f.2.1 && f.2.2.isExact) = true))
  | .allOf o ts => N (.allOf o ts) ≠ none ∨ (RtNs N S E ts ∧ 2 ≤ ts.length)
  | .anyOf o ts => N (.anyOf o ts) ≠ none ∨ (RtNs N S E ts ∧ 2 ≤ ts.length)
  | .oneOf o ts => N (.oneOf o ts) ≠ none ∨ (RtNs N S E ts ∧ 2 ≤ ts.length)
  | .not t => N (.not t) ≠ none ∨ (RtN N S E t ∧ ∀ u, t ≠ .not u)
  | .sens o t => N (.sens o t) ≠ none ∨ (RtN N S E t ∧ t ≠ .nilT ∧ ∀ v, t ≠ .exact v)
  | .metaT t => N (.metaT t) ≠ none ∨ RtN N S E t
  | t => N t ≠ none ∨ RtTy S E t
def RtNs (N : Names) (S : SEnv) (E : PEnv) : List Ty → Prop
  | [] => True
  | t :: ts => RtN N S E t ∧ RtNs N S E ts
def RtNF (N : Names) (S : SEnv) (E : PEnv) : List (Val × Bool × Ty) → Prop
  | [] => True
  | (k, rq, t) :: fs => (RtVal S E k ∧ keyOk rq k = true ∧ RtN N S E t) ∧ RtNF N S E fs
end

end Verif.Text
