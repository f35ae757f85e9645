import Verif.Text.DocsProps
/-!
# The expressions of the README (C124)

The expressions in the section "Dgo types versus Go's native types" that the tables of docs/types.md don't have.
-/
set_option autoImplicit false
set_option linter.unusedSimpArgs false
namespace Verif.Text
open Verif.Value (Str Val F64)
open Verif.Types

variable (ofInt : BitVec 64 → F64) (lower : Str → Str)

/-- **C124**: the README's expressions mean what it says about them: a range of integers, a string with a pattern, a slice of integers and floats, an enumeration
of strings, an enumeration of integers. -/
theorem C124_readme :
    Means (docs ofInt lower) "0..15" (fun _ => AnInt fun i => 0 ≤ i ∧ i ≤ 15) ∧
    Means (docs ofInt lower) "/^[a-z]+$/" (fun E => AStr fun s => E.rx (src "^[a-z]+$") s = true) ∧
    Means (docs ofInt lower) "[](int|float)" (fun _ => AnArr (fun _ => True) fun v => AnInt (fun _ => True) v ∨ AFloat (fun _ => True) v) ∧
    Means (docs ofInt lower) "\"red\"|\"green\"|\"blue\"" (fun _ v => v = .str (src "red") ∨ v = .str (src "green") ∨ v = .str (src "blue")) ∧
    Means (docs ofInt lower) "2|8|10|16" (fun _ => AnInt fun i => i = 2 ∨ i = 8 ∨ i = 10 ∨ i = 16) := by
  refine ⟨?_, ?_, ?_, ?_, ?_⟩
  · means .intRange 0 15 true
    intro E v hv hf
    exact range_iff
  · means .pattern (src "^[a-z]+$")
    intro E v hv hf
    exact pattern_iff
  · means .sizedArr O (.anyOf (.user 1) [.intT, .floatT]) 0 maxInt
    intro E v hv hf
    exact arr_iff hf (fun k hk => by simp [hk]) fun x _ => or_iff.trans (or_congr int_iff float_iff)
  · means .anyOf O [.exact (.str (src "red")), .exact (.str (src "green")), .exact (.str (src "blue"))]
    intro E v hv hf
    simp only [has_anyOf_eq, List.any_cons, List.any_nil, Bool.or_eq_true, exactStr_iff, Bool.false_eq_true, or_false]
  · means .anyOf O [.exact (.int 2), .exact (.int 8), .exact (.int 10), .exact (.int 16)]
    intro E v hv hf
    simp only [has_anyOf_eq, List.any_cons, List.any_nil, Bool.or_eq_true, exactInt_iff, Bool.false_eq_true, or_false]
    have key : ∀ (i j : BitVec 64), i = j ↔ i.toInt = j.toInt := fun i j => BitVec.toInt_inj.symm
    cases v with
    | int i =>
      simp only [AnInt, Val.int.injEq, exists_eq_left']
      simp only [key]; exact Iff.rfl
    | _ => simp [AnInt]

/-- An array of an integer and a float is an instance of what `[](int|float)` is read as. -/
example : ∃ u, parseType (docs ofInt lower) (src "[](int|float)") = .ok u ∧ ∀ (E : Types.Env) (t : Ty), strip t = u → t.Acyc →
    instanceOf E t (.arr [.int 1, .float 0x3FF0000000000000]) = true ∧ instanceOf E t (.arr [.int 1, .str []]) = false := by
  obtain ⟨u, h1, _, h2⟩ := (C124_readme ofInt lower).2.2.1
  refine ⟨u, h1, fun E t hs ha => ⟨(h2 E t hs ha _ (by simp [Value.WF, Value.WFs]; decide) (by simp [Fits, FitsAll, maxInt, len])).2 ⟨_, rfl, trivial, ?_⟩, ?_⟩⟩
  · simp [AnInt, AFloat]
  · rw [← Bool.not_eq_true, h2 E t hs ha _ (by simp [Value.WF, Value.WFs]) (by simp [Fits, FitsAll, maxInt, len])]
    simp [AnArr, AnInt, AFloat]

end Verif.Text
