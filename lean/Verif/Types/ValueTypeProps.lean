import Verif.Types.ValueType
import Verif.Types.Props
/-!
# C123: The type of a value stands for the value
-/
set_option autoImplicit false
namespace Verif.Types
open Verif.Value VT

/-! ### The type accepts the value and no other -/

/-- The type of a value that is not sensitive accepts exactly the values that are equal to it.  The identity `o` is that of the type object. -/
theorem C123_only_partial (E : Env) (o : Oid) (v w : Val) (hs : ∀ u, v ≠ .sens u) : instanceOf E (typeOf o v) w = eq v w := by
  rw [instanceOf_has (typeOf_ok o v).acyc]
  cases v <;> first
    | exact absurd rfl (hs _)
    | (cases w <;> simp [typeOf, has, hasP, eq])

example : instanceOf Ex.E0 (typeOf (.user 0) (.arr [Ex.i 1, Ex.s 2])) (.arr [Ex.i 1, Ex.s 2]) = true ∧
    instanceOf Ex.E0 (typeOf (.user 0) (.arr [Ex.i 1, Ex.s 2])) (.arr [Ex.i 1, Ex.s 3]) = false := by
  constructor
  · rw [C123_only_partial _ _ _ _ (by simp)]; simp [eq, eqSlice, Ex.i, Ex.s]
  · rw [C123_only_partial _ _ _ _ (by simp)]; simp [eq, eqSlice, Ex.i, Ex.s]

/-! ### Where it can be used is where the value can -/

/-- The type of a nil, Boolean, number, string, binary, time or regular expression is assignable to exactly the types that accept the value. -/
theorem C123_scalar (E : Env) (o : Oid) (t : Ty) (v : Val) (hk : Kind t) (ha : t.Acyc) (hv : isScalar v = true ∨ v = .nil) :
    assignable E t (typeOf o v) = instanceOf E t v := assignable_scalar hk ha hv o

/-- The same for a collection in which no array and no map is empty, for types made of sized arrays, sized maps, tuples, structs and alternatives
of types without parts, none of them `float`. -/
theorem C123_collection_partial (E : Env) (n : Nat) (t : Ty) (v : Val) (he : Elem t) (ha : t.Acyc) (hf : Full v) (hn : ∀ x, t.occ x → ¬ Below x (.user n)) :
    assignable E t (typeOf (.user n) v) = instanceOf E t v := assignable_collection he ha hf hn

namespace Ex
/-- `[]int` -/
def ints : Ty := .sizedArr (.user 1) .intT 0 maxInt
/-- `[](int|string)` -/
def intsOrStrings : Ty := .sizedArr (.user 1) (.anyOf (.user 2) [.intT, .strT]) 0 maxInt
/-- `[][2]int` -/
def pairs : Ty := .sizedArr (.user 1) (.sizedArr (.user 2) .intT 2 2) 0 maxInt
end Ex

example : Kind (.allOf (.user 1) [.not (.exact (Ex.i 4)), .oneOf (.user 2) [Ex.r15, .strT]]) ∧
    (Ty.allOf (.user 1) [.not (.exact (Ex.i 4)), .oneOf (.user 2) [Ex.r15, .strT]]).Acyc ∧
    assignable Ex.E0 (.allOf (.user 1) [.not (.exact (Ex.i 4)), .oneOf (.user 2) [Ex.r15, .strT]]) (typeOf (.user 0) (Ex.i 3)) = true ∧
    assignable Ex.E0 (.allOf (.user 1) [.not (.exact (Ex.i 4)), .oneOf (.user 2) [Ex.r15, .strT]]) (typeOf (.user 0) (Ex.i 4)) = false := by
  refine ⟨by simp [Kind, Kinds, Ex.r15, Ex.i, isScalar], by simp [Ty.Acyc, Acycs, occs, Ty.occ, Ex.r15], by decide +kernel, by decide +kernel⟩

example : Elem Ex.intsOrStrings ∧ Elem Ex.pairs ∧ Full (.arr [Ex.i 1, Ex.s 2]) ∧
    assignable Ex.E0 Ex.intsOrStrings (typeOf (.user 0) (.arr [Ex.i 1, Ex.s 2])) = true ∧
    assignable Ex.E0 Ex.ints (typeOf (.user 0) (.arr [Ex.i 1, Ex.s 2])) = false ∧
    assignable Ex.E0 Ex.pairs (typeOf (.user 0) (.arr [.arr [Ex.i 1, Ex.i 2], .arr [Ex.i 3, Ex.i 4]])) = true ∧
    assignable Ex.E0 Ex.pairs (typeOf (.user 0) (.arr [.arr [Ex.i 1, Ex.i 2], .arr [Ex.i 3]])) = false := by
  refine ⟨?_, ?_, by simp [Full, Fulls, Ex.i, Ex.s], by decide +kernel, by decide +kernel, by decide +kernel, by decide +kernel⟩
  · intro t ht
    rcases List.mem_cons.1 ht with rfl | ht
    · exact ⟨⟨rfl, by simp⟩, trivial, by simp⟩
    · rcases List.mem_singleton.1 ht with rfl
      exact ⟨⟨rfl, by simp⟩, trivial, by simp⟩
  · exact ⟨⟨rfl, by simp⟩, trivial, by simp⟩

/-! ### Where it does not -/

/-- The empty array is an instance of `[]int`, and its type is not assignable to it. -/
theorem C123_empty_violated : instanceOf Ex.E0 Ex.ints (.arr []) = true ∧ assignable Ex.E0 Ex.ints (typeOf (.user 0) (.arr [])) = false := by
  decide +kernel

/-- {1.5, 2.5} is an instance of `[]float`, and its type is not assignable to it; that of {1.5} is. -/
theorem C123_floats_violated :
    let floats : Ty := .sizedArr (.user 1) .floatT 0 maxInt
    let x : Val := .float 0x3ff8000000000000
    let y : Val := .float 0x4004000000000000
    instanceOf Ex.E0 floats (.arr [x, y]) = true ∧ assignable Ex.E0 floats (typeOf (.user 0) (.arr [x, y])) = false ∧
      assignable Ex.E0 floats (typeOf (.user 0) (.arr [x])) = true := by
  decide +kernel

/-- {1, "a"} is no instance of `[]!int`, and its type is assignable to it. -/
theorem C123_not_violated :
    let t : Ty := .sizedArr (.user 1) (.not .intT) 0 maxInt
    instanceOf Ex.E0 t (.arr [Ex.i 1, Ex.s 1]) = false ∧ assignable Ex.E0 t (typeOf (.user 0) (.arr [Ex.i 1, Ex.s 1])) = true := by
  decide +kernel

/-- {3, 9} is no instance of `[](int ^ 1..5)`: 3 is both.  Its type is assignable to it. -/
theorem C123_one_violated :
    let t : Ty := .sizedArr (.user 1) (.oneOf (.user 2) [.intT, Ex.r15]) 0 maxInt
    instanceOf Ex.E0 t (.arr [Ex.i 3, Ex.i 9]) = false ∧ assignable Ex.E0 t (typeOf (.user 0) (.arr [Ex.i 3, Ex.i 9])) = true := by
  decide +kernel

/-- {{true}} is no instance of `{[]int|[]string}`, and its type is assignable to it. -/
theorem C123_tuple_violated :
    let t : Ty := .tuple (.user 1) [.anyOf (.user 2) [.sizedArr (.user 3) .intT 0 maxInt, .sizedArr (.user 4) .strT 0 maxInt]] false
    instanceOf Ex.E0 t (.arr [.arr [.bool true]]) = false ∧ assignable Ex.E0 t (typeOf (.user 0) (.arr [.arr [.bool true]])) = true := by
  decide +kernel

/-- The sensitive 3 is an instance of `sensitive[1..5]`, its type is not assignable to it, and accepts the sensitive 9. -/
theorem C123_sensitive_violated :
    let t : Ty := .sens (.user 1) Ex.r15
    instanceOf Ex.E0 t (.sens (Ex.i 3)) = true ∧ assignable Ex.E0 t (typeOf (.user 0) (.sens (Ex.i 3))) = false ∧
      instanceOf Ex.E0 (typeOf (.user 0) (.sens (Ex.i 3))) (.sens (Ex.i 9)) = true := by
  decide +kernel

end Verif.Types
