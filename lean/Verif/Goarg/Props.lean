import Verif.Goarg.Lemmas
/-!
# C121: A Go value as an argument means the `dgo` value it becomes

`a.Equals(x)`, `a.CompareTo(x)` and `t.Instance(x)` answer for a Go value `x` what they answer for `vf.Value(x)`.
-/
set_option autoImplicit false
namespace Verif.Goarg
open Verif.Value Verif.Reflect Verif.Types

variable {E : Reflect.Env} {T : Types.Env}

/-- **C121**, partial: a value equals a Go value exactly when it equals the value that `vf.Value` makes of it, for Go values of any depth,
and it never panics where `vf.Value` does not.  What is missing: pointers and nil slices and maps, for which it is false
(`C121_pointer_violated`). -/
theorem C121_equals_partial (a : Val) {x : Arg} {v : Val} (hv : valueOf E x = .ok v) (hd : Direct x) :
    equalsArg E a x = .ok (eq a v) := by
  cases x with
  | go g => exact equalsArg_go hv hd a
  | val w =>
    cases hv
    cases a with
    | nil => cases v <;> rfl
    | bool b => cases v <;> rfl
    | int i => cases v <;> rfl
    | float i => cases v <;> simp [equalsArg, toFloat, eq]
    | str i => cases v <;> rfl
    | bin i => cases v <;> rfl
    | time i => cases v <;> rfl
    | regexp i => cases v <;> rfl
    | _ => rfl

/-- `vf.Values(1, "a").Equals([]interface{}{1, "a"})` -/
example : equalsArg E (.arr [.int 1, .str [97]])
    (.go (some (.slice .iface (some [.iface (some (.int .int 1)), .iface (some (.string [97]))])))) = .ok true := by
  rw [C121_equals_partial (v := .arr [.int 1, .str [97]])]
  · simp [eq, eqSlice]
  · simp [valueOf, fromReflected, fromAll, isNative, goNil, ofInt, Except.bind, Except.map]
  · trivial

/-- **C121**, partial: a value compares with a Go value as with the value that `vf.Value` makes of it.  What is missing, besides the pointers
and nil slices and maps: a Boolean with a Go Boolean or `nil`, and a string with `nil`, for which it is false (`C121_compare_violated`). -/
theorem C121_compare_partial (a : Val) {x : Arg} {v : Val} (hv : valueOf E x = .ok v) (hd : Direct x)
    (hb : (∃ b, a = .bool b) → (∃ w, x = .val w) ∨ (v ≠ .nil ∧ ∀ c, v ≠ .bool c))
    (hs : (∃ s, a = .str s) → (∃ w, x = .val w) ∨ v ≠ .nil) :
    cmpArg E a x = .ok (cmp a v) := by
  cases x with
  | go g =>
    refine cmpArg_go hv hd a ?_ ?_
    · rintro b rfl c
      rcases hb ⟨b, rfl⟩ with ⟨w, h⟩ | h
      · cases h
      · exact ⟨h.2 c, h.1⟩
    · rintro s rfl
      rcases hs ⟨s, rfl⟩ with ⟨w, h⟩ | h
      · cases h
      · exact h
  | val w =>
    cases hv
    cases a <;> cases v <;> simp [cmpArg, cmp, isNil, toInt, toFloat, toStr, toBin, valueOf]

/-- `vf.Value(2).CompareTo(uint8(3))` and `vf.Values("b").CompareTo([]string{"a"})` -/
example : cmpArg E (.int 2) (.go (some (.int .uint8 3))) = .ok (some .lt) ∧
    cmpArg E (.arr [.str [98]]) (.go (some (.slice .string (some [.string [97]])))) = .ok (some .gt) := by
  constructor
  · refine (C121_compare_partial (v := .int 3) _ ?_ ?_ (by simp) (by simp)).trans ?_
    · simp [valueOf, fromReflected, ofInt]
    · trivial
    · simp [cmp, three]
  · refine (C121_compare_partial (v := .arr [.str [97]]) _ ?_ ?_ (by simp) (by simp)).trans ?_
    · simp [valueOf, fromReflected, fromAll, isNative, goNil, Except.bind, Except.map]
    · trivial
    · simp [cmp, cmpSlice, Val.comparable, three, strLt]

/-- **C121**, partial: a Go value is an instance of a type exactly when the value that `vf.Value` makes of it is.  What is missing, besides
the pointers and nil slices and maps: slices and maps and the types of arrays and maps, for which it is false
(`C121_collection_violated`), and types that are part of themselves. -/
theorem C121_instance_partial {t : Ty} (ht : t.Acyc) {x : Arg} {v : Val} (hv : valueOf E x = .ok v) (hd : Direct x)
    (hc : Single v ∨ NoColl t ∨ ∃ w, x = .val w) :
    instArg T E t x = .ok (instanceOf T t v) := by
  cases x with
  | val w => cases hv; rfl
  | go g =>
    rw [instArg, instanceOf_has ht]
    refine instGo_has hv hd t ?_
    rcases hc with h | h | ⟨w, h⟩
    · exact .inl h
    · exact .inr h
    · cases h

/-- `10` is no instance of `not (0..20 & not 5)` -/
example : instArg T E (.not (.allOf (.user 1) [.intRange 0 20 true, .not (.exact (.int 5))])) (.go (some (.int .int 10))) = .ok false := by
  simp [instArg, instGo, allGo, toInt, equalsArg, Except.map, Except.bind]

/-- **C121** is violated: a pointer is not followed by `Equals`, although `vf.Value` follows it; a nil map becomes nil, which is not equal to
it; a time equals a pointer to a time, which does not become a time, and panics for a nil pointer, which becomes nil. -/
theorem C121_pointer_violated :
    (∀ s, equalsArg E (.str s) (.go (some (.ptr .string (some (.string s))))) = .ok false ∧
      valueOf E (.go (some (.ptr .string (some (.string s))))) = .ok (.str s)) ∧
    (∀ f, equalsArg E (.float f) (.go (some (.ptr .float64 (some (.float64 f))))) = .ok false ∧
      valueOf E (.go (some (.ptr .float64 (some (.float64 f))))) = .ok (.float f)) ∧
    (∀ k e, equalsArg E .nil (.go (some (.map k e none))) = .ok false ∧ valueOf E (.go (some (.map k e none))) = .ok .nil) ∧
    (∀ t, equalsArg E (.time t) (.go (some (.ptr .time (some (.time t))))) = .ok true ∧
      valueOf E (.go (some (.ptr .time (some (.time t))))) = .error .native ∧
      equalsArg E (.time t) (.go (some (.ptr .time none))) = .error .panic ∧
      valueOf E (.go (some (.ptr .time none))) = .ok .nil) := by
  refine ⟨fun s => ⟨rfl, ?_⟩, fun f => ⟨rfl, ?_⟩, fun k e => ⟨rfl, ?_⟩, fun t => ⟨?_, ?_, rfl, ?_⟩⟩ <;>
    simp [valueOf, fromReflected, equalsArg]

/-- **C121** is violated: Booleans compare with Booleans, but not with those of Go; Booleans and strings compare with the nil of `dgo`, but
not with that of Go, which the other values compare with. -/
theorem C121_compare_violated :
    (∀ b c, cmpArg E (.bool b) (.go (some (.bool c))) = .ok none ∧ valueOf E (.go (some (.bool c))) = .ok (.bool c) ∧
      (cmpArg E (.bool b) (.val (.bool c))).toOption.join ≠ none) ∧
    (∀ b, cmpArg E (.bool b) (.go none) = .ok none ∧ cmpArg E (.bool b) (.val .nil) = .ok (some .gt)) ∧
    (∀ s, cmpArg E (.str s) (.go none) = .ok none ∧ cmpArg E (.str s) (.val .nil) = .ok (some .gt)) ∧
    (∀ i, cmpArg E (.int i) (.go none) = .ok (some .gt)) := by
  refine ⟨fun b c => ⟨rfl, ?_, ?_⟩, fun b => ⟨rfl, rfl⟩, fun s => ⟨rfl, rfl⟩, fun i => rfl⟩
  · simp [valueOf, fromReflected]
  · simp [cmpArg, cmp, Except.toOption]

/-- **C121** is violated: no slice is an instance of a type of arrays and no map is one of a type of maps, although the array and the map made
of them are, and though an exact type accepts them; so everything that is `not` such a type has them as instances. -/
theorem C121_collection_violated :
    (∀ e o vs, valueOf E (.go (some (.slice e o))) = .ok (.arr vs) →
      instArg T E .arrT (.go (some (.slice e o))) = .ok false ∧ instArg T E (.not .arrT) (.go (some (.slice e o))) = .ok true ∧
      instanceOf T .arrT (.arr vs) = true ∧ instanceOf T (.not .arrT) (.arr vs) = false ∧
      (Direct (.go (some (.slice e o))) → ∀ i, instArg T E (.exactD i (.arr vs)) (.go (some (.slice e o))) =
        .ok (instanceOf T (.exactD i (.arr vs)) (.arr vs)))) ∧
    (∀ k e o es, valueOf E (.go (some (.map k e o))) = .ok (.map es) →
      instArg T E .mapT (.go (some (.map k e o))) = .ok false ∧ instArg T E (.not .mapT) (.go (some (.map k e o))) = .ok true ∧
      instanceOf T .mapT (.map es) = true ∧ instanceOf T (.not .mapT) (.map es) = false) ∧
    (∀ g i ts var e lo hi, instArg T E (.sizedArr i e lo hi) (.go g) = .ok false ∧ instArg T E (.tuple i ts var) (.go g) = .ok false) ∧
    ∀ g i add fs k e lo hi, instArg T E (.sizedMap i k e lo hi) (.go g) = .ok false ∧ instArg T E (.struct i add fs) (.go g) = .ok false := by
  refine ⟨fun e o vs h => ⟨by simp [instArg, instGo], by simp [instArg, instGo, Except.map], ?_, ?_, fun hd i => ?_⟩,
    fun k e o es h => ⟨by simp [instArg, instGo], by simp [instArg, instGo, Except.map], ?_, ?_⟩,
    fun g i ts var e lo hi => ⟨by simp [instArg, instGo], by simp [instArg, instGo]⟩,
    fun g i add fs k e lo hi => ⟨by simp [instArg, instGo], by simp [instArg, instGo]⟩⟩
  · rw [instanceOf_has (by simp [Ty.Acyc])]; simp [has, hasP]
  · rw [instanceOf_has (by simp [Ty.Acyc])]; simp [has, hasP]
  · exact C121_instance_partial (by simp [Ty.Acyc]) h hd (.inr (.inl (by simp [NoColl])))
  · rw [instanceOf_has (by simp [Ty.Acyc])]; simp [has, hasP]
  · rw [instanceOf_has (by simp [Ty.Acyc])]; simp [has, hasP]

/-- `[]string{"a"}` becomes the array `{"a"}`. -/
example : valueOf E (.go (some (.slice .string (some [.string [97]])))) = .ok (.arr [.str [97]]) ∧
    Direct (.go (some (.slice .string (some [.string [97]])))) :=
  ⟨by simp [valueOf, fromReflected, fromAll, isNative, goNil, Except.bind, Except.map], trivial⟩

/-- **C121** is violated: the largest `uint64` is an instance of the integer type, although it does not become a value and the types of integer
ranges and the comparison of integers panic for it. -/
theorem C121_largest_violated (k : IK) (hk : k = .uint ∨ k = .uint64) :
    instArg T E .intT (.go (some (.int k (2 ^ 64 - 1)))) = .ok true ∧
    valueOf E (.go (some (.int k (2 ^ 64 - 1)))) = .error .panic ∧
    (∀ lo hi b, instArg T E (.intRange lo hi b) (.go (some (.int k (2 ^ 64 - 1)))) = .error .panic) ∧
    (∀ i, equalsArg E (.int i) (.go (some (.int k (2 ^ 64 - 1)))) = .error .panic) ∧
    (∀ i, cmpArg E (.int i) (.go (some (.int k (2 ^ 64 - 1)))) = .error .panic) := by
  rcases hk with rfl | rfl <;>
    simp [instArg, instGo, isInt, valueOf, fromReflected, ofInt, toInt, equalsArg, cmpArg, Except.map]

end Verif.Goarg
