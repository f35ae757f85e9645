import Verif.Reflect.FromTypeLemmas
/-!
# C73: the `dgo` type of a Go type and the variables of that type
-/
set_option autoImplicit false
set_option linter.unusedVariables false
set_option linter.unusedSimpArgs false
namespace Verif.Reflect
open Verif.Value Verif.Types

/-- C73, in part: a value that is an instance of the type that `TypeFromReflected` makes of a Go type can be put in a variable of that Go
type, and the variable then holds a value of its type.  Left out: Go types with a pointer to a pointer or to an `interface{}`, for which this
is false (`C73_violated`), and values with a map whose keys are arrays, maps or binaries, which no Go map can have. -/
theorem C73_fits_partial (E : Types.Env) (R : Env) (o : Oid) (t : GT) (T : Ty) (v : Val) (hT : typeFromReflected o t = some T) (hd : Direct t)
    (hs : SimpleKeys v) (hf : Fits v) (h : instanceOf E T v = true) : ∃ g, reflectTo R v t = some g ∧ g.type = t ∧ Typed g := by
  obtain ⟨T', h1, h2, -, -, h5⟩ := from_spec (E := E) t o
  cases hT.symm.trans h1
  rw [instanceOf_has h2, h5 v hf] at h
  obtain ⟨g, hg⟩ := accepts_goes (R := R) t v h hd hs
  exact ⟨g, hg, typed _ _ _ hg⟩

/-- a `map[string]*[]int8` and `{"a": [1, -2], "b": nil}` -/
example : ∃ T, typeFromReflected (.user 0) (.map .string (.ptr (.slice (.int .int8)))) = some T ∧ Direct (.map .string (.ptr (.slice (.int .int8)))) ∧
    SimpleKeys (.map [(.str [97], .arr [.int 1, .int (-2)]), (.str [98], .nil)]) ∧ Fits (.map [(.str [97], .arr [.int 1, .int (-2)]), (.str [98], .nil)]) ∧
    instanceOf ⟨fun _ _ => true, fun _ _ => true, fun _ _ => false, true, fun _ _ => true⟩ T
      (.map [(.str [97], .arr [.int 1, .int (-2)]), (.str [98], .nil)]) = true :=
  ⟨_, rfl, by simp [Direct, GT.comparable], by simp [SimpleKeys, SimpleKeysAll, SimpleKeysEntries, Simple],
    by simp [Fits, FitsAll, FitsEntries, len, maxInt], by decide +kernel⟩

/-- C73, in part: reading the variable gives the value back, unless the type has a `float32` (which rounds), a `[]byte` (which is read as a
binary), a pointer to a time (which is read as a native value) or an `interface{}` that a time is put in (as such a pointer). -/
theorem C73_kept_partial (E : Types.Env) (R : Env) (o : Oid) (t : GT) (T : Ty) (v : Val) (hT : typeFromReflected o t = some T) (hd : Direct t)
    (he : Exact t) (hi : NoIface t ∨ NoTime v) (hs : SimpleKeys v) (hf : Fits v) (hw : WF v) (h : instanceOf E T v = true) :
    ∃ g, reflectTo R v t = some g ∧ fromReflected R g = .ok v := by
  obtain ⟨T', h1, h2, -, -, h5⟩ := from_spec (E := E) t o
  cases hT.symm.trans h1
  rw [instanceOf_has h2, h5 v hf] at h
  obtain ⟨g, hg⟩ := accepts_goes (R := R) t v h hd hs
  exact ⟨g, hg, round v t g hg (accepts_survives t v h he hi) hw⟩

/-- a `map[string][]time.Time` and `{"a": [a time]}` -/
example : ∃ T, typeFromReflected (.user 0) (.map .string (.slice .time)) = some T ∧ Direct (.map .string (.slice .time)) ∧
    Exact (.map .string (.slice .time)) ∧ NoIface (.map .string (.slice .time)) ∧
    SimpleKeys (.map [(.str [97], .arr [.time 5])]) ∧ Fits (.map [(.str [97], .arr [.time 5])]) ∧ WF (.map [(.str [97], .arr [.time 5])]) ∧
    instanceOf ⟨fun _ _ => true, fun _ _ => true, fun _ _ => false, true, fun _ _ => true⟩ T (.map [(.str [97], .arr [.time 5])]) = true :=
  ⟨_, rfl, by simp [Direct, GT.comparable], by simp [Exact], by simp [NoIface], by simp [SimpleKeys, SimpleKeysAll, SimpleKeysEntries, Simple],
    by simp [Fits, FitsAll, FitsEntries, len, maxInt], by simp [WF, WFs, WFes], by decide +kernel⟩

/-- C73: what is read from a variable is an instance of the `dgo` type of the variable exactly if the variable holds no nil slice, no nil map
and no `[]byte`, no `dgo.Value`, no unsigned number above the greatest int64, no `float32` that is infinite or not a number, no nil pointer
to a regexp, and no nil of a pointer to a type that has nil already: the predicate `Described`. -/
theorem C73_read (E : Types.Env) (R : Env) (o : Oid) (g : GV) (T : Ty) (v : Val) (hT : typeFromReflected o g.type = some T) (ht : Typed g)
    (hv : fromReflected R g = .ok v) (hf : Fits v) : instanceOf E T v = true ↔ Described R g := by
  obtain ⟨T', h1, h2, -, -, h5⟩ := from_spec (E := E) g.type o
  cases hT.symm.trans h1
  rw [instanceOf_has h2, h5 v hf, read_described g v hv ht]

example (R : Env) : Described R (.map .string (.ptr (.slice (.int .int8))) (some [(.string [97], .ptr (.slice (.int .int8)) (some (.slice (.int .int8) (some [.int .int8 1])))),
      (.string [98], .ptr (.slice (.int .int8)) none), (.string [99], .ptr (.slice (.int .int8)) (some (.slice (.int .int8) none)))])) ∧
    ¬ Described R (.ptr .regexp none) ∧ ¬ Described R (.slice .bool none) ∧ ¬ Described R (.ptr (.ptr .bool) none) := by
  simp [Described, DescribedEntries, DescribedAll, nanKey, IsNil, TakesNil, IK.signed]

/-- C73: every Go type has a `dgo` type. -/
theorem C73_total (o : Oid) (t : GT) : ∃ T, typeFromReflected o t = some T := by
  obtain ⟨T, h, -⟩ := from_spec (E := ⟨fun _ _ => true, fun _ _ => true, fun _ _ => false, true, fun _ _ => true⟩) t o
  exact ⟨T, h⟩

example : ∃ T, typeFromReflected (.user 0) (.map (.int .uint8) (.ptr .float32)) = some T := ⟨_, rfl⟩

/-- C73 does not hold for all Go types: the type of a `**int` and that of a `*interface{}` have the number 5 as an instance, and to put it in
such a variable panics.  The types of `[]int`, `*regexp.Regexp`, `**int`, `[]byte`, `uint64` and `dgo.Value` do not have as instances what is
read from variables of these types: the nil slice, the nil pointers, two bytes, `1 << 63`, the number 5. -/
theorem C73_violated (E : Types.Env) (R : Env) :
    (∃ T, typeFromReflected (.user 0) (.ptr (.ptr (.int .int))) = some T ∧ instanceOf E T (.int 5) = true ∧ reflectTo R (.int 5) (.ptr (.ptr (.int .int))) = none) ∧
    (∃ T, typeFromReflected (.user 0) (.ptr .iface) = some T ∧ instanceOf E T (.int 5) = true ∧ reflectTo R (.int 5) (.ptr .iface) = none) ∧
    ∀ g ∈ [GV.slice (.int .int) none, .ptr .regexp none, .ptr (.ptr (.int .int)) none, .slice (.int .uint8) (some [.int .uint8 1, .int .uint8 2]),
        .int .uint64 (2 ^ 63), .value .any (some (.int 5))],
      ∃ T v, typeFromReflected (.user 0) g.type = some T ∧ fromReflected R g = .ok v ∧ instanceOf E T v = false := by
  have key : ∀ (g : GV) (v : Val), Typed g → fromReflected R g = .ok v → Fits v → ¬ Described R g →
      ∃ T v, typeFromReflected (.user 0) g.type = some T ∧ fromReflected R g = .ok v ∧ instanceOf E T v = false := by
    intro g v ht hv hf hd
    obtain ⟨T, hT⟩ := C73_total (.user 0) g.type
    refine ⟨T, v, hT, hv, ?_⟩
    rw [← Bool.not_eq_true, C73_read E R _ g T v hT ht hv hf]
    exact hd
  have acc : ∀ (t : GT) (v : Val), Fits v → Accepts t v → ∃ T, typeFromReflected (.user 0) t = some T ∧ instanceOf E T v = true := by
    intro t v hf ha
    obtain ⟨T, h1, h2, -, -, h5⟩ := from_spec (E := E) t (.user 0)
    exact ⟨T, h1, by rw [instanceOf_has h2, h5 v hf]; exact ha⟩
  refine ⟨?_, ?_, ?_⟩
  · obtain ⟨T, h1, h2⟩ := acc (.ptr (.ptr (.int .int))) (.int 5) trivial (by simp [Accepts, lowOf, highOf, IK.min, IK.max, IK.bits, IK.signed])
    exact ⟨T, h1, h2, rfl⟩
  · obtain ⟨T, h1, h2⟩ := acc (.ptr .iface) (.int 5) trivial (by simp [Accepts])
    exact ⟨T, h1, h2, rfl⟩
  · intro g hg
    simp only [List.mem_cons, List.not_mem_nil, or_false] at hg
    rcases hg with rfl | rfl | rfl | rfl | rfl | rfl
    · exact key _ .nil trivial rfl trivial (by simp [Described])
    · exact key _ .nil trivial rfl trivial (by simp [Described, TakesNil])
    · exact key _ .nil trivial rfl trivial (by simp [Described, TakesNil])
    · exact key _ (.bin [1, 2]) (by simp [Typed, TypedAll, GV.type, IK.min, IK.max, IK.bits, IK.signed]) rfl (by simp [Fits, len, maxInt]) (by simp [Described])
    · exact key _ (.int (BitVec.ofInt 64 (2 ^ 63))) (by simp [Typed, IK.min, IK.max, IK.bits, IK.signed]) (by simp [fromReflected, ofInt]) trivial
        (by simp [Described, IK.signed])
    · exact key _ (.int 5) rfl rfl trivial (by simp [Described])

end Verif.Reflect
