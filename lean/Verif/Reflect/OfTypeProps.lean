import Verif.Reflect.OfTypeGoes
/-!
# C87: the Go type of a `dgo` type has a place for the instances of the type
-/
set_option autoImplicit false
set_option linter.unusedVariables false
set_option linter.unusedSimpArgs false
namespace Verif.Reflect
open Verif.Value Verif.Types

/-- C87, in part: an instance of a type goes into a variable of the type that `ReflectType` returns, and the variable then holds a value of its
type.  Left out: struct types that allow entries they do not declare, for which this is false (`C87_violated`), and values with a map whose
keys are arrays, maps or binaries, which no Go map can have. -/
theorem C87_fits_partial (E : Types.Env) (R : Env) (t : Ty) (g : GT) (v : Val) (hg : reflectType E t = some (some g)) (hc : Closed E t) (ho : t.Ok)
    (ha : t.Acyc) (hw : WF v) (hs : SimpleKeys v) (h : instanceOf E t v = true) : ∃ x, reflectTo R v g = some x ∧ x.type = g ∧ Typed x := by
  rw [instanceOf_has ha] at h
  obtain ⟨x, hx⟩ := takes_goes (R := R) g v ((fine t hc ho ha).takes g hg v hw h) hs
  exact ⟨x, hx, typed _ _ _ hx⟩

/-- the type `{a: int, b?: []int}`, whose Go type is `map[string]interface{}`, the type `{1..5, int&!string}`, and an instance of each -/
def demoEnv87 : Types.Env := ⟨fun _ _ => true, fun _ _ => true, fun _ _ => false, true, fun _ _ => true⟩
def demoStruct87 : Ty := .struct (.user 0) false [(.str [97], true, .intT), (.str [98], false, .sizedArr (.user 1) .intT 0 5)]
def demoTuple87 : Ty := .tuple (.user 0) [.intRange 1 5 true, .allOf (.user 1) [.intT, .not .strT]] false
example : reflectType demoEnv87 demoStruct87 = some (some (.map .string .iface)) ∧ Closed demoEnv87 demoStruct87 ∧ demoStruct87.Ok ∧ demoStruct87.Acyc ∧
    instanceOf demoEnv87 demoStruct87 (.map [(.str [98], .arr [.int 7]), (.str [97], .int 1)]) = true ∧
    WF (.map [(.str [98], .arr [.int 7]), (.str [97], .int 1)]) ∧ SimpleKeys (.map [(.str [98], .arr [.int 7]), (.str [97], .int 1)]) :=
  ⟨by decide +kernel, by simp [demoStruct87, Closed, ClosedFields, DistinctKeys, eq], by simp [demoStruct87, Ty.Ok, OkFields, isScalar, WF],
    by simp [demoStruct87, Ty.Acyc, AcycFields, Ty.occ, occFields], by decide +kernel, by simp [WF, WFes, WFs, eq],
    by simp [SimpleKeys, SimpleKeysEntries, SimpleKeysAll, Simple]⟩
example : reflectType demoEnv87 demoTuple87 = some (some (.slice .iface)) ∧ instanceOf demoEnv87 demoTuple87 (.arr [.int 3, .int 9]) = true := by
  decide +kernel
/-- a tuple type with the same element type twice -/
example : Closed demoEnv87 (.tuple (.user 0) [.intT, .strT, .intT] true) := by
  refine ⟨?_, by simp [ClosedAll, Closed]⟩
  intro a ha b hb h v _
  simp only [List.mem_cons, List.not_mem_nil, or_false] at ha hb
  rcases ha with rfl | rfl | rfl <;> rcases hb with rfl | rfl | rfl <;> first | rfl | (exact absurd h (by decide +kernel))

/-- C87, in part: reading the variable gives the value back, unless a time has to go into an `interface{}` (where it is put as a pointer, and
read as a native value). -/
theorem C87_back_partial (E : Types.Env) (R : Env) (t : Ty) (g : GT) (v : Val) (hg : reflectType E t = some (some g)) (hc : Closed E t) (ho : t.Ok)
    (ha : t.Acyc) (hw : WF v) (hs : SimpleKeys v) (ht : NoIface g ∨ NoTime v) (h : instanceOf E t v = true) :
    ∃ x, reflectTo R v g = some x ∧ fromReflected R x = .ok v := by
  rw [instanceOf_has ha] at h
  have hk := (fine t hc ho ha).takes g hg v hw h
  obtain ⟨x, hx⟩ := takes_goes (R := R) g v hk hs
  exact ⟨x, hx, round v g x hx (takes_survives g v hk ht) hw⟩

/-- the type `map[string]time`, whose Go type is `map[string]time.Time` -/
def demoTimes87 : Ty := .sizedMap (.user 0) .strT .timeT 0 9
example : reflectType demoEnv87 demoTimes87 = some (some (.map .string .time)) ∧ Closed demoEnv87 demoTimes87 ∧ demoTimes87.Ok ∧ demoTimes87.Acyc ∧
    NoIface (.map .string .time) ∧ instanceOf demoEnv87 demoTimes87 (.map [(.str [97], .time 5)]) = true ∧
    WF (.map [(.str [97], .time 5)]) ∧ SimpleKeys (.map [(.str [97], .time 5)]) :=
  ⟨by decide +kernel, by simp [demoTimes87, Closed], by simp [demoTimes87, Ty.Ok], by simp [demoTimes87, Ty.Acyc, Ty.occ], by simp [NoIface],
    by decide +kernel, by simp [WF, WFes], by simp [SimpleKeys, SimpleKeysEntries, Simple]⟩

/-- C87, in part: the instances of a type are instances of what `TypeFromReflected` makes of its Go type, unless that has a `[]byte` or a type
of `dgo` in it. -/
theorem C87_described_partial (E : Types.Env) (t T : Ty) (g : GT) (v : Val) (o : Oid) (hg : reflectType E t = some (some g)) (hc : Closed E t)
    (ho : t.Ok) (ha : t.Acyc) (hw : WF v) (hf : Fits v) (hp : Spoken g) (hT : typeFromReflected o g = some T) (h : instanceOf E t v = true) :
    instanceOf E T v = true := by
  rw [instanceOf_has ha] at h
  have hk := (fine t hc ho ha).takes g hg v hw h
  obtain ⟨T', h1, h2, -, -, h5⟩ := from_spec (E := E) g o
  cases hT.symm.trans h1
  rw [instanceOf_has h2, h5 v hf]
  exact takes_accepts g v hk hp

example : ∃ T, typeFromReflected (.user 5) (.map .string .time) = some T ∧ Spoken (.map .string .time) ∧ Fits (.map [(.str [97], .time 5)]) :=
  ⟨_, rfl, by simp [Spoken], by simp [Fits, FitsEntries, len, maxInt]⟩

/-- C87, in part: `ReflectType` returns a type, and neither panics nor returns nil, if the keys of the map types are not arrays, maps or
binaries (`KeysPlain`). -/
theorem C87_total_partial (E : Types.Env) (t : Ty) (h : KeysPlain t) : ∃ g, reflectType E t = some (some g) := keys_total t h

example : KeysPlain demoStruct87 ∧ KeysPlain demoTuple87 ∧ KeysPlain demoTimes87 ∧
    KeysPlain (.sizedMap (.user 0) (.anyOf (.user 1) [.strT, .intT]) (.sizedMap (.user 2) .floatT .mapT 0 9) 0 9) := by
  simp [demoStruct87, demoTuple87, demoTimes87, KeysPlain, KeysPlainAll, KeysPlainFields, PlainKey, PlainKeys, Simple]

/-- **C87 is violated.**  The Go type of `{a: int, ...}` is `map[string]int64`, and to put the instance `{a: 1, b: "x"}` there panics.
`ReflectType` of `map[[]int]string` panics.  The Go type of `time|string` is `interface{}`, and a time comes back from there as a native
value.  The Go types of `binary` and of `sensitive` have `dgo` types that the binaries and the sensitive values are no instances of. -/
theorem C87_violated (E : Types.Env) (R : Env) :
    (∃ t g v, reflectType E t = some (some g) ∧ instanceOf E t v = true ∧ g = .map .string (.int .int64) ∧
      v = .map [(.str [97], .int 1), (.str [98], .str [120])] ∧ reflectTo R v g = none) ∧
    reflectType E (.sizedMap (.user 0) (.sizedArr (.user 1) .intT 0 9) .strT 0 9) = none ∧
    (∃ t x, reflectType E t = some (some .iface) ∧ instanceOf E t (.time 5) = true ∧ reflectTo R (.time 5) .iface = some x ∧ fromReflected R x = .error .native) ∧
    (∃ t g v T, reflectType E t = some (some g) ∧ g = .slice (.int .uint8) ∧ v = .bin [1] ∧ instanceOf E t v = true ∧ typeFromReflected (.user 5) g = some T ∧
      instanceOf E T v = false) ∧
    (∃ t g v T, reflectType E t = some (some g) ∧ g = .value .sens ∧ v = .sens (.int 1) ∧ instanceOf E t v = true ∧ typeFromReflected (.user 5) g = some T ∧
      instanceOf E T v = false) := by
  refine ⟨⟨.struct (.user 0) true [(.str [97], true, .intT)], _, _, rfl, ?_, rfl, rfl, rfl⟩, rfl,
    ⟨.anyOf (.user 0) [.timeT, .strT], _, rfl, ?_, rfl, rfl⟩, ?_, ?_⟩
  · rw [instanceOf_has (by simp [Ty.Acyc, AcycFields, occFields, Ty.occ])]
    rfl
  · rw [instanceOf_has (by simp [Ty.Acyc, Acycs, occs, Ty.occ])]
    rfl
  · obtain ⟨T, h1, h2, -, -, h5⟩ := from_spec (E := E) (.slice (.int .uint8)) (.user 5)
    refine ⟨.bin 0 5, _, _, T, rfl, rfl, rfl, ?_, h1, ?_⟩
    · rw [instanceOf_has (by simp [Ty.Acyc])]; rfl
    · rw [← Bool.not_eq_true, instanceOf_has h2, h5 _ (by simp [Fits, len, maxInt])]
      simp [Accepts]
  · obtain ⟨T, h1, h2, -, -, h5⟩ := from_spec (E := E) (.value .sens) (.user 5)
    refine ⟨.sens (.user 0) .any, _, _, T, rfl, rfl, rfl, ?_, h1, ?_⟩
    · rw [instanceOf_has (by simp [Ty.Acyc, Ty.occ])]; rfl
    · rw [← Bool.not_eq_true, instanceOf_has h2, h5 _ (by simp [Fits])]
      simp [Accepts]

end Verif.Reflect
