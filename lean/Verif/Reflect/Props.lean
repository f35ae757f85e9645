import Verif.Reflect.Reads
import Verif.Value.Cmp
/-!
# C66 – C70: Go values
-/
set_option autoImplicit false
set_option linter.unusedVariables false
set_option linter.unusedSimpArgs false
namespace Verif.Reflect
open Verif.Value

/-- Conversions of floats for the examples (the theorems are about any) -/
def Ex.E0 : Env where
  narrow := fun f => (f >>> 32).setWidth 32
  widen := fun f => f.setWidth 64 <<< 32

/-- The text `a` -/
def Ex.a : Str := [97]

/-! ### C66: from `dgo` to Go and back -/

/-- **C66.**  If a value is put in a Go variable and the variable is read, the result is the value, provided that the variable can hold it:
see `Survives`.  The entries of maps come in the order of the Go map, which here is that of insertion. -/
theorem C66_partial (E : Env) (v : Val) (t : GT) (g : GV) (h : reflectTo E v t = some g) (hs : Survives E t v) (hw : WF v) :
    fromReflected E g = .ok v := round v t g h hs hw

/-- `map[string]interface{}` with an array and a binary in it -/
def Ex.m : Val := .map [(.str Ex.a, .arr [.int 1, .str Ex.a, .nil]), (.str [98], .bin [1, 2])]
example : ∃ g, reflectTo Ex.E0 Ex.m (.map .string .iface) = some g ∧ Survives Ex.E0 (.map .string .iface) Ex.m ∧ WF Ex.m := by
  refine ⟨_, rfl, ?_, ?_⟩
  · simp only [Ex.m, Survives, Val.map.injEq]
    rintro _ rfl e he
    simp at he
    rcases he with rfl | rfl <;> simp [NoTime, NoTimes]
  · simp [Ex.m, WF, WFes, WFs, eq, Ex.a]

/-- In an `interface{}` everything survives but times. -/
theorem C66_interface_partial (E : Env) (v : Val) (h : SimpleKeys v) (ht : NoTime v) (hw : WF v) :
    ∃ g, reflectTo E v .iface = some g ∧ fromReflected E g = .ok v := by
  obtain ⟨t, _, _, g, hg⟩ := goes (E := E) v h
  exact ⟨g, hg, round v _ g hg (by rw [Survives]; exact ht) hw⟩

example : SimpleKeys Ex.m ∧ NoTime Ex.m ∧ WF Ex.m := by
  simp [Ex.m, SimpleKeys, SimpleKeysEntries, SimpleKeysAll, Simple, NoTime, NoTimeEntries, NoTimes, WF, WFes, WFs, eq, Ex.a]

/-- **C66 is violated.**  300 in an `int8` is 44; -1 in a `uint64` cannot be read; `nil` in a `string` is the empty string; an array of
integers in a `[]byte` is a binary; a time in an `interface{}` is a native value. -/
theorem C66_violated (E : Env) :
    (∃ g, reflectTo E (.int 300) (.int .int8) = some g ∧ fromReflected E g = .ok (.int 44)) ∧
    (∃ g, reflectTo E (.int (-1)) (.int .uint64) = some g ∧ fromReflected E g = .error .panic) ∧
    (∃ g, reflectTo E .nil .string = some g ∧ fromReflected E g = .ok (.str [])) ∧
    (∃ g, reflectTo E (.arr [.int 1]) (.slice (.int .uint8)) = some g ∧ fromReflected E g = .ok (.bin [1])) ∧
    (∃ g, reflectTo E (.time 0) .iface = some g ∧ fromReflected E g = .error .native) :=
  ⟨⟨_, rfl, rfl⟩, ⟨_, rfl, rfl⟩, ⟨_, rfl, rfl⟩, ⟨_, rfl, rfl⟩, ⟨_, rfl, rfl⟩⟩

/-! ### C67: from Go to `dgo` and back -/

/-- **C67.**  A Go value that is made a `dgo.Value` and put in a variable of its type again is the same, provided that it can be read
(`Known`) and that it comes back (`Returns`). -/
theorem C67_partial (E : Env) (g : GV) (hk : Known g) (hr : Returns E g) :
    ∃ v, fromReflected E g = .ok v ∧ reflectTo E v g.type = some g := by
  obtain ⟨v, hv⟩ := reads (E := E) g hk
  exact ⟨v, hv, back g v hv hr⟩

/-- `map[string][]*int8{"a": {nil, &5}}`, and an `interface{}` with an `[]interface{}` of different types -/
def Ex.g1 : GV := .map .string (.slice (.ptr (.int .int8))) (some [(.string Ex.a, .slice (.ptr (.int .int8)) (some [.ptr (.int .int8) none,
  .ptr (.int .int8) (some (.int .int8 5))]))])
def Ex.g2 : GV := .iface (some (.slice .iface (some [.iface (some (.int .int64 1)), .iface (some (.string Ex.a))])))
example : Known Ex.g1 ∧ Returns Ex.E0 Ex.g1 := by
  simp [Ex.g1, Known, KnownEntries, KnownAll, Returns, ReturnsEntries, ReturnsAll, GV.type, hashable, nanKey, GT.comparable, Pointed, IK.min, IK.max,
    IK.signed, IK.bits]
example : Known Ex.g2 ∧ Returns Ex.E0 Ex.g2 := by
  simp [Ex.g2, Known, KnownAll, Returns, ReturnsAll, GV.type, Std, StdAll, Joined, dyn, IK.min, IK.max, IK.signed, IK.bits]

/-- **C67 is violated.**  What is in an `interface{}` gets another type: an `int8` comes back as an `int64`, an `[]interface{}` with one
integer as an `[]int64`.  A pointer to a pointer to an integer cannot be put back; a pointer to a nil slice comes back nil.  The greatest
`uint64` cannot be read. -/
theorem C67_violated (E : Env) :
    (∃ v, fromReflected E (.iface (some (.int .int8 5))) = .ok v ∧ reflectTo E v .iface = some (.iface (some (.int .int64 5)))) ∧
    (∃ v, fromReflected E (.iface (some (.slice .iface (some [.iface (some (.int .int64 1))])))) = .ok v ∧
      reflectTo E v .iface = some (.iface (some (.slice (.int .int64) (some [.int .int64 1]))))) ∧
    (∃ v, fromReflected E (.ptr (.ptr (.int .int)) (some (.ptr (.int .int) (some (.int .int 1))))) = .ok v ∧ reflectTo E v (.ptr (.ptr (.int .int))) = none) ∧
    (∃ v, fromReflected E (.ptr (.slice .string) (some (.slice .string none))) = .ok v ∧
      reflectTo E v (.ptr (.slice .string)) = some (.ptr (.slice .string) none)) ∧
    fromReflected E (.int .uint64 (2 ^ 64 - 1)) = .error .panic :=
  ⟨⟨_, rfl, rfl⟩, ⟨_, rfl, rfl⟩, ⟨_, rfl, rfl⟩, ⟨_, rfl, rfl⟩, rfl⟩

/-! ### C68: what is put in a Go variable -/

/-- **C68, type.**  What is put in a variable has the type of the variable, and so has all that is in it. -/
theorem C68_typed (E : Env) (v : Val) (t : GT) (g : GV) (h : reflectTo E v t = some g) : g.type = t ∧ Typed g := typed v t g h

example : ∃ g, reflectTo Ex.E0 Ex.m .iface = some g ∧ g.type = .iface := ⟨_, rfl, rfl⟩

/-- **C68, nil.**  `nil` goes into every variable whose type is no `dgo` interface, and what is in it then is the zero value of its type.  A
`dgo.Value` gets the value `Nil`. -/
theorem C68_nil (E : Env) (t : GT) : (∃ g, reflectTo E .nil t = some g ∧ g.type = t ∧ IsZero g) ∨ ∃ k, t = .value k ∧
    reflectTo E .nil (.value .any) = some (.value .any (some .nil)) := by
  have other : (∀ k, t ≠ .value k) → ∃ g, reflectTo E .nil t = some g ∧ g.type = t ∧ IsZero g := by
    intro h
    refine ⟨zero t, by rw [reflectTo]; exact h, (zero_typed t).1, ?_⟩
    cases t <;> simp [zero, IsZero]
  cases t with
  | value k => exact .inr ⟨k, rfl, by simp [reflectTo, VK.has]⟩
  | _ => exact .inl (other (by simp))

example : reflectTo Ex.E0 .nil (.map .string (.int .int8)) = some (.map .string (.int .int8) none) := rfl

/-- **C68, totality.**  Every value can be put in an `interface{}`, and in a variable of the type that is made for it, if no map in it has
arrays, maps or binaries as keys. -/
theorem C68_total_partial (E : Env) (v : Val) (h : SimpleKeys v) :
    (∃ g, reflectTo E v .iface = some g) ∧ ∃ t g, rtype v = some t ∧ reflectTo E v t = some g := by
  obtain ⟨t, h1, ⟨g, hg⟩, h3⟩ := goes (E := E) v h
  exact ⟨h3, t, g, h1, hg⟩

example : SimpleKeys Ex.m ∧ rtype Ex.m = some (.map .string .iface) := by
  refine ⟨?_, rfl⟩
  simp [Ex.m, SimpleKeys, SimpleKeysEntries, SimpleKeysAll, Simple]

/-- **C68 is violated.**  A map with an array as key cannot be put in an `interface{}`; nor can one with a binary beside a string. -/
theorem C68_violated (E : Env) :
    reflectTo E (.map [(.arr [.int 1], .nil)]) .iface = none ∧ reflectTo E (.map [(.str Ex.a, .nil), (.bin [1], .nil)]) .iface = none :=
  ⟨rfl, rfl⟩

/-! ### C69: maps from Go maps -/

/-- **C69.**  A map that is made from a Go map has as many entries, and no two equal keys if the keys are booleans, numbers of one type,
strings or times. -/
theorem C69_partial (E : Env) (k w : GT) (es : List (GV × GV)) (v : Val) (hk : KeyType k) (ht : Typed (.map k w (some es)))
    (hd : es.Pairwise fun a b => keyEq E b.1 a.1 = false) (h : fromReflected E (.map k w (some es)) = .ok v) :
    ∃ xs, v = .map xs ∧ xs.length = es.length ∧ xs.Pairwise fun a b => eq a.1 b.1 = false := by
  rw [fromReflected] at h
  obtain ⟨xs, hx, rfl⟩ := map_ok h
  rw [Typed] at ht
  exact ⟨xs, rfl, fromEntries_length hx, entries_differ hk ht hd hx⟩

example : KeyType (.int .int8) ∧ Typed (.map (.int .int8) .bool (some [(.int .int8 1, .bool true), (.int .int8 (-1), .bool false)])) := by
  simp [KeyType, Typed, TypedEntries, GV.type, IK.min, IK.max, IK.signed, IK.bits]

/-- **C69 is violated.**  In a `map[interface{}]bool` an `int` and an `int64` are different keys; the map that is made of it has two entries
with the key 1.  And a Go map with a NaN as key loses the value that belongs to it. -/
theorem C69_violated (E : Env) :
    (keyEq E (.iface (some (.int .int64 1))) (.iface (some (.int .int 1))) = false ∧
      fromReflected E (.map .iface .bool (some [(.iface (some (.int .int 1)), .bool true), (.iface (some (.int .int64 1)), .bool false)])) =
        .ok (.map [(.int 1, .bool true), (.int 1, .bool false)])) ∧
    (let nan : F64 := 0x7ff8000000000000
     fromReflected E (.map .float64 .bool (some [(.float64 nan, .bool true)])) = .ok (.map [(.float nan, .nil)])) :=
  ⟨⟨rfl, rfl⟩, rfl⟩

/-! ### C70: the order of the entries -/

/-- **C70.**  The order of the entries of a map that is made from a Go map does not depend on the order in which Go enumerates them, if the
keys are of one kind that has an order (booleans, numbers of one type, strings): whatever the enumeration and whatever `sort.Slice` does
beyond its promise. -/
theorem C70_partial (k : Kind) (es es' r r' : List (Val × Val)) (he : es'.Perm es) (hk : ∀ e ∈ es, HasKind k e.1)
    (hd : es.Pairwise fun a b => eq a.1 b.1 = false) (h : Sorted keyLess es r) (h' : Sorted keyLess es' r') : r = r' := by
  have L := kind_laws k
  have hm : ∀ e ∈ r, e ∈ es := fun e he => h.1.mem_iff.1 he
  have hm' : ∀ e ∈ r', e ∈ es := fun e hx => he.mem_iff.1 (h'.1.mem_iff.1 hx)
  have hsym : ∀ {a b : Val × Val}, a ∈ es → b ∈ es → eq a.1 b.1 = false → eq b.1 a.1 = false := by
    intro a b ha hb h
    cases hba : eq b.1 a.1 with
    | false => rfl
    | true =>
      have h1 := (L.zero _ _ (hk b hb) (hk a ha)).2 hba
      have h2 := L.swap _ _ (hk b hb) (hk a ha)
      rw [h1] at h2
      rw [(L.zero _ _ (hk a ha) (hk b hb)).1 h2] at h
      cases h
  have same : ∀ a ∈ es, ∀ b ∈ es, eq a.1 b.1 = true → a = b := by
    intro a ha b hb hab
    rcases pairwise_cases hd ha hb with h | h | h
    · exact h
    · rw [hab] at h; cases h
    · rw [hsym hb ha h] at hab; cases hab
  refine List.Perm.eq_of_pairwise (le := fun a b => keyLess b a = false) ?_ h.2 h'.2 (h.1.trans (he.symm.trans h'.1.symm))
  intro a b ha hb h1 h2
  have ha := hm a ha
  have hb := hm' b hb
  apply same a ha b hb
  rw [keyLess, (hk _ hb).comparable, Bool.true_and] at h1
  rw [keyLess, (hk _ ha).comparable, Bool.true_and] at h2
  obtain ⟨o, ho⟩ := Option.isSome_iff_exists.1 (L.dec _ _ (hk a ha) (hk b hb))
  have hs := L.swap _ _ (hk a ha) (hk b hb)
  rw [ho] at hs h2
  rw [hs] at h1
  apply (L.zero _ _ (hk a ha) (hk b hb)).1
  rw [ho]
  cases o <;> simp at h1 h2 ⊢

example : let es : List (Val × Val) := [(.str Ex.a, .nil), (.str [98], .int 1)]
    es.reverse.Perm es ∧ (∀ e ∈ es, HasKind .str e.1) ∧ (es.Pairwise fun a b => eq a.1 b.1 = false) ∧ Sorted keyLess es es ∧ Sorted keyLess es.reverse es := by
  refine ⟨List.reverse_perm _, ?_, ?_, ⟨.refl _, ?_⟩, ⟨(List.reverse_perm _).symm, ?_⟩⟩
  · simp [HasKind]
  · simp [eq, Ex.a]
  · simp [keyLess, Ex.a, Value.cmp, three, strLt, Val.comparable]
  · simp [keyLess, Ex.a, Value.cmp, three, strLt, Val.comparable]

/-- **C70 is violated.**  Times have no order: with times as keys, every order of the entries is one that the sort leaves as it is. -/
theorem C70_violated (es : List (Val × Val)) (h : ∀ e ∈ es, ∃ ns, e.1 = .time ns) : Sorted keyLess es es := by
  refine ⟨.refl _, List.pairwise_of_forall_mem_list fun a ha b hb => ?_⟩
  obtain ⟨ns, hn⟩ := h b hb
  rw [keyLess, hn]; rfl

example : ∀ e ∈ [(Val.time 1, Val.nil), (Val.time 0, Val.nil)], ∃ ns, e.1 = .time ns := by simp

end Verif.Reflect
