import Verif.Types.Access
import Verif.Types.AccessSpec
import Verif.Types.AssignProps
/-!
# C77: what types say about their instances
-/
set_option autoImplicit false
set_option linter.unusedSimpArgs false
set_option linter.unusedVariables false
namespace Verif.Types
open Verif.Value
variable {E : Env}

/-- **C77.**  Every instance of a type with a size has a size from `Min` to `Max`.  (Values whose size is an `int`; structs without repeated keys.)
Left out: case insensitive string types, for which it is false (`C77_ci_violated`). -/
theorem C77_size_partial {t : Ty} (ha : t.Acyc) (ho : t.Ok) (hs : Sane t) (hci : ∀ s, t ≠ .ciStr s) {lo hi : Int} {u : Bool}
    (h : t.size? E = some (lo, hi, u)) {v : Val} (hw : Value.WF v) (hf : Fits v) (hi' : instanceOf E t v = true) :
    ∃ n, sizeOf? v = some n ∧ lo ≤ n ∧ n ≤ hi := by
  rw [instanceOf_has ha] at hi'
  cases t with
  | ciStr s => exact absurd rfl (hci s)
  | strT =>
    simp only [Ty.size?, Option.some.injEq, Prod.mk.injEq] at h
    obtain ⟨rfl, rfl, _⟩ := h
    cases v <;> simp [has, hasP] at hi'
    simp only [Fits, len] at hf
    exact ⟨_, rfl, by omega, hf⟩
  | pattern rx =>
    simp only [Ty.size?, Option.some.injEq, Prod.mk.injEq] at h
    obtain ⟨rfl, rfl, _⟩ := h
    cases v <;> simp [has, hasP] at hi'
    simp only [Fits, len] at hf
    exact ⟨_, rfl, by omega, hf⟩
  | sizedStr a b =>
    simp only [Ty.size?, Option.some.injEq, Prod.mk.injEq] at h
    obtain ⟨rfl, rfl, _⟩ := h
    cases v <;> simp [has, hasP] at hi'
    exact ⟨_, rfl, hi'.1, hi'.2⟩
  | bin a b =>
    simp only [Ty.size?, Option.some.injEq, Prod.mk.injEq] at h
    obtain ⟨rfl, rfl, _⟩ := h
    cases v <;> simp [has, hasP] at hi'
    exact ⟨_, rfl, hi'.1, hi'.2⟩
  | exact w =>
    cases w with
    | str s =>
      simp only [Ty.size?, Option.some.injEq, Prod.mk.injEq] at h
      obtain ⟨rfl, rfl, _⟩ := h
      cases v <;> simp [has, hasP, eq] at hi'
      subst hi'
      exact ⟨_, rfl, Int.le_refl _, Int.le_refl _⟩
    | bin s =>
      simp only [Ty.size?, Option.some.injEq, Prod.mk.injEq] at h
      obtain ⟨rfl, rfl, _⟩ := h
      cases v <;> simp [has, hasP, eq] at hi'
      subst hi'
      exact ⟨_, rfl, Int.le_refl _, Int.le_refl _⟩
    | _ => simp [Ty.size?, Ty.arrayType?, Ty.mapType?] at h
  | arrT =>
    simp only [Ty.size?, Ty.arrayType?, Option.some.injEq, Prod.mk.injEq] at h
    obtain ⟨rfl, rfl, _⟩ := h
    cases v <;> simp [has, hasP] at hi'
    simp only [Fits, len] at hf
    exact ⟨_, rfl, by omega, hf.1⟩
  | mapT =>
    simp only [Ty.size?, Ty.arrayType?, Ty.mapType?, Option.some.injEq, Prod.mk.injEq] at h
    obtain ⟨rfl, rfl, _⟩ := h
    cases v <;> simp [has, hasP] at hi'
    simp only [Fits, len] at hf
    exact ⟨_, rfl, by omega, hf.1⟩
  | sizedArr o e a b =>
    simp only [Ty.size?, Ty.arrayType?, Option.some.injEq, Prod.mk.injEq] at h
    obtain ⟨rfl, rfl, _⟩ := h
    obtain ⟨vs, rfl, h1, h2, _⟩ := (has_sizedArr E).1 hi'
    exact ⟨_, rfl, h1, h2⟩
  | sizedMap o k e a b =>
    simp only [Ty.size?, Ty.arrayType?, Ty.mapType?, Option.some.injEq, Prod.mk.injEq] at h
    obtain ⟨rfl, rfl, _⟩ := h
    obtain ⟨vs, rfl, h1, h2, _⟩ := (has_sizedMap E).1 hi'
    exact ⟨_, rfl, h1, h2⟩
  | tuple o ts var =>
    simp only [Ty.size?, Ty.arrayType?, Option.some.injEq, Prod.mk.injEq] at h
    obtain ⟨h1, h2, _⟩ := h
    obtain ⟨vs, rfl, h3, _⟩ := (has_tuple_at hs).1 hi'
    simp only [Fits, len] at hf
    refine ⟨_, rfl, ?_, ?_⟩
    · subst h1; cases var <;> simp [len] at h3 ⊢ <;> omega
    · subst h2; cases var <;> simp [len] at h3 ⊢
      · omega
      · exact hf.1
  | struct o add fs =>
    simp only [Ty.size?, Ty.arrayType?, Ty.mapType?, Option.some.injEq, Prod.mk.injEq] at h
    obtain ⟨h1, h2, _⟩ := h
    cases v with
    | map es =>
      have hok := OkFields_iff.1 (show OkFields fs from ho)
      have hv' := WF_map hw
      have hd : DistinctKeys es := by rw [Value.WF] at hw; exact hw.2
      have hcnt := countFields_eq (fun f hf => (hok f hf).2.1) (fun e he => (hv' e he).1) hs hd
      rw [has, hasP, Bool.and_eq_true, hasFields_iff] at hi'
      obtain ⟨h3, h4⟩ := hi'
      have hmax : countFields fs es ≤ fs.length := by
        clear * -
        induction fs with
        | nil => simp [countFields]
        | cons f fs ih => obtain ⟨k, rq, t⟩ := f; rw [countFields]; simp only [List.length_cons]; split <;> omega
      have hmin : (fs.filter (·.2.1)).length ≤ countFields fs es := by
        clear * - h3
        induction fs with
        | nil => simp
        | cons f fs ih =>
          obtain ⟨k, rq, t⟩ := f
          have ih := ih fun f hf => h3 f (by simp [hf])
          rw [countFields, List.filter_cons]
          cases rq with
          | false => simp only [Bool.false_eq_true, if_false]; split <;> omega
          | true =>
            have := (h3 (k, true, t) (by simp)).1 rfl
            simp only [if_true, this, List.length_cons]; omega
      have hle : countFields fs es ≤ es.length := by rw [hcnt]; exact List.countP_le_length
      simp only [Fits, len] at hf
      refine ⟨_, rfl, by subst h1; simp only [len]; omega, ?_⟩
      subst h2
      split
      · exact hf.1
      · rename_i hc
        simp only [Bool.or_eq_true, not_or, Bool.not_eq_true] at hc
        simp only [hc.2, Bool.false_or, beq_iff_eq] at h4
        simp only [len]; omega
    | _ => simp [has, hasP] at hi'
  | exactD o w =>
    cases w with
    | arr ws =>
      simp only [Ty.size?, Ty.arrayType?, Option.some.injEq, Prod.mk.injEq] at h
      obtain ⟨rfl, rfl, _⟩ := h
      simp only [has, hasP] at hi'
      obtain ⟨vs, rfl, hf2⟩ := eq_arr hi'
      have := hf2.length_eq
      exact ⟨_, rfl, by simp only [len]; omega, by simp only [len]; omega⟩
    | map ws =>
      simp only [Ty.size?, Ty.arrayType?, Ty.mapType?, Option.some.injEq, Prod.mk.injEq] at h
      obtain ⟨rfl, rfl, _⟩ := h
      simp only [has, hasP] at hi'
      rw [Ty.Ok] at ho
      obtain ⟨es, rfl, bs, hp, hf2⟩ := eq_map ho.2 hw hi'
      have h1 := hf2.length_eq
      have h2 := hp.length_eq
      exact ⟨_, rfl, by simp only [len]; omega, by simp only [len]; omega⟩
    | _ => simp [Ty.size?, Ty.arrayType?, Ty.mapType?] at h
  | _ => simp [Ty.size?, Ty.arrayType?, Ty.mapType?] at h

namespace Ex
/-- the struct type with the required key 97 and other keys, the optional key 98 -/
def st (add : Bool) : Ty := .struct (.user 0) add [(s 97, true, .intT), (s 98, false, .any)]
/-- the tuple type of an integer and a string, that of an integer and then strings -/
def tu (var : Bool) : Ty := .tuple (.user 0) [.intT, .strT] var
end Ex
example : (Ex.st false).size? Ex.E0 = some (1, 2, false) ∧ (Ex.st true).size? Ex.E0 = some (1, maxInt, false) ∧
    (Ex.tu true).size? Ex.E0 = some (1, maxInt, true) ∧ instanceOf Ex.E0 (Ex.st false) (.map [(Ex.s 97, Ex.i 1)]) = true := by decide +kernel
example : Sane (Ex.st true) ∧ (Ex.st true).Acyc ∧ (Ex.st true).Ok := by
  simp [Sane, Ex.st, DistinctKeys, Ex.s, eq, Ty.Acyc, AcycFields, occFields, Ty.occ, Ty.Ok, OkFields, isScalar, Value.WF]

/-- **C77.**  The type of a string, binary, array or map gives the size of that value as `Min` and as `Max`, and is not unbounded. -/
theorem C77_exact (o : Oid) {v : Val} {n : Int} (h : sizeOf? v = some n) : (typeOf o v).size? E = some (n, n, false) := by
  cases v <;> simp only [sizeOf?, reduceCtorEq, Option.some.injEq] at h <;> subst h <;> rfl
example : sizeOf? (.map [(Ex.s 97, Ex.i 1)]) = some 1 := rfl

/-- **C77.**  Violated: a case insensitive string type gives the length of its own text as `Min` and `Max`, but accepts the Kelvin sign for "k", which takes
three bytes. -/
theorem C77_ci_violated (h : E.fold [0x6b] [0xe2, 0x84, 0xaa] = true) : ∃ (t : Ty) (v : Val) (n : Int), t.size? E = some (1, 1, false) ∧
    instanceOf E t v = true ∧ sizeOf? v = some n ∧ n = 3 :=
  ⟨.ciStr [0x6b], .str [0xe2, 0x84, 0xaa], 3, rfl, by rw [instanceOf_has (by simp [Ty.Acyc])]; simp [has, hasP, h], rfl, rfl⟩

/-- **C77.**  A type of arrays that is neither exact nor a tuple type accepts the arrays with a size from `Min` to `Max` and with elements that are
instances of `ElementType`, and nothing else. -/
theorem C77_array {t : Ty} (ht : t = .arrT ∨ ∃ o e a b, t = .sizedArr o e a b) (ha : t.Acyc) {lo hi : Int} {u : Bool} {e : Ty}
    (h : t.size? E = some (lo, hi, u)) (he : t.elementType E = some e) {v : Val} (hf : Fits v) :
    instanceOf E t v = true ↔ ∃ vs, v = .arr vs ∧ lo ≤ vs.length ∧ vs.length ≤ hi ∧ ∀ x ∈ vs, instanceOf E e x = true := by
  rw [instanceOf_has ha]
  rcases ht with rfl | ⟨o, e', a, b, rfl⟩
  · simp only [Ty.size?, Ty.arrayType?, Option.some.injEq, Prod.mk.injEq] at h
    simp only [Ty.elementType, Ty.arrayType?, Option.map_some, Option.some.injEq] at he
    obtain ⟨rfl, rfl, _⟩ := h
    subst he
    have hany : ∀ x, instanceOf E .any x = true := fun x => by rw [instanceOf_has (by simp [Ty.Acyc])]; simp [has, hasP]
    cases v <;> simp [has, hasP, hany]
    simpa [Fits, len] using hf.1
  · simp only [Ty.size?, Ty.arrayType?, Option.some.injEq, Prod.mk.injEq] at h
    simp only [Ty.elementType, Ty.arrayType?, Option.map_some, Option.some.injEq] at he
    obtain ⟨rfl, rfl, _⟩ := h
    subst he
    have hae : e'.Acyc := by rw [Ty.Acyc] at ha; exact ha.2
    rw [has_sizedArr E]
    simp only [instanceOf_has hae]
    rfl
example : (Ty.sizedArr (.user 0) .intT 1 2).Acyc ∧ (Ty.sizedArr (.user 0) .intT 1 2).size? Ex.E0 = some (1, 2, false) :=
  ⟨by simp [Ty.Acyc, Ty.occ], by decide +kernel⟩

/-- **C77.**  The same for types of maps. -/
theorem C77_map {t : Ty} (ht : t = .mapT ∨ ∃ o k e a b, t = .sizedMap o k e a b) (ha : t.Acyc) {lo hi : Int} {u : Bool} {k e : Ty}
    (h : t.size? E = some (lo, hi, u)) (hk : t.keyType = some k) (he : t.valueType = some e) {v : Val} (hf : Fits v) :
    instanceOf E t v = true ↔ ∃ es, v = .map es ∧ lo ≤ es.length ∧ es.length ≤ hi ∧
      ∀ x ∈ es, instanceOf E k x.1 = true ∧ instanceOf E e x.2 = true := by
  rw [instanceOf_has ha]
  rcases ht with rfl | ⟨o, k', e', a, b, rfl⟩
  · simp only [Ty.size?, Ty.arrayType?, Ty.mapType?, Option.some.injEq, Prod.mk.injEq] at h
    simp only [Ty.keyType, Ty.valueType, Ty.mapType?, Option.map_some, Option.some.injEq] at hk he
    obtain ⟨rfl, rfl, _⟩ := h
    subst he hk
    have hany : ∀ x, instanceOf E .any x = true := fun x => by rw [instanceOf_has (by simp [Ty.Acyc])]; simp [has, hasP]
    cases v <;> simp [has, hasP, hany]
    simpa [Fits, len] using hf.1
  · simp only [Ty.size?, Ty.arrayType?, Ty.mapType?, Option.some.injEq, Prod.mk.injEq] at h
    simp only [Ty.keyType, Ty.valueType, Ty.mapType?, Option.map_some, Option.some.injEq] at hk he
    obtain ⟨rfl, rfl, _⟩ := h
    subst he hk
    rw [Ty.Acyc] at ha
    rw [has_sizedMap E]
    simp only [instanceOf_has ha.2.2.1, instanceOf_has ha.2.2.2]
    rfl
example : (Ty.sizedMap (.user 0) .strT .intT 1 2).Acyc ∧ (Ty.sizedMap (.user 0) .strT .intT 1 2).size? Ex.E0 = some (1, 2, false) :=
  ⟨by simp [Ty.Acyc, Ty.occ], by decide +kernel⟩

/-- **C77.**  Types with no size constraint say so: `Unbounded` means that `Min` is 0 and `Max` is `math.MaxInt64`, and the other way round.  Left
out: tuple types and struct types without entries, for which it is false (`C77_unbounded_violated`). -/
theorem C77_unbounded_partial {t : Ty} (ht : ∀ o ts var, t ≠ .tuple o ts var) (hs : ∀ o add, t ≠ .struct o add [])
    (hx : ∀ o w n, t = .exactD o w → sizeOf? w = some n → n < maxInt) (hx' : ∀ w n, t = .exact w → sizeOf? w = some n → n < maxInt)
    (hci : ∀ s, t = .ciStr s → len s < maxInt) (hl : ∀ o add fs, t = .struct o add fs → len fs < maxInt) {lo hi : Int} {u : Bool}
    (h : t.size? E = some (lo, hi, u)) : u = true ↔ lo = 0 ∧ hi = maxInt := by
  cases t with
  | tuple o ts var => exact absurd rfl (ht o ts var)
  | strT | pattern _ => simp only [Ty.size?, Option.some.injEq, Prod.mk.injEq] at h; obtain ⟨rfl, rfl, rfl⟩ := h; simp
  | sizedStr a b | bin a b =>
    simp only [Ty.size?, Option.some.injEq, Prod.mk.injEq] at h; obtain ⟨rfl, rfl, rfl⟩ := h; simp
  | ciStr s =>
    have := hci s rfl
    simp only [Ty.size?, Option.some.injEq, Prod.mk.injEq] at h; obtain ⟨rfl, rfl, rfl⟩ := h; simp; omega
  | exact w =>
    cases w with
    | str s =>
      have := hx' _ _ rfl rfl
      simp only [Ty.size?, Option.some.injEq, Prod.mk.injEq] at h; obtain ⟨rfl, rfl, rfl⟩ := h; simp [len]; omega
    | bin s =>
      have := hx' _ _ rfl rfl
      simp only [Ty.size?, Option.some.injEq, Prod.mk.injEq] at h; obtain ⟨rfl, rfl, rfl⟩ := h; simp [len]; omega
    | _ => simp [Ty.size?, Ty.arrayType?, Ty.mapType?] at h
  | arrT =>
    simp only [Ty.size?, Ty.arrayType?, Ty.mapType?, Ty.unbounded, Option.some.injEq, Prod.mk.injEq] at h; obtain ⟨rfl, rfl, rfl⟩ := h; simp
  | mapT =>
    simp only [Ty.size?, Ty.arrayType?, Ty.mapType?, Ty.unbounded, Option.some.injEq, Prod.mk.injEq] at h; obtain ⟨rfl, rfl, rfl⟩ := h; simp
  | sizedArr o e a b =>
    simp only [Ty.size?, Ty.arrayType?, Ty.mapType?, Ty.unbounded, Option.some.injEq, Prod.mk.injEq] at h; obtain ⟨rfl, rfl, rfl⟩ := h; simp
  | sizedMap o k e a b =>
    simp only [Ty.size?, Ty.arrayType?, Ty.mapType?, Ty.unbounded, Option.some.injEq, Prod.mk.injEq] at h; obtain ⟨rfl, rfl, rfl⟩ := h; simp
  | struct o add fs =>
    cases fs with
    | nil => exact absurd rfl (hs o add)
    | cons f fs =>
      have := hl o add _ rfl
      simp only [Ty.size?, Ty.arrayType?, Ty.mapType?, Ty.unbounded, Option.some.injEq, Prod.mk.injEq] at h
      obtain ⟨rfl, rfl, rfl⟩ := h
      cases add
      · simp only [Bool.false_and, Bool.false_eq_true, false_iff, List.isEmpty_cons, Bool.or_self, if_false]; omega
      · simp
  | exactD o w =>
    cases w with
    | arr ws =>
      have := hx _ _ _ rfl rfl
      simp only [Ty.size?, Ty.arrayType?, Ty.unbounded, Option.some.injEq, Prod.mk.injEq] at h; obtain ⟨rfl, rfl, rfl⟩ := h; simp [len]; omega
    | map ws =>
      have := hx _ _ _ rfl rfl
      simp only [Ty.size?, Ty.arrayType?, Ty.mapType?, Ty.unbounded, Option.some.injEq, Prod.mk.injEq] at h
      obtain ⟨rfl, rfl, rfl⟩ := h; simp [len]; omega
    | _ => simp [Ty.size?, Ty.arrayType?, Ty.mapType?] at h
  | _ => simp [Ty.size?, Ty.arrayType?, Ty.mapType?] at h
example : ∀ o ts var, Ex.st true ≠ .tuple o ts var := by intro o ts var h; cases h

/-- **C77.**  Violated: a variadic tuple type with a minimal size says that it is unbounded; the struct type without entries gives `math.MaxInt64` as `Max`,
but accepts only the empty map. -/
theorem C77_unbounded_violated : (Ex.tu true).size? Ex.E0 = some (1, maxInt, true) ∧
    (Ty.struct (.user 0) false []).size? Ex.E0 = some (0, maxInt, false) ∧
    ∀ v, instanceOf Ex.E0 (.struct (.user 0) false []) v = true → sizeOf? v = some 0 := by
  refine ⟨by decide +kernel, by decide +kernel, fun v h => ?_⟩
  rw [instanceOf_has (by simp [Ty.Acyc, AcycFields, occFields])] at h
  cases v <;> simp [has, hasP, hasFields, countFields] at h
  rename_i es
  cases es with
  | nil => rfl
  | cons e es => simp at h

/-- **C77.**  The elements of an instance of an array type are instances of `ElementType`, or of an operand of it where that is an `allOf` type.
For exact arrays and tuples with different elements only the latter is true (`C77_element_violated`). -/
theorem C77_element_partial {F : Feat} {t : Ty} (hb : Right F t) (ha : t.Acyc) {e : Ty} (he : t.elementType E = some e) {v : Val}
    (hw : Value.WF v) (hf : Fits v) (hi : instanceOf E t v = true) :
    ∃ vs, v = .arr vs ∧ ∀ x ∈ vs, has E e x = true ∨ ∃ u ∈ anyOperand e, has E u x = true := by
  rw [instanceOf_has ha] at hi
  rw [Ty.elementType, Option.map_eq_some_iff] at he
  obtain ⟨⟨lo, hi', e'⟩, h1, rfl⟩ := he
  obtain ⟨us, fl, hk, hall⟩ := array_kid hb h1
  obtain ⟨vs, rfl, _, _, h⟩ := hall v hw hf hi
  refine ⟨vs, rfl, fun x hx => ?_⟩
  obtain ⟨u, hu, hh⟩ := h x hx
  cases hk with
  | part | typ | any => simp only [List.mem_singleton] at hu; subst hu; exact .inl hh
  | union => exact .inr ⟨u, hu, hh⟩
  | unionVal => exact .inr ⟨u, hu, hh⟩

/-- The tuple type has what is asked; for a struct type see the example of `C26_sound_partial`. -/
example : Right ⟨false, false, false⟩ (Ex.tu false) ∧ (Ex.tu false).Acyc ∧ ((Ex.tu false).elementType Ex.E0).isSome = true := by
  have as : (Ex.tu false).Acyc := by simp [Ex.tu, Ty.Acyc, Acycs, occs, Ty.occ]
  have ms : Made (Ex.tu false) := by simp [Made, Ex.tu, Ty.deep?, every_tuple, every_int, every_str]
  exact ⟨⟨by simp [Ex.tu, Rnode, Apart, Ty.owns, Ty.occ, every_tuple, every_int, every_str], tree_of_made ms as, by simp [Ex.tu, Ty.Ok, Oks]⟩, as, by decide +kernel⟩

/-- **C77.**  The keys and values of an instance of a map type are instances of `KeyType` and `ValueType`, or of an operand of it where that is an
`allOf` type.  Left out: struct types that allow other keys, for which it is false (`C77_element_violated`). -/
theorem C77_entry_partial {F : Feat} {t : Ty} (hb : Right F t) (hadd : F.add = false) (ha : t.Acyc) {k e : Ty} (hk : t.keyType = some k)
    (he : t.valueType = some e) {v : Val} (hw : Value.WF v) (hf : Fits v) (hi : instanceOf E t v = true) :
    ∃ es, v = .map es ∧ ∀ x ∈ es, (has E k x.1 = true ∨ ∃ u ∈ anyOperand k, has E u x.1 = true) ∧
      (has E e x.2 = true ∨ ∃ u ∈ anyOperand e, has E u x.2 = true) := by
  rw [instanceOf_has ha] at hi
  rw [Ty.keyType, Option.map_eq_some_iff] at hk
  rw [Ty.valueType, Option.map_eq_some_iff] at he
  obtain ⟨⟨lo, hi', k', e'⟩, h1, rfl⟩ := hk
  obtain ⟨_, h2, rfl⟩ := he
  rw [h1] at h2
  cases h2
  obtain ⟨us, fl, us', fl', hk, he, hall⟩ := map_kid (E := E) hb hadd h1
  obtain ⟨vs, rfl, _, _, h⟩ := hall v hw hf hi
  have key : ∀ {d : Ty} {us : List Ty} {fl : Bool}, Kid t d us fl → ∀ {x : Val}, (∃ u ∈ us, has E u x = true) →
      has E d x = true ∨ ∃ u ∈ anyOperand d, has E u x = true := by
    intro d us fl hk x ⟨u, hu, hh⟩
    cases hk with
    | part | typ | any => simp only [List.mem_singleton] at hu; subst hu; exact .inl hh
    | union => exact .inr ⟨u, hu, hh⟩
    | unionVal => exact .inr ⟨u, hu, hh⟩
  exact ⟨vs, rfl, fun x hx => ⟨key hk (h x hx).1, key he (h x hx).2⟩⟩

/-- **C77.**  Violated: neither element of the instance of a tuple type is an instance of its `ElementType`; the same for an exact array and its own type;
and a struct type that allows other keys accepts a map with a key that is no instance of `KeyType` or of any operand of it. -/
theorem C77_element_violated :
    (instanceOf Ex.E0 (Ex.tu false) (.arr [Ex.i 1, Ex.s 97]) = true ∧
      ((Ex.tu false).elementType Ex.E0).any (fun e => instanceOf Ex.E0 e (Ex.i 1) || instanceOf Ex.E0 e (Ex.s 97)) = false) ∧
    ((typeOf (.user 0) (.arr [Ex.i 1, Ex.s 97])).elementType Ex.E0).any (fun e => instanceOf Ex.E0 e (Ex.i 1) || instanceOf Ex.E0 e (Ex.s 97)) = false ∧
    instanceOf Ex.E0 (Ex.st true) (.map [(Ex.s 97, Ex.i 1), (Ex.i 7, Ex.i 1)]) = true ∧
    ((Ex.st true).keyType.map anyOperand).any (fun us => us.any fun u => instanceOf Ex.E0 u (Ex.i 7)) = false := by
  decide +kernel

/-- **C77.**  An integer type accepts exactly the integers from `Min` to `Max`, without the end if it is not `Inclusive`. -/
theorem C77_int {t : Ty} {lo hi : BitVec 64} {incl : Bool} (h : t.intBounds = some (lo, hi, incl)) (v : Val) :
    instanceOf E t v = true ↔ ∃ i, v = .int i ∧ lo.toInt ≤ i.toInt ∧ (if incl then i.toInt ≤ hi.toInt else i.toInt < hi.toInt) := by
  cases t with
  | intT =>
    simp only [Ty.intBounds, Option.some.injEq, Prod.mk.injEq] at h
    obtain ⟨rfl, rfl, rfl⟩ := h
    rw [instanceOf_has (by simp [Ty.Acyc])]
    cases v <;> simp [has, hasP]
    rename_i i
    have := i.le_two_mul_toInt
    have := i.two_mul_toInt_lt
    have e1 : minI64.toInt = -2 ^ 63 := by decide
    have e2 : maxI64.toInt = 2 ^ 63 - 1 := by decide
    omega
  | intRange a b c =>
    simp only [Ty.intBounds, Option.some.injEq, Prod.mk.injEq] at h
    obtain ⟨rfl, rfl, rfl⟩ := h
    rw [instanceOf_has (by simp [Ty.Acyc])]
    cases v <;> simp [has, hasP]
    cases c <;> simp [BitVec.sle_iff_toInt_le, BitVec.slt_iff_toInt_lt]
  | exact w =>
    cases w <;> simp only [Ty.intBounds, reduceCtorEq, Option.some.injEq, Prod.mk.injEq] at h
    obtain ⟨rfl, rfl, rfl⟩ := h
    rw [instanceOf_has (by simp [Ty.Acyc])]
    rename_i j
    cases v <;> simp [has, hasP, eq]
    rename_i i
    constructor
    · rintro rfl; omega
    · rintro ⟨h1, h2⟩; exact BitVec.eq_of_toInt_eq (by omega)
  | _ => simp [Ty.intBounds] at h
example : Ex.r15.intBounds = some (1, 5, true) := rfl

/-- **C77.**  A float type accepts exactly the floats from `Min` to `Max`.  Left out: the type of all floats, for which it is false
(`C77_float_violated`). -/
theorem C77_float_partial {t : Ty} (ht : t ≠ .floatT) {lo hi : F64} {incl : Bool} (h : t.floatBounds = some (lo, hi, incl)) (v : Val) :
    instanceOf E t v = true ↔ ∃ f, v = .float f ∧ F64.le lo f = true ∧ (if incl then F64.le f hi else Value.F64.lt f hi) = true := by
  cases t with
  | floatT => exact absurd rfl ht
  | floatRange a b c =>
    simp only [Ty.floatBounds, Option.some.injEq, Prod.mk.injEq] at h
    obtain ⟨rfl, rfl, rfl⟩ := h
    rw [instanceOf_has (by simp [Ty.Acyc])]
    cases v <;> simp [has, hasP]
  | exact w =>
    cases w <;> simp only [Ty.floatBounds, reduceCtorEq, Option.some.injEq, Prod.mk.injEq] at h
    obtain ⟨rfl, rfl, rfl⟩ := h
    rw [instanceOf_has (by simp [Ty.Acyc])]
    rename_i j
    cases v <;> simp [has, hasP, eq]
    rename_i i
    simp only [F64.le, Value.F64.lt, Value.F64.eq]
    cases j.isNaN <;> cases i.isNaN <;> first | (simp; done) | (simp; omega)
  | _ => simp [Ty.floatBounds] at h
example : (Ty.floatRange 0 0x3ff0000000000000 false).floatBounds = some (0, 0x3ff0000000000000, false) := rfl

/-- **C77.**  Violated: the type of all floats accepts the infinities, which are not from `Min` to `Max`. -/
theorem C77_float_violated : Ty.floatT.floatBounds = some (F64.min, F64.max, true) ∧ instanceOf Ex.E0 .floatT (.float 0x7ff0000000000000) = true ∧
    F64.le 0x7ff0000000000000 F64.max = false := by decide +kernel

end Verif.Types
