import Verif.Entry.Lemmas
/-!
# C117: entries are alike whatever they are from

"Entries of maps, of structs, of `vf.MapEntry` and of struct types are values with a key and a value.  Two of them are equal if and only if their keys and
their values are, in both directions, and then have one hash code and one type, of which both are instances.  A frozen copy is equal to what it is a copy of
and cannot be changed, and any array of entries can be made a map."

Equality is a preorder that is finer than having the same keys and values, and is that relation where no struct entries are; struct entries make it
asymmetric and are replaced by others when they are copied.  Keys are not frozen.  Only entries that a hash map handed out make a map.
-/
set_option autoImplicit false
namespace Verif.Entry
variable {A : Type} [DecidableEq A]

/-- **C117, in general**: every value is equal to itself, what equals something equal is equal; values that are equal have the same content and the same hash
code; two values are equal both ways if and only if they differ only in what is frozen in them and in which entries are from maps. -/
theorem C117_preorder (h : A → BitVec 64) :
    (∀ x : Val A, equals x x = true) ∧ (∀ x y z : Val A, equals x y = true → equals y z = true → equals x z = true) ∧
    (∀ x y : Val A, equals x y = true → x.content = y.content ∧ hashCode h x = hashCode h y) ∧
    (∀ x y : Val A, equals x y = true ∧ equals y x = true ↔ x.bare = y.bare) :=
  ⟨equals_refl, fun _ _ _ => equals_trans, fun x y e =>
    have c := equals_content e
    ⟨c, by rw [hashCode_content, hashCode_content, c]⟩, fun x y =>
    ⟨fun e => bare_of_equals e.1 e.2, fun e => ⟨equals_of_bare e, equals_of_bare e.symm⟩⟩⟩

example : equals (.entry true (.atom 1) (.arr true [.atom 2])) (.entry false (.atom 1) (.arr false [.atom 2])) = true ∧
    hashCode (fun n => BitVec.ofNat 64 n) (.entry true (.atom 1) (.arr true [.atom 2])) = 32#64 ∧
    equals (.entry true (.atom 1) (.atom 2)) (.entry true (.atom 2) (.atom 1)) = false := by
  simp [equals, sliceEquals, hashCode, hashSlice]

/-- **C117, equality without struct entries**: an entry in which there are none is equal to anything with the same content, whatever map, struct or call it is
from; among such values equality is symmetric.
Missing: struct entries as the receiver or in it (`C117_equal_violated`). -/
theorem C117_equal_partial {x y : Val A} (hx : x.NoStruct) :
    (equals x y = true ↔ x.content = y.content) ∧ (y.NoStruct → equals x y = equals y x) := by
  have h : equals x y = true ↔ x.content = y.content := ⟨equals_content, equals_of_content hx⟩
  refine ⟨h, fun hy => ?_⟩
  have h' : equals y x = true ↔ y.content = x.content := ⟨equals_content, equals_of_content hy⟩
  rw [Bool.eq_iff_iff, h, h']
  exact eq_comm

example : (Val.entry true (.atom 1) (.entry false (.atom 2) (.arr false []))).NoStruct ∧
    equals (.entry true (.atom 1) (.entry false (.atom 2) (.arr false []))) (.entry false (.atom 1) (.entry true (.atom 2) (.arr true []))) = true := by
  simp [Val.NoStruct, AllNoStruct, equals, sliceEquals]

/-- **C117, equality of struct entries**: two of them are equal if and only if the keys, the values and what is required are; an entry is equal to one if key
and value are, and one is never equal to an entry. -/
theorem C117_struct (r r' n : Bool) (k v k' v' : A) :
    (equals (.sentry r k v) (.sentry r' k' v') = true ↔ r = r' ∧ k = k' ∧ v = v') ∧
    (equals (.entry n (.atom k) (.atom v)) (.sentry r' k' v') = true ↔ k = k' ∧ v = v') ∧
    (∀ x y : Val A, equals (.sentry r k v) (.entry n x y) = false) := by
  simp [equals, and_assoc]

example : equals (.sentry true 1 2) (.sentry true 1 2) = true ∧ equals (.sentry true 1 2) (.sentry false 1 2) = false := by simp [equals]

/-- **The claim is false**: an entry equals a struct entry that does not equal it; and the entry equals two that are not equal to one another, although all
three have one hash code. -/
theorem C117_equal_violated : ∃ x y z : Val Nat, equals x y = true ∧ equals y x = false ∧ equals x z = true ∧ equals y z = false ∧
    x.keyValue = y.keyValue ∧ y.keyValue = z.keyValue :=
  ⟨.entry false (.atom 1) (.atom 2), .sentry true 1 2, .sentry false 1 2, by simp [equals, Val.keyValue]⟩

/-- **C117, types**: an entry is an instance of its type, and so is what the `mapEntry` in it is equal to; two types are equal if and only if keys and values
are, whatever is required. -/
theorem C117_type (x y : Val A) (r r' : Bool) (k v k' v' : A) :
    typeInstance x x = true ∧ (equals x y = true → typeInstance x y = true) ∧
    (x.NoStruct → (typeInstance x y = true ↔ x.content = y.content)) ∧
    (typeEquals (.sentry r k v) (.sentry r' k' v') = true ↔ k = k' ∧ v = v') ∧
    (typeInstance (.sentry r k v) (.sentry r' k' v') = true ↔ k = k' ∧ v = v') := by
  have emb : ∀ z : Val A, equals z.embedded z = true := fun z => by
    cases z <;> first | exact equals_refl _ | simp [Val.embedded, equals, equals_refl]
  refine ⟨emb x, fun h => equals_trans (emb x) h, fun hx => ?_, by simp [typeEquals, Val.embedded, equals], by simp [typeInstance, Val.embedded, equals]⟩
  have hc : x.embedded.content = x.content := equals_content (emb x)
  have hn : x.embedded.NoStruct := by
    cases x <;> first | exact hx | simp [Val.NoStruct] at hx ⊢ <;> exact hx
  rw [typeInstance, ← hc]
  exact (C117_equal_partial hn).1

/-- **The claim is false**: a required and an optional entry are not equal, and their types are; each is an instance of the type of the other. -/
theorem C117_type_violated : ∃ x y : Val Nat, equals x y = false ∧ typeEquals x y = true ∧ typeInstance x y = true ∧ typeInstance y x = true :=
  ⟨.sentry true 1 2, .sentry false 1 2, by simp [typeEquals, typeInstance, Val.embedded, equals]⟩

example : typeInstance (.entry true (.atom 1) (.atom 2)) (.entry false (.atom 1) (.atom 2)) = true ∧
    typeInstance (.entry true (.atom 1) (.atom 2)) (.entry false (.atom 1) (.atom 3)) = false := by
  simp [typeInstance, Val.embedded, equals]

/-- **C117, frozen copies**: every frozen copy says that it is frozen, has the content of the original and equals it.  If there are no struct entries the
original equals the copy; if the keys cannot be changed then nothing in the copy can, and a value is frozen if and only if nothing in it can be changed.
Missing: struct entries (`C117_copy_violated`) and keys (`C117_key_violated`). -/
theorem C117_copy_partial (x : Val A) :
    frozen (frozenCopy x) = true ∧ (frozenCopy x).content = x.content ∧ equals (frozenCopy x) x = true ∧
    (x.NoStruct → equals x (frozenCopy x) = true) ∧ (x.KeysImmutable → (frozenCopy x).Immutable ∧ (frozen x = true ↔ x.Immutable)) :=
  ⟨frozenCopy_frozen x, frozenCopy_content x, equals_frozenCopy x,
    fun h => (C117_equal_partial h).1.2 (frozenCopy_content x).symm,
    fun h => ⟨(frozenCopy_keys h).2, frozen_immutable h, immutable_frozen⟩⟩

example : frozenCopy (.arr false [.entry true (.atom 1) (.arr false [.atom 2])]) = .arr true [.entry true (.atom 1) (.arr true [.atom 2])] ∧
    (Val.arr false [.entry true (.atom 1) (.arr false [.atom 2])]).KeysImmutable := by
  simp [frozenCopy, frozenCopies, frozen, Val.KeysImmutable, AllKeysImmutable, Val.Immutable]

/-- **The claim is false**: the frozen copy of an entry whose key is a mutable array says that it is frozen, and the key is that array.  The same holds for
what `vf.Values` makes of it. -/
theorem C117_key_violated : ∃ x : Val Nat, frozen x = true ∧ frozenCopy x = x ∧ ¬ x.Immutable ∧ frozen (values [x]) = true ∧ ¬ (values [x]).Immutable :=
  ⟨.entry false (.arr false []) (.atom 1), by simp [frozen, frozenCopy, Val.Immutable, values, frozenCopies, AllImmutable]⟩

/-- **The claim is false**: the frozen copy of a struct entry is no struct entry, so that the original does not equal it, and is not found in the array that
`vf.Values` makes of it. -/
theorem C117_copy_violated (r : Bool) (k v : A) : equals (.sentry r k v) (frozenCopy (.sentry r k v)) = false ∧
    ∃ es, values [.sentry r k v] = .arr true es ∧ indexOf (.sentry r k v) 0 es = -1 :=
  ⟨by simp [frozenCopy, Val.embedded, equals], _, rfl, by simp [frozenCopies, frozenCopy, Val.embedded, indexOf, equals]⟩

/-- **C117, looking for values**: in the array that `vf.Values` makes of values a value without struct entries is found if and only if one of them has the same
content; in particular each of them is. -/
theorem C117_values (vs : List (Val A)) (x : Val A) (hx : x.NoStruct) :
    ∃ es, values vs = .arr true es ∧ (0 ≤ indexOf x 0 es ↔ ∃ v ∈ vs, v.content = x.content) := by
  refine ⟨_, rfl, ?_⟩
  rw [indexOf_found (Int.le_refl 0), frozenCopies_eq]
  constructor
  · rintro ⟨e, he, h⟩
    obtain ⟨v, hv, rfl⟩ := List.mem_map.1 he
    exact ⟨v, hv, by rw [equals_content h, frozenCopy_content]⟩
  · rintro ⟨v, hv, h⟩
    exact ⟨frozenCopy v, List.mem_map.2 ⟨v, hv, rfl⟩, (C117_equal_partial hx).1.2 (by rw [frozenCopy_content, h])⟩

example : values [.sentry true 1 2, .entry true (.atom 1) (.atom 3)] = .arr true [.entry false (.atom 1) (.atom 2), .entry true (.atom 1) (.atom 3)] ∧
    indexOf (.entry false (.atom 1) (.atom 3)) 0 [.entry false (.atom 1) (.atom 2), .entry true (.atom 1) (.atom 3)] = 1 := by
  simp [values, frozenCopies, frozenCopy, frozen, Val.embedded, indexOf, equals]

/-- **C117, maps from entries**: entries that a map handed out, and frozen copies of them, make a map with their keys and values in their order.
Missing: all other entries (`C117_to_map_violated`). -/
theorem C117_to_map_partial (kvs : List (Val A × Val A)) :
    toMapFromEntries (kvs.map fun p => .entry true p.1 p.2) = some kvs ∧
    ∃ ws, toMapFromEntries (frozenCopies (kvs.map fun p => .entry true p.1 p.2)) = some ws ∧ ws.map (·.1) = kvs.map (·.1) ∧
      ws.map (·.2.content) = kvs.map (·.2.content) := by
  induction kvs with
  | nil => simp [toMapFromEntries, frozenCopies]
  | cons p kvs ih =>
    obtain ⟨ih1, ws, ih2, ih3, ih4⟩ := ih
    have hp : ∃ v, frozenCopy (.entry true p.1 p.2) = .entry true p.1 v ∧ v.content = p.2.content := by
      have hc := frozenCopy_content (.entry true p.1 p.2)
      rw [frozenCopy] at hc ⊢
      split
      · exact ⟨_, rfl, rfl⟩
      · exact ⟨_, rfl, frozenCopy_content _⟩
    obtain ⟨v, hv, hvc⟩ := hp
    refine ⟨by rw [List.map_cons, toMapFromEntries, ih1]; rfl, (p.1, v) :: ws, ?_, by simp [ih3], by simp [ih4, hvc]⟩
    rw [List.map_cons, frozenCopies, hv, toMapFromEntries, ih2]; rfl

example : toMapFromEntries [.entry true (.atom 1) (.atom 2), .arr false [.atom 3, .atom 4]] = some [(.atom 1, .atom 2), (.atom 3, .atom 4)] := by
  simp [toMapFromEntries]

/-- **The claim is false**: an array with any other entry, of `vf.MapEntry`, of a struct or of a struct type, makes no map. -/
theorem C117_to_map_violated (es : List (Val A)) (k v : Val A) (r : Bool) (k' v' : A) :
    (.entry false k v ∈ es → toMapFromEntries es = none) ∧ (.sentry r k' v' ∈ es → toMapFromEntries es = none) :=
  ⟨fun h => toMap_none h rfl, fun h => toMap_none h rfl⟩

example : toMapFromEntries [.entry false (.atom 1) (.atom 2)] = none := by simp [toMapFromEntries]

end Verif.Entry
