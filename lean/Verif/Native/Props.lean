import Verif.Native.Lemmas
/-!
# Native values: properties

C99: natives are equal when the Go values are deeply equal; equal natives have the same hash code, and asking for it returns.
C100: native types.
-/
set_option autoImplicit false
namespace Verif.Native

namespace Ex
/-- `type Node struct { Name string; Next *Node; note float64 }` -/
def node (name : UInt8) (next : Option Nat) : G := .struct 1 [(true, .basic 2 (.str [name])), (true, .ptr 3 next), (false, .basic 4 (.float 0))]
/-- The variables 1 and 2 are nodes that point to themselves, 3 and 4 point to 1 and 2, 5 is a node at the end of a list, 6 one that points to it. -/
def heap : Heap
  | 1 => node 97 (some 1)
  | 2 => node 97 (some 2)
  | 3 => node 98 (some 1)
  | 4 => node 98 (some 2)
  | 5 => node 97 none
  | 6 => node 97 (some 5)
  | 7 => .basic 4 (.float 0x7ff8000000000001#64)
  | _ => .uintptr 0
/-- A struct with a slice of ints in a field that is not exported -/
def bag : G := .struct 5 [(false, .slice 6 (some [.basic 7 (.int 1)]))]

theorem node_like {R : Nat → Nat → Prop} (c : UInt8) {p q : Nat} (h : R p q) : Like R (node c (some p)) (node c (some q)) :=
  .struct _ (.cons _ (.basic _ (by simp [Basic.val, Value.eq])) (.cons _ (.ptr _ h) (.cons _ (.basic _ (by decide +kernel)) .nil)))
end Ex

/-! ### C99 -/

/-- **C99, hash codes.**  Natives that are equal, and the other values that deeply equal Go values become, have the same hash code; or asking for it
panics for both, or never returns for both. -/
theorem C99_equal_hash (H : Heap) (a b : G) (h : Equal H a b) :
    (∀ x, HashIs H a x ↔ HashIs H b x) ∧ (HashPanics H a ↔ HashPanics H b) ∧ (HashHangs H a ↔ HashHangs H b) := by
  obtain ⟨R, hR, h⟩ := h
  have key : ∀ n, valueHash H n a = valueHash H n b := fun n =>
    ((fromReflected_like hR n false a b h).bind fun d e hd => hashCode_like hR n d e hd ▸ LikeRes.rfl (P := Eq) (fun _ => rfl) _).eq
  simp only [HashIs, HashPanics, HashHangs, key, implies_true, and_self]

/-- Two lists that differ in where their nodes are -/
example : Equal Ex.heap (.ptr 3 (some 3)) (.ptr 3 (some 4)) :=
  ⟨fun p q => (p = 1 ∧ q = 2) ∨ (p = 3 ∧ q = 4), by
    rintro p q (⟨rfl, rfl⟩ | ⟨rfl, rfl⟩) <;> exact Ex.node_like _ (.inl ⟨rfl, rfl⟩), .ptr _ (.inr ⟨rfl, rfl⟩)⟩

/-- **C99, one hash code.**  A Go value has at most one hash code, and asking for it does one of the three. -/
theorem C99_one_hash (H : Heap) (g : G) :
    (∀ x y, HashIs H g x → HashIs H g y → x = y) ∧ (∀ x, HashIs H g x → ¬ HashPanics H g) ∧
      ((∃ x, HashIs H g x) ∨ HashPanics H g ∨ HashHangs H g) := by
  refine ⟨?_, ?_, ?_⟩
  · rintro x y ⟨n, hn⟩ ⟨m, hm⟩
    rcases Nat.le_total n m with h | h
    · rcases valueHash_le h g with h' | h'
      · rw [hn] at h'; cases h'
      · rw [hn, hm] at h'; cases h'; rfl
    · rcases valueHash_le h g with h' | h'
      · rw [hm] at h'; cases h'
      · rw [hn, hm] at h'; cases h'; rfl
  · rintro x ⟨n, hn⟩ ⟨m, hm⟩
    rcases Nat.le_total n m with h | h
    · rcases valueHash_le h g with h' | h'
      · rw [hn] at h'; cases h'
      · rw [hn, hm] at h'; cases h'
    · rcases valueHash_le h g with h' | h'
      · rw [hm] at h'; cases h'
      · rw [hn, hm] at h'; cases h'
  · by_cases hm : ∀ n, valueHash H n g = .more
    · exact .inr (.inr hm)
    · obtain ⟨n, hn⟩ := Classical.not_forall.mp hm
      cases hv : valueHash H n g with
      | ok x => exact .inl ⟨x, n, hv⟩
      | panic => exact .inr (.inl ⟨n, hv⟩)
      | more => exact absurd hv hn

/-- Different lists have different hash codes. -/
example : ∃ x y, HashIs Ex.heap (.ptr 3 (some 5)) x ∧ HashIs Ex.heap (.ptr 3 (some 6)) y ∧ x ≠ y :=
  ⟨_, _, ⟨9, rfl⟩, ⟨9, rfl⟩, by decide +kernel⟩

/-- **C99, returning.**  The hash code of a value without cycles, without a `uintptr` and without natives in slices is returned.  Missing: the others,
for which it is not, see `C99_returns_violated`. -/
theorem C99_returns_partial (H : Heap) (g : G) (h : Hashable H false g) : ∃ x, HashIs H g x := by
  obtain ⟨n, d, x, hd, hx⟩ := h.good
  exact ⟨x, n, by simp only [valueHash, hd, Res.bind, hx]⟩

example : Hashable Ex.heap false (.ptr 3 (some 6)) :=
  .ptr _ _ _ (.struct _ _ (.cons _ _ (.basic _ _ _) (.cons _ _
    (.ptr _ _ _ (.struct _ _ (.cons _ _ (.basic _ _ _) (.cons _ _ (.nil _ _) (.cons _ _ (.basic _ _ _) (.nil _))))))
    (.cons _ _ (.basic _ _ _) (.nil _)))))
example : Hashable Ex.heap false (.slice 8 (some [.basic 2 (.str [97]), .func 9 77, .slice 6 none])) :=
  .slice _ _ (.cons _ (.basic _ _ _) (.basic _ _) (.cons _ (.func _ _ _) (.func _ _ _) (.cons _ (.nilSlice _ _) (.slice _ _ _) (.nil _))))

/-- A list that ends in itself has no hash code: asking for it uses up the stack. -/
theorem hangs (n : Nat) : valueHash Ex.heap n (.ptr 3 (some 1)) = .more := by
  have key : ∀ n, hashCode Ex.heap n (.native false (.ptr 3 (some 1))) = .more := by
    intro n
    induction n with
    | zero => rfl
    | succ n ih =>
      cases n with
      | zero => rfl
      | succ n =>
        simp only [hashCode.eq_def Ex.heap (n + 1 + 1), Ex.heap, Ex.node, hashLoop]
        have h1 : ∀ v : Basic, (fromReflected Ex.heap (n + 1) (false || !true) (.basic 2 v)).bind (hashCode Ex.heap (n + 1)) = .ok (Value.hash v.val) :=
          fun v => rfl
        have h2 : (fromReflected Ex.heap (n + 1) (false || !true) (.ptr 3 (some 1))).bind (hashCode Ex.heap (n + 1)) = .more := ih
        rw [h1]
        simp only [Res.bind] at h2 ⊢
        simp only [h2]
  cases n with
  | zero => rfl
  | succ n => exact key (n + 1)

/-- **C99, violated.**  Asking for the hash code of a pointer in a cycle never returns, although such pointers can be compared; that of a `uintptr`
panics; and that of a struct with a slice in a field that is not exported panics, too. -/
theorem C99_returns_violated :
    HashHangs Ex.heap (.ptr 3 (some 1)) ∧ Equal Ex.heap (.ptr 3 (some 1)) (.ptr 3 (some 2)) ∧ HashPanics Ex.heap (.uintptr 5) ∧
      HashPanics Ex.heap Ex.bag :=
  ⟨hangs, ⟨fun p q => p = 1 ∧ q = 2, by rintro p q ⟨rfl, rfl⟩; exact Ex.node_like _ ⟨rfl, rfl⟩, .ptr _ ⟨rfl, rfl⟩⟩, ⟨3, rfl⟩, ⟨9, rfl⟩⟩

/-- **C99, equivalence.**  Equality of natives is symmetric and transitive. -/
theorem C99_symm_trans (H : Heap) (a b c : G) : (Equal H a b → Equal H b a) ∧ (Equal H a b → Equal H b c → Equal H a c) :=
  ⟨DeepEq.symm, DeepEq.trans⟩

example : Equal Ex.heap (.ptr 3 (some 4)) (.ptr 3 (some 3)) :=
  (C99_symm_trans _ _ _ (.uintptr 0)).1 ⟨fun p q => (p = 1 ∧ q = 2) ∨ (p = 3 ∧ q = 4), by
    rintro p q (⟨rfl, rfl⟩ | ⟨rfl, rfl⟩) <;> exact Ex.node_like _ (.inl ⟨rfl, rfl⟩), .ptr _ (.inr ⟨rfl, rfl⟩)⟩

/-- **C99, reflexivity.**  A native is equal to itself exactly if there is no NaN and no function in it, other than nil and behind pointers.  Missing:
the others. -/
theorem C99_refl_partial (H : Heap) (g : G) : Equal H g g ↔ Comparable g :=
  ⟨fun ⟨_, _, h⟩ => h.comparable, fun h => ⟨fun _ _ => False, fun _ _ h => h.elim, h.refl _⟩⟩

example : Comparable (.array 10 [Ex.node 97 (some 1), .ptr 11 (some 7)]) :=
  .array _ (.cons (.struct _ (.cons _ (.basic _ (by simp [Basic.val, Value.eq])) (.cons _ (.ptr _ _) (.cons _ (.basic _ (by decide +kernel)) .nil))))
    (.cons (.ptr _ _) .nil))

/-- **C99, violated.**  A struct with a function in it is not equal to itself. -/
theorem C99_refl_violated : ∃ (H : Heap) (g : G), (∃ x, HashIs H g x) ∧ ¬ Equal H g g :=
  ⟨Ex.heap, .struct 12 [(true, .func 13 5)], ⟨_, 3, rfl⟩, fun ⟨_, _, h⟩ => by
    cases h with
    | struct _ h =>
      cases h with
      | cons _ h => cases h⟩

/-! ### C100 -/

/-- Go's types: those without a name are determined by their underlying type, and so are what interfaces there are and their methods. -/
def Coherent (ts : List GoType) : Prop :=
  ∀ a ∈ ts, ∀ b ∈ ts, a.under = b.under → (a.named = false → b.named = false → a = b) ∧ a.iface = b.iface ∧
    (a.iface = true → ∀ m, m ∈ a.methods ↔ m ∈ b.methods)

namespace Ex
/-- `struct { X int }` -/
def raw : GoType := ⟨1, 1, false, false, [], []⟩
/-- `type A struct { X int }`, with a method `String` -/
def tA : GoType := ⟨2, 1, true, false, [65], [7]⟩
/-- `type B struct { X int }` -/
def tB : GoType := ⟨3, 1, true, false, [66], []⟩
/-- `fmt.Stringer` and `interface { String() string }` -/
def stringer : GoType := ⟨4, 5, true, true, [83], [7]⟩
def rawStringer : GoType := ⟨5, 5, false, true, [], [7]⟩
/-- `interface {}` -/
def any : GoType := ⟨6, 6, false, true, [], []⟩
def types : List GoType := [raw, tA, tB, stringer, rawStringer, any]
end Ex

/-- **C100, what they accept.**  A native type accepts the natives whose Go value can be assigned to a variable of its Go type, and the type without
a Go type accepts all. -/
theorem C100_instance (t : NType) (g : GoType) : instanceOf t g = true ↔ ∀ a, t = some a → Fits g a := by
  cases t with
  | none => simp [instanceOf]
  | some a =>
    simp only [instanceOf, GoType.assignableTo, Fits, Option.some.injEq, forall_eq', Bool.or_eq_true, Bool.and_eq_true, beq_iff_eq, List.all_eq_true,
      List.contains_iff_mem, Bool.not_eq_true', Bool.and_eq_false_iff, or_assoc]

example : instanceOf (some Ex.stringer) Ex.tA = true ∧ instanceOf (some Ex.stringer) Ex.tB = false ∧ instanceOf none Ex.tB = true := by decide +kernel

/-- **C100, own type.**  A native is an instance of its type, and a native type is assignable to itself and to the type without a Go type. -/
theorem C100_own_type (t : NType) (g : GoType) : instanceOf (some g) g = true ∧ assignable t t = true ∧ assignable none t = true := by
  refine ⟨by simp [instanceOf, GoType.assignableTo], ?_, rfl⟩
  cases t with
  | none => rfl
  | some a => simp [assignable, GoType.assignableTo]

example : assignable (some Ex.tA) (some Ex.tB) = false := by decide +kernel

/-- **C100, what is assignable.**  A native type is assignable to the type without a Go type, and to a type with one exactly if it has a Go type too, whose
values can be assigned to variables of that Go type. -/
theorem C100_assignable_iff (t o : NType) : assignable t o = true ↔ ∀ a, t = some a → ∃ b, o = some b ∧ Fits b a := by
  cases t with
  | none => simp [assignable]
  | some a =>
    cases o with
    | none => simp [assignable]
    | some b =>
      have := C100_instance (some a) b
      simp only [instanceOf] at this
      simp [assignable, this]

example : assignable (some Ex.stringer) (some Ex.tA) = true ∧ assignable (some Ex.stringer) none = false ∧ assignable none (some Ex.tA) = true := by
  decide +kernel

/-- **C100, assignability.**  If a type is assignable to another, then all its instances are instances of the other; provided that the Go types of
the instance and the type both have names, or neither, or that the type is an interface.  Missing: the others, for which it is false, see
`C100_assignable_violated`. -/
theorem C100_assignable_partial (ts : List GoType) (hts : Coherent ts) (t : NType) (b g : GoType) (ht : ∀ a, t = some a → a ∈ ts) (hb : b ∈ ts) (hg : g ∈ ts)
    (hn : g.named = b.named ∨ b.iface = true) (h : assignable t (some b) = true) (hi : instanceOf (some b) g = true) : instanceOf t g = true := by
  cases t with
  | none => rfl
  | some a =>
    have ha := ht a rfl
    have h' : instanceOf (some a) b = true := h
    rw [C100_instance] at hi h' ⊢
    rintro _ ⟨⟩
    have hi := hi b rfl
    have h' := h' a rfl
    by_cases hgb : g = b
    · rw [hgb]; exact h'
    · by_cases hbi : b.iface = true
      · have hm : ∀ m ∈ b.methods, m ∈ g.methods := by
          rcases hi with hi | ⟨hi, -⟩ | ⟨-, hi⟩
          · exact absurd hi hgb
          · exact fun m hm => ((hts g hg b hb hi).2.2 ((hts g hg b hb hi).2.1.trans hbi) m).2 hm
          · exact hi
        rcases h' with rfl | ⟨h', -⟩ | ⟨h1, h2⟩
        · exact .inr (.inr ⟨hbi, hm⟩)
        · have := hts b hb a ha h'
          exact .inr (.inr ⟨this.2.1 ▸ hbi, fun m hma => hm m ((this.2.2 hbi m).2 hma)⟩)
        · exact .inr (.inr ⟨h1, fun m hma => hm m (h2 m hma)⟩)
      · have hn : g.named = b.named := hn.resolve_right hbi
        rcases hi with hi | ⟨hi, hx⟩ | ⟨hi, -⟩
        · exact absurd hi hgb
        · rw [hn, or_self] at hx
          exact absurd ((hts g hg b hb hi).1 (hn.trans hx) hx) hgb
        · exact absurd hi hbi

example : Coherent Ex.types ∧ Ex.tA.named = Ex.stringer.named ∧ assignable (some Ex.any) (some Ex.stringer) = true ∧
    instanceOf (some Ex.stringer) Ex.tA = true := by
  refine ⟨?_, by decide +kernel⟩
  intro a ha b hb
  simp only [Ex.types, List.mem_cons, List.not_mem_nil, or_false] at ha hb
  rcases ha with rfl | rfl | rfl | rfl | rfl | rfl <;> rcases hb with rfl | rfl | rfl | rfl | rfl | rfl <;>
    simp [Ex.raw, Ex.tA, Ex.tB, Ex.stringer, Ex.rawStringer, Ex.any]

/-- **C100, violated.**  The type of structs without a name is assignable to the type `A`, and a value of the type `B` is an instance of the former but
not of the latter; assignability is not transitive.  The same with the type `fmt.Stringer`: `A` is assignable to it, and a struct without a name is an
instance of `A` but has no methods. -/
theorem C100_assignable_violated :
    (∃ t b g, assignable (some t) (some b) = true ∧ instanceOf (some b) g = true ∧ instanceOf (some t) g = false ∧
      assignable (some b) (some g) = true ∧ assignable (some t) (some g) = false) ∧
    (∃ t b g, t.iface = true ∧ assignable (some t) (some b) = true ∧ instanceOf (some b) g = true ∧ instanceOf (some t) g = false) :=
  ⟨⟨Ex.tA, Ex.raw, Ex.tB, by decide +kernel⟩, ⟨Ex.stringer, Ex.tA, Ex.raw, by decide +kernel⟩⟩

/-- **C100, equality.**  Native types are equal if they have the same Go type; then they have the same hash code.  Missing: that asking for it returns,
see `C100_hash_violated`. -/
theorem C100_hash_partial (t o : NType) : (typeEq t o = true ↔ t = o) ∧ (typeEq t o = true → typeHash t = typeHash o) ∧
    (t ≠ none → (typeHash t).isSome = true) := by
  refine ⟨by simp [typeEq], fun h => ?_, fun h => ?_⟩
  · rw [typeEq, beq_iff_eq] at h; rw [h]
  · cases t with
    | none => exact absurd rfl h
    | some a => rfl

example : typeEq (some Ex.tA) (some Ex.tB) = false ∧ typeHash (some Ex.tA) ≠ typeHash (some Ex.tB) := by decide +kernel

/-- **C100, violated.**  Asking the type without a Go type for its hash code panics (so it can't be a key of a map), although it is equal to itself. -/
theorem C100_hash_violated : typeEq none none = true ∧ typeHash none = none := ⟨rfl, rfl⟩

end Verif.Native
