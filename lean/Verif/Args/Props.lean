import Verif.Args.Lemmas
/-!
# Arguments are arrays, and where they are not

Theorems for C115 in properties.jsonl.
-/
set_option autoImplicit false
set_option linter.unusedSectionVars false
namespace Verif.Args
open Verif.Arr
variable {A : Type} [DecidableEq A]

/-- Values of examples: an array, or arguments, of numbers -/
def nums (p : Nat) (k : Bool) (l : List Nat) : Val Nat := .arr p k (l.map .atom)

/-- **Equality, asked of arguments**: `args.Equals(y)`, and likewise with arguments inside of the receiver, is true exactly if `y` has the same content; if there
are no arguments in `y`. -/
theorem C115_equal_partial {heap : Nat → List (Val A)} {x y : Val A} (hx : x.On heap) (hy : y.On heap) (hp : y.Plain) :
    x.Equals y = true ↔ x.content = y.content := by
  rw [← inner_content x]
  exact ⟨equals_content (inner_on hx) hy, equals_of_content hp⟩

example : (nums 0 true [1, 2]).Equals (nums 1 false [1, 2]) = true ∧ (nums 1 false [1, 2]).Equals (nums 0 true [1, 2]) = false ∧
    (nums 0 true [1, 2]).Equals (nums 1 false [1, 3]) = false := by decide +kernel

/-- **Equality, exactly**: where no array is part of both values, `x.Equals(y)` is true if the contents are the same and there are no arguments in `y`. -/
theorem C115_equal_iff {heap : Nat → List (Val A)} {x y : Val A} (hx : x.On heap) (hy : y.On heap) (hd : ∀ p ∈ x.addrs, p ∉ y.addrs) :
    x.Equals y = true ↔ x.content = y.content ∧ y.Plain := by
  constructor
  · intro h
    exact ⟨by rw [← inner_content x]; exact equals_content (inner_on hx) hy h, equals_plain (by rwa [inner_addrs]) h⟩
  · rintro ⟨h, hp⟩
    exact (C115_equal_partial hx hy hp).2 h

example : (Val.arr 5 false [nums 0 true [1]]).Equals (.arr 6 false [nums 1 false [1]]) = true ∧
    (Val.arr 5 false [nums 0 false [1]]).Equals (.arr 6 false [nums 1 true [1]]) = false := by decide +kernel

/-- **The claim is false**: nothing is equal to arguments, not even the arguments themselves, so they are not found with `IndexOf` in an array they are in. -/
theorem C115_itself_violated (x y : Val A) (hy : y.IsArgs) : x.Equals y = false ∧ ∀ es, indexOf x es = none ∨ ∃ i e, indexOf x es = some i ∧
    es[i]? = some e ∧ ¬e.IsArgs := by
  have h0 : ∀ y : Val A, y.IsArgs → x.Equals y = false := by
    intro y hy
    match y, hy with
    | .arr q true fs, _ =>
      cases x with
      | atom a => simp [Val.Equals, Val.inner, equals, Val.same]
      | arr p k es => simp [Val.Equals, Val.inner, equals_arr]
  refine ⟨h0 y hy, fun es => ?_⟩
  induction es with
  | nil => exact .inl rfl
  | cons e es ih =>
    rw [indexOf]
    split
    · next h =>
      refine .inr ⟨0, e, rfl, rfl, fun ha => ?_⟩
      rw [h0 e ha] at h; cases h
    · rcases ih with h | ⟨i, f, h, hf, ha⟩
      · left; rw [h]; rfl
      · right; exact ⟨i + 1, f, by rw [h]; rfl, hf, ha⟩

example : (nums 0 true [1, 2]).Equals (nums 0 true [1, 2]) = false ∧ indexOf (nums 0 true [1, 2]) [nums 3 false [], nums 0 true [1, 2]] = none := by
  decide +kernel

/-- **Hash codes** are those of the content. -/
theorem C115_hash (h : A → BitVec 64) {x y : Val A} (e : x.content = y.content) : hashCode h x = hashCode h y := hash_content e

example : hashCode (BitVec.ofNat 64) (nums 0 true [1, 2]) = hashCode (BitVec.ofNat 64) (nums 7 false [1, 2]) ∧
    hashCode (BitVec.ofNat 64) (nums 0 true [1, 2]) ≠ hashCode (BitVec.ofNat 64) (nums 7 false [2, 1]) := by decide +kernel

/-- **No order**: nothing can be compared to arguments. -/
theorem C115_compare_violated (c : A → A → Option Int) (x y : Val A) (hy : y.IsArgs) : x.CompareTo c y = none := by
  match y, hy with
  | .arr q true fs, _ =>
    cases x with
    | atom a => simp [Val.CompareTo, Val.inner, compare]
    | arr p k es => simp [Val.CompareTo, Val.inner, compare, Val.same]

example : (nums 0 true [1, 2]).CompareTo (fun (a b : Nat) => some ((a : Int) - (b : Int))) (nums 1 false [1, 3]) = some (-1) ∧
    (nums 1 false [1, 3]).CompareTo (fun (a b : Nat) => some ((a : Int) - (b : Int))) (nums 0 true [1, 2]) = none := by decide +kernel

/-- **Types**: without arguments in it, a value is an instance of a type of arrays exactly if its content is what the type means, and of the type of `x` exactly if
it has the same content as `x`; also if `x` is arguments. -/
theorem C115_instance_partial {v : Val A} (hp : v.Plain) (t : Ty A) (x : Val A) :
    (inst t v = true ↔ t.Means v.content) ∧ (exactInst x v = true ↔ x.content = v.content) :=
  ⟨inst_iff t hp, exactInst_iff hp⟩

example : inst (.sized (.atom (· < 5)) 1 2) (nums 0 false [1, 2]) = true ∧ inst (.tuple [.atom (· < 5), .any] true) (nums 0 false [1]) = true ∧
    inst (.tuple [.atom (· < 5), .any] true) (nums 0 false []) = false ∧ exactInst (nums 1 true [1, 2]) (nums 0 false [1, 2]) = true := by
  refine ⟨?_, ?_, ?_, by decide +kernel⟩ <;> simp [inst, instAll, instTuple, nums]

/-- **The claim is false**: arguments are instances of `any` and `[]any` and of no other type of arrays, so not of a type that has limits or types for their
elements, and not of their own type. -/
theorem C115_instance_violated {v : Val A} (hv : v.IsArgs) (t : Ty A) (x : Val A) :
    (inst t v = true ↔ t = .any ∨ t = .arrays) ∧ exactInst x v = false := by
  match v, hv with
  | .arr q true fs, _ =>
    refine ⟨?_, by cases x <;> simp [exactInst]⟩
    cases t <;> simp [inst]

example : inst (.sized .any 0 100) (nums 0 true [1, 2]) = false ∧ inst .arrays (nums 0 true [1, 2]) = true ∧
    exactInst (nums 0 true [1, 2]) (nums 0 true [1, 2]) = false := by
  refine ⟨?_, ?_, by decide +kernel⟩ <;> simp [inst, nums]

/-- **As arguments of methods** they are what the array would be: `AddAll`, `WithAll` and `ContainsAll` take the same elements from them. -/
theorem C115_uses (a es : List (Val A)) (p q : Nat) :
    addAll a (.arr p true es) = a ++ es ∧ addAll a (.arr q false es) = a ++ es ∧
    containsAll a (.arr p true es) = containsAll a (.arr q false es) ∧ (containsAll a (.arr p true es)).isSome = true := by
  have h : sliceFromIterable (iterOf es) = some (es.map some) := by
    have := fill_some es [] es.length (Nat.le_refl _)
    simpa [sliceFromIterable, iterOf] using this
  refine ⟨addAll_eq .., addAll_eq .., ?_, ?_⟩
  · simp [containsAll, h]
  · simp only [containsAll, h, if_true]
    split
    · rfl
    · split <;> rfl

example : containsAll [.atom 1, .atom 2] (nums 0 true [2, 1]) = some true ∧ containsAll [.atom 1, .atom 2] (nums 0 true [1, 3]) = some false ∧
    addAll [.atom 1] (.arr 0 true [nums 2 true []]) = addAll [.atom 1] (.arr 0 false [nums 2 true []]) := by
  refine ⟨by decide +kernel, by decide +kernel, rfl⟩

/-- **Iterables in general**: what is taken from an iterable is what its `Each` gives, with Go nils behind it if that is less than its `Len`; it panics exactly if it is
more. -/
theorem C115_iterable {V : Type} (it : Iter V) :
    (it.each.length ≤ it.len → sliceFromIterable it = some (it.each.map some ++ List.replicate (it.len - it.each.length) none)) ∧
    (it.len < it.each.length → sliceFromIterable it = none) := by
  constructor
  · intro h
    have := fill_some it.each [] it.len h
    simpa [sliceFromIterable] using this
  · intro h
    exact fill_none _ _ _ (Nat.zero_le _) (by simpa using h)

example : sliceFromIterable ⟨3, [7, 8]⟩ = some [some 7, some 8, none] ∧ sliceFromIterable ⟨1, [7, 8]⟩ = none := by decide +kernel

/-- **Flatten** gives the values that are no arrays, in order; if there are no arguments in the array. -/
theorem C115_flatten_partial {es : List (Val A)} (hp : ∀ e ∈ es, e.Plain) : flatten es = (leavesAll (es.map Val.content)).map .atom := by
  rw [flatten, flattenElements_eq _ _ ((allPlain_iff es).2 hp), contents_eq_map]; rfl

example : flatten [.atom 1, .arr 0 false [.atom 2, nums 1 false [3]], .atom 4] = [.atom 1, .atom 2, .atom 3, .atom 4] := rfl

/-- **The claim is false**: arguments that are elements are elements of the result of `Flatten`, and are no entries for `ToMapFromEntries`. -/
theorem C115_elements_violated {es : List (Val A)} {x : Val A} (h : x ∈ es) (hx : x.IsArgs) : x ∈ flatten es ∧ entries es = none := by
  refine ⟨flattenElements_mem [] es x (.inr ⟨h, hx⟩), ?_⟩
  induction es with
  | nil => cases h
  | cons e es ih =>
    rcases List.mem_cons.1 h with rfl | hm
    · match x, hx with
      | .arr p true fs, _ => simp [entries]
    · unfold entries
      split
      · next he => cases he
      · next he => cases he; rw [ih hm]; rfl
      · rfl

example : entries [nums 0 false [1, 2], nums 1 false [3, 4]] = some [(.atom 1, .atom 2), (.atom 3, .atom 4)] ∧
    entries [nums 0 false [1, 2], nums 1 true [3, 4]] = none ∧ flatten [nums 0 false [1, 2], nums 1 true [3]] = [.atom 1, .atom 2, nums 1 true [3]] :=
  ⟨rfl, rfl, rfl⟩

/-- **AssertSize and Arg**: the one returns exactly if the number of arguments is within the limits, the other exactly if there is such an argument of the type, and gives
that. -/
theorem C115_arg (es : List (Val A)) (min max : Nat) (n : Int) (t : Ty A) (v : Val A) :
    (assertSize es min max = true ↔ min ≤ es.length ∧ es.length ≤ max) ∧
    (arg es n t = some v ↔ ∃ i : Nat, n = i ∧ es[i]? = some v ∧ inst t v = true) := by
  constructor
  · simp [assertSize]
  · unfold arg
    by_cases hn : n < 0
    · rw [if_pos hn]
      simp only [reduceCtorEq, false_iff]
      rintro ⟨i, rfl, _⟩
      omega
    · rw [if_neg hn]
      obtain ⟨i, rfl⟩ : ∃ i : Nat, n = i := ⟨n.toNat, by omega⟩
      simp only [Int.toNat_natCast]
      constructor
      · intro h
        split at h
        · cases h
        · next u hu =>
          split at h
          · next ht => cases h; exact ⟨i, rfl, hu, ht⟩
          · cases h
      · rintro ⟨j, hj, hv, ht⟩
        have : i = j := by omega
        subst this
        rw [hv]; simp [ht]

example : assertSize [.atom 1, .atom 2] 1 2 = true ∧ assertSize [.atom 1, .atom 2] 3 4 = false ∧ arg [.atom 1, .atom 9] 1 (.atom (· < 10)) = some (.atom 9) ∧
    arg [.atom 1, .atom 9] 1 (.atom (· < 5)) = none ∧ arg [.atom 1, .atom 9] 2 .any = none := by
  refine ⟨rfl, rfl, ?_, ?_, ?_⟩ <;> simp [arg, inst]

section
variable {V : Type} [ElemOps V] {grow : Nat → Nat → Nat}

/-- Calls that do not extend an array in place (C13), and `ArgumentsFromArray` of frozen arrays -/
def SafeCalls (grow : Nat → Nat → Nat) (w : World V) : List (Call V) → Prop
  | [] => True
  | c :: cs =>
    (match c with
      | .op o => Safe w o
      | .args a => ∀ l f, view w a = some (l, f) → f = true) ∧ SafeCalls grow (call grow w c).2 cs

/-- **Frozen arguments never change**: in all programs of these calls an array, or arguments, that are frozen have the same elements from then on; and the arguments
made from an array have the elements of the array. -/
theorem C115_frozen_partial {cs : List (Call V)} (h0 : SafeCalls grow World.init cs) :
    (∀ a l f, view (calls grow World.init cs) a = some (l, f) →
      view (fromArray (calls grow World.init cs) a).2 (calls grow World.init cs).arrs.length = some (l, f)) ∧
    ∀ (a : Nat) (l : List (Option V)), view (calls grow World.init cs) a = some (l, true) →
    ∀ ds, SafeCalls grow (calls grow World.init cs) ds → view (calls grow (calls grow World.init cs) ds) a = some (l, true) := by
  have step : ∀ (w : World V) (c : Call V), Sep w → (match c with
      | .op o => Safe w o
      | .args a => ∀ l f, view w a = some (l, f) → f = true) →
      Sep (call grow w c).2 ∧ ∀ (a : Nat) (l : List (Option V)), view w a = some (l, true) → view (call grow w c).2 a = some (l, true) := by
    intro w c hw hs
    match c with
    | .args b =>
      have := fromArray_sep hw (a := b) (fun g hg => hs (Arr.read w.stores g.sl) g.frozen (by simp [view, hg]))
      refine ⟨this.1, fun a l h => ?_⟩
      obtain ⟨g, hg, _, _⟩ := view_some h
      exact (this.2 a (List.getElem?_eq_some_iff.1 hg).1).trans h
    | .op op =>
      obtain ⟨h1, h2⟩ := exec_sep (grow := grow) hw op hs
      refine ⟨h1, fun a l h => ?_⟩
      obtain ⟨g, hg, hr, hf⟩ := view_some h
      have hl := (List.getElem?_eq_some_iff.1 hg).1
      by_cases ht : target op = some a
      · have : (exec grow w op).2 = w ∨ op = .freeze a := by
          cases op <;> simp only [target, Option.some.injEq, reduceCtorEq] at ht <;> subst ht <;>
            simp [exec, onMutable, onArr, hg, hf]
        rcases this with e | rfl
        · exact (congrArg (view · a) e).trans h
        · simp only [call, exec, onArr, hg, view]
          rw [List.getElem?_set_self hl]
          simp [hr]
      · exact (h2 a ht hl).trans h
  have run : ∀ (ds : List (Call V)) (w : World V), Sep w → SafeCalls grow w ds → Sep (calls grow w ds) ∧
      ∀ (a : Nat) (l : List (Option V)), view w a = some (l, true) → view (calls grow w ds) a = some (l, true) := by
    intro ds
    induction ds with
    | nil => intro w hw _; exact ⟨hw, fun _ _ h => h⟩
    | cons d ds ih =>
      intro w hw hs
      obtain ⟨h1, h2⟩ := step w d hw hs.1
      obtain ⟨h3, h4⟩ := ih _ h1 hs.2
      exact ⟨h3, fun a l h => h4 a l (h2 a l h)⟩
  refine ⟨fun a l f h => ?_, fun a l h ds hd => ?_⟩
  · obtain ⟨g, hg, hr, hf⟩ := view_some h
    simp [fromArray, onArr, hg, newArr, view, hr, hf]
  · exact (run ds _ (run cs _ init_sep h0).1 hd).2 a l h

end

/-- `vf.Arguments(1, 2)`, and an array made from them -/
example : SafeCalls Ex.dbl World.init [.op (.values true [1, 2]), .args 0, .op (.slice 1 0 1)] ∧
    view (calls Ex.dbl World.init [.op (.values true [1, 2]), .args 0]) 1 = some ([some 1, some 2], true) := by
  refine ⟨⟨trivial, ?_, trivial, trivial⟩, by decide +kernel⟩
  intro l f h
  cases h; rfl

/-- **The claim is false** for arguments made from an array that is not frozen: `args := vf.ArgumentsFromArray(a); args.Freeze(); a.Set(0, 9)` changes the frozen
arguments, while `a.Add(9)` is not seen in arguments that are not frozen. -/
theorem C115_frozen_violated :
    view (calls Ex.dbl World.init [.op (.values false [1, 2]), .args 0, .op (.freeze 1)]) 1 = some ([some 1, some 2], true) ∧
    view (calls Ex.dbl World.init [.op (.values false [1, 2]), .args 0, .op (.freeze 1), .op (.set 0 0 9)]) 1 = some ([some 9, some 2], true) ∧
    view (calls Ex.dbl World.init [.op (.values false [1, 2]), .args 0, .op (.add 0 9)]) 1 = some ([some 1, some 2], false) := by
  decide +kernel

end Verif.Args
