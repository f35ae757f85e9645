import Verif.Arr.Step
import Verif.Value.ListLemmas
/-!
# C12 - C15 (arrays), and the part of C11 about the receiver

Everything is proved for every growth policy of `append`.
-/
set_option linter.unusedSectionVars false
set_option linter.unusedVariables false
set_option autoImplicit false
namespace Verif.Arr
open HMap (KeyOps)

variable {V : Type} [ElemOps V] {grow : Nat → Nat → Nat}

/-- The heaps that programs make. -/
def Reachable (grow : Nat → Nat → Nat) (w : World V) : Prop := ∃ ops, (execAll grow World.init ops).2 = w

/-- Running `ops` from `w` with every call safe at the moment it is made. -/
def SafeRun (grow : Nat → Nat → Nat) (w : World V) : List (Op V) → Prop
  | [] => True
  | op :: ops => Safe w op ∧ SafeRun grow (exec grow w op).2 ops

/-- The heaps that programs make with safe calls only. -/
def SafelyReachable (grow : Nat → Nat → Nat) (w : World V) : Prop :=
  ∃ ops, SafeRun grow World.init ops ∧ (execAll grow World.init ops).2 = w

theorem execAll_bnd {w : World V} (hw : Bnd w) (ops : List (Op V)) : Bnd (execAll grow w ops).2 := by
  induction ops generalizing w with
  | nil => exact hw
  | cons op ops ih => exact ih (exec_bnd hw op)

theorem Reachable.bnd {w : World V} (h : Reachable grow w) : Bnd w := by
  obtain ⟨ops, rfl⟩ := h
  exact execAll_bnd init_bnd ops

theorem execAll_sep {w : World V} (hw : Sep w) {ops : List (Op V)} (h : SafeRun grow w ops) : Sep (execAll grow w ops).2 := by
  induction ops generalizing w with
  | nil => exact hw
  | cons op ops ih => exact ih (exec_sep hw op h.1).1 h.2

theorem SafelyReachable.sep {w : World V} (h : SafelyReachable grow w) : Sep w := by
  obtain ⟨ops, h1, rfl⟩ := h
  exact execAll_sep init_sep h1

/-! ### Instances for the examples -/
namespace Ex
instance : ElemOps Nat where
  hash n := BitVec.ofNat 64 n
  eq a b := a == b
  freeze n := n
  thaw n := n
  less a b := a < b
/-- Go doubles the capacity of short slices. -/
def dbl (c n : Nat) : Nat := max n (2 * c)
abbrev run (ops : List (Op Nat)) : World Nat := (execAll dbl World.init ops).2
end Ex

theorem view_some {w : World V} {a : Nat} {l : List (Option V)} {f : Bool} (h : view w a = some (l, f)) :
    ∃ g, w.arrs[a]? = some g ∧ read w.stores g.sl = l ∧ g.frozen = f := by
  unfold view at h
  rw [Option.map_eq_some_iff] at h
  obtain ⟨g, hg, h⟩ := h
  cases h
  exact ⟨g, hg, rfl, rfl⟩

theorem view_setSlice {w : World V} {a : Nat} {g : Obj} {r : Sl × Stores V} (hg : w.arrs[a]? = some g) :
    view (setSlice w a g r) a = some (read r.2 r.1, g.frozen) := by
  have := (List.getElem?_eq_some_iff.1 hg).1
  simp only [view, setSlice]
  rw [List.getElem?_set_self this]
  rfl

theorem view_new {w : World V} {r : Sl × Stores V} {f : Bool} :
    view (newArr w r f).2 w.arrs.length = some (read r.2 r.1, f) := by
  simp only [view, newArr]
  rw [List.getElem?_append_right (Nat.le_refl _)]
  simp

/-! ### C12: mutators of a frozen array -/

/-- A call of one of the mutators of the array `a`. -/
inductive Mutator (a : Nat) : Op V → Prop
  | add (x : V) : Mutator a (.add a x)
  | addAll (b : Nat) : Mutator a (.addAll a b)
  | addValues (xs : List V) : Mutator a (.addValues a xs)
  | insert (pos : Int) (x : V) : Mutator a (.insert a pos x)
  | set (pos : Int) (x : V) : Mutator a (.set a pos x)
  | remove (pos : Int) : Mutator a (.remove a pos)
  | removeValue (x : V) : Mutator a (.removeValue a x)
  | pop : Mutator a (.pop a)

/-- **C12, arrays.**  Every mutator of a frozen array panics and the heap is exactly as before, in every heap. -/
theorem C12_frozen_array_mutators_panic {w : World V} {a : Nat} {l : List (Option V)} (h : view w a = some (l, true))
    {op : Op V} (hm : Mutator a op) : exec grow w op = (.panic, w) := by
  obtain ⟨g, hg, _, hf⟩ := view_some h
  cases hm <;> simp [exec, onMutable, onArr, hg, hf]

example : view (Ex.run [.values true [1, 2]]) 0 = some ([some 1, some 2], true) := by decide +kernel

/-! ### C15: mutators are list operations -/

/-- The call returns `o`, and afterwards the array `a` is still mutable and has the elements `l`. -/
def Gives (grow : Nat → Nat → Nat) (w : World V) (a : Nat) (op : Op V) (o : Out V) (l : List (Option V)) : Prop :=
  (exec grow w op).1 = o ∧ view (exec grow w op).2 a = some (l, false)

theorem gives_append {w : World V} (hw : Bnd w) {a : Nat} {g : Obj} (hg : w.arrs[a]? = some g) (hf : g.frozen = false)
    (xs : List (Option V)) (p : Nat) (hp : p ≤ g.sl.len) :
    view (setSlice w a g (append grow w.stores { g.sl with len := p } xs)) a =
      some ((read w.stores g.sl).take p ++ xs, false) := by
  have hin := hw.arrs a g hg
  have hin' : Inside w.stores { g.sl with len := p } := ⟨hin.1, by have := hin.2; simp only; omega⟩
  have hs := append_spec grow xs hin'
  rw [view_setSlice hg, hf, hs.read, take_read hp]

/-- **C15, adding.**  In every reachable heap, whatever storage arrays share: `Add`, `AddAll` and `AddValues` append. -/
theorem C15_add {w : World V} (hw : Reachable grow w) {a : Nat} {l : List (Option V)} (h : view w a = some (l, false)) :
    (∀ x, Gives grow w a (.add a x) .unit (l ++ [some x])) ∧
    (∀ xs, Gives grow w a (.addValues a xs) .unit (l ++ xs.map some)) ∧
    (∀ b m f, view w b = some (m, f) → Gives grow w a (.addAll a b) .unit (l ++ m)) := by
  obtain ⟨g, hg, rfl, hf⟩ := view_some h
  have hl := read_length (hw.bnd.arrs a g hg)
  have key : ∀ xs, view (setSlice w a g (append grow w.stores g.sl xs)) a = some (read w.stores g.sl ++ xs, false) := by
    intro xs
    have := gives_append (grow := grow) hw.bnd hg hf xs g.sl.len (Nat.le_refl _)
    rwa [List.take_of_length_le (by omega)] at this
  refine ⟨fun x => ⟨?_, ?_⟩, fun xs => ⟨?_, ?_⟩, fun b m f hb => ?_⟩
  · simp [exec, onMutable, onArr, hg, hf]
  · simp only [exec, onMutable, onArr, hg, hf]; exact key _
  · simp [exec, onMutable, onArr, hg, hf]
  · simp only [exec, onMutable, onArr, hg, hf]; exact key _
  · obtain ⟨g', hg', rfl, _⟩ := view_some hb
    constructor
    · simp [exec, onMutable, onArr, hg, hf, hg']
    · simp only [exec, onMutable, onArr, hg, hf, hg']; exact key _

/-- An array is added to itself. -/
example : view (Ex.run [.values false [1, 2], .add 0 3, .addAll 0 0]) 0 =
    some ([some 1, some 2, some 3, some 1, some 2, some 3], false) := by decide +kernel

/-- **C15, Insert.**  At any index up to the length the element is put there; at any other index the call panics and the
heap is as before. -/
theorem C15_insert {w : World V} (hw : Reachable grow w) {a : Nat} {l : List (Option V)} (h : view w a = some (l, false))
    (pos : Int) (x : V) :
    (∀ p : Nat, pos = p → p ≤ l.length → Gives grow w a (.insert a pos x) .unit (l.take p ++ some x :: l.drop p)) ∧
    ((pos < 0 ∨ l.length < pos) → exec grow w (.insert a pos x) = (.panic, w)) := by
  obtain ⟨g, hg, rfl, hf⟩ := view_some h
  have hl := read_length (hw.bnd.arrs a g hg)
  constructor
  · rintro p rfl hp
    have hc : (0 : Int) ≤ p ∧ (p : Int) ≤ g.sl.len := by omega
    constructor
    · simp only [exec, onMutable, onArr, hg, hf, if_pos hc]; rfl
    · simp only [exec, onMutable, onArr, hg, hf, if_pos hc]
      exact gives_append hw.bnd hg hf _ _ (by omega)
  · intro hp
    have hc : ¬ (0 ≤ pos ∧ pos ≤ g.sl.len) := by omega
    simp only [exec, onMutable, onArr, hg, hf, if_neg hc]; rfl

example : view (Ex.run [.values false [1, 2], .add 0 4, .insert 0 2 3]) 0 = some ([some 1, some 2, some 3, some 4], false) ∧
    view (Ex.run [.withCapacity 9, .insert 0 0 3]) 0 = some ([some 3], false) := by decide +kernel

/-- **C15, Set and Get.** -/
theorem C15_set_get {w : World V} (hw : Reachable grow w) {a : Nat} {l : List (Option V)} (h : view w a = some (l, false))
    (pos : Int) (x : V) :
    (∀ (p : Nat) (c : Option V), pos = p → l[p]? = some c →
      Gives grow w a (.set a pos x) (.val c) (l.set p (some x)) ∧ exec grow w (.get a pos) = (.val c, w)) ∧
    ((pos < 0 ∨ l.length ≤ pos) →
      exec grow w (.set a pos x) = (.panic, w) ∧ exec grow w (.get a pos) = (.panic, w)) := by
  obtain ⟨g, hg, rfl, hf⟩ := view_some h
  have hin := hw.bnd.arrs a g hg
  have hl := read_length hin
  constructor
  · rintro p c rfl hp
    have hpl := (List.getElem?_eq_some_iff.1 hp).1
    have hc : (0 : Int) ≤ p ∧ (p : Int) < g.sl.len := by omega
    have h2 := hin.2
    refine ⟨⟨?_, ?_⟩, ?_⟩
    · simp [exec, onMutable, onArr, hg, hf, hc.2, hp]
    · simp only [exec, onMutable, onArr, hg, hf, if_pos hc, view, Int.toNat_natCast, Bool.false_eq_true, if_false,
        Option.map_some]
      congr 2
      have hw' := write_read (st := w.stores) (s := g.sl) (i := p) (xs := [some x]) hin.1 (by omega)
      apply List.ext_getElem?
      intro k
      unfold read write
      rw [storeAt_set_self hin.1]
      by_cases hk : k < g.sl.len
      · rw [List.getElem?_take_of_lt hk, List.getElem?_drop]
        by_cases e : k = p
        · subst e
          rw [List.getElem?_set_self (by rw [List.length_take, List.length_drop]; omega), overwrite,
            List.getElem?_append_left (by simp; omega), List.getElem?_append_right (by simp), List.length_take,
            Nat.min_eq_left (by omega), Nat.sub_self]
          rfl
        · rw [List.getElem?_set_ne (Ne.symm e), List.getElem?_take_of_lt hk, List.getElem?_drop, overwrite]
          by_cases hlt : k < p
          · rw [List.append_assoc, List.getElem?_append_left (by rw [List.length_take]; omega),
              List.getElem?_take_of_lt (by omega)]
          · rw [List.getElem?_append_right (by simp; omega), List.getElem?_drop]
            congr 1
            simp; omega
      · rw [List.getElem?_eq_none (by rw [List.length_take]; omega), List.getElem?_eq_none]
        rw [List.length_set, List.length_take]; omega
    · simp [exec, onArr, hg, hc.2, hp]
  · intro hp
    have hc : ¬ (0 ≤ pos ∧ pos < g.sl.len) := by omega
    constructor
    · simp only [exec, onMutable, onArr, hg, hf, if_neg hc]; rfl
    · simp only [exec, onArr, hg, if_neg hc]

example : (exec Ex.dbl (Ex.run [.values false [1, 2, 3]]) (.set 0 1 9)).1 = .val (some 2) ∧
    view (Ex.run [.values false [1, 2, 3], .set 0 1 9]) 0 = some ([some 1, some 9, some 3], false) := by decide +kernel

/-- **C15, Remove.** -/
theorem C15_remove {w : World V} (hw : Reachable grow w) {a : Nat} {l : List (Option V)} (h : view w a = some (l, false))
    (pos : Int) :
    (∀ (pre post : List (Option V)) (c : Option V), l = pre ++ c :: post → pos = pre.length →
      Gives grow w a (.remove a pos) (.val c) (pre ++ post)) ∧
    ((pos < 0 ∨ l.length ≤ pos) → exec grow w (.remove a pos) = (.val none, w)) := by
  obtain ⟨g, hg, rfl, hf⟩ := view_some h
  have hin := hw.bnd.arrs a g hg
  have hl := read_length hin
  constructor
  · intro pre post c hsplit hpos
    subst hpos
    match hr : removePos w.stores g.sl pre.length with
    | none =>
      have := removePos_none hr
      rw [hsplit] at hl; simp at hl; omega
    | some (v, s, st) =>
      obtain ⟨h1, h2, h3, h4, _⟩ := removePos_spec hin hr
      rw [hsplit] at h3 h4
      simp at h3; subst h3
      constructor
      · simp [exec, onMutable, onArr, hg, hf, hr]
      · simp only [exec, onMutable, onArr, hg, hf, hr, Bool.false_eq_true, if_false]
        rw [view_setSlice hg, hf]
        simp only [h4, Int.toNat_natCast]
        congr 2
        rw [List.eraseIdx_append_of_length_le (Nat.le_refl _)]; simp
  · intro hp
    match hr : removePos w.stores g.sl pos with
    | none => simp [exec, onMutable, onArr, hg, hf, hr]
    | some (v, s, st) =>
      obtain ⟨h1, h2, _⟩ := removePos_spec hin hr
      omega

example : view (Ex.run [.values false [1, 2, 3], .remove 0 0]) 0 = some ([some 2, some 3], false) := by decide +kernel

/-- **C15, RemoveValue.**  The first element equal to the value is removed, and the answer says whether there was one. -/
theorem C15_removeValue {w : World V} (hw : Reachable grow w) {a : Nat} {l : List (Option V)} (h : view w a = some (l, false))
    (x : V) :
    (∀ (pre post : List (Option V)) (y : V), l = pre ++ some y :: post → KeyOps.eq x y = true →
      (∀ z, some z ∈ pre → KeyOps.eq x z = false) → Gives grow w a (.removeValue a x) (.bool true) (pre ++ post)) ∧
    ((∀ z, some z ∈ l → KeyOps.eq x z = false) → exec grow w (.removeValue a x) = (.bool false, w)) := by
  obtain ⟨g, hg, rfl, hf⟩ := view_some h
  have hin := hw.bnd.arrs a g hg
  have hl := read_length hin
  constructor
  · intro pre post y hsplit hy hpre
    have hi : Value.indexOf (eqCell x) (read w.stores g.sl) = pre.length := by
      rw [hsplit, Value.indexOf, Value.indexOfFrom_hit]
      · simp
      · intro c hc
        cases c with
        | none => rfl
        | some z => exact hpre z hc
      · exact hy
    match hr : removePos w.stores g.sl pre.length with
    | none =>
      have := removePos_none hr
      rw [hsplit] at hl; simp at hl; omega
    | some (v, s, st) =>
      obtain ⟨h1, h2, h3, h4, _⟩ := removePos_spec hin hr
      rw [hsplit] at h3 h4
      simp at h3; subst h3
      constructor
      · simp [exec, onMutable, onArr, hg, hf, hi, hr]
      · simp only [exec, onMutable, onArr, hg, hf, hi, hr, Bool.false_eq_true, if_false]
        rw [view_setSlice hg, hf]
        simp only [h4, Int.toNat_natCast]
        congr 2
        rw [List.eraseIdx_append_of_length_le (Nat.le_refl _)]; simp
  · intro hp
    have hi : Value.indexOf (eqCell x) (read w.stores g.sl) = -1 := by
      rw [Value.indexOf, Value.indexOfFrom_miss]
      intro c hc
      cases c with
      | none => rfl
      | some z => exact hp z hc
    have hr : removePos w.stores g.sl (-1) = none := by simp [removePos]
    simp [exec, onMutable, onArr, hg, hf, hi, hr]

example : view (Ex.run [.values false [1, 2, 1], .removeValue 0 1]) 0 = some ([some 2, some 1], false) := by decide +kernel

/-- **C15, Pop.** -/
theorem C15_pop {w : World V} (hw : Reachable grow w) {a : Nat} {l : List (Option V)} (h : view w a = some (l, false)) :
    (∀ (pre : List (Option V)) (c : Option V), l = pre ++ [c] → Gives grow w a (.pop a) (.popped (some c)) pre) ∧
    (l = [] → exec grow w (.pop a) = (.popped none, w)) := by
  obtain ⟨g, hg, rfl, hf⟩ := view_some h
  have hin := hw.bnd.arrs a g hg
  have hl := read_length hin
  constructor
  · intro pre c hsplit
    have hlen : (g.sl.len : Int) - 1 = pre.length := by rw [hsplit] at hl; simp at hl; omega
    match hr : removePos w.stores g.sl pre.length with
    | none =>
      have := removePos_none hr
      omega
    | some (v, s, st) =>
      obtain ⟨h1, h2, h3, h4, _⟩ := removePos_spec hin hr
      rw [hsplit] at h3 h4
      simp at h3; subst h3
      constructor
      · simp [exec, onMutable, onArr, hg, hf, hlen, hr]
      · simp only [exec, onMutable, onArr, hg, hf, hlen, hr, Bool.false_eq_true, if_false]
        rw [view_setSlice hg, hf]
        simp only [h4, Int.toNat_natCast]
        congr 2
        rw [List.eraseIdx_append_of_length_le (Nat.le_refl _)]; simp
  · intro h0
    rw [h0] at hl
    have hr : removePos w.stores g.sl ((g.sl.len : Int) - 1) = none := by
      simp at hl; simp [removePos, ← hl]
    simp only [exec, onMutable, onArr, hg, hf, hr, Bool.false_eq_true, if_false]

example : (exec Ex.dbl (Ex.run [.values false [1, 2]]) (.pop 0)).1 = .popped (some (some 2)) ∧
    (exec Ex.dbl (Ex.run [.withCapacity 3]) (.pop 0)).1 = .popped none := by decide +kernel

/-! ### C13: frozen arrays never change -/

/-- **C13, for the calls that do not extend an array in place.**  In every heap made by safe calls, and for every further
sequence of safe calls on any arrays: a frozen array has the same elements afterwards, and is still frozen.  Safe are all
calls, except `With`/`WithValues` on an array with spare capacity that is not frozen or behind which another array continues,
`GoSlice` on a mutable array, and `WrapSlice`.  Missing: those calls, for which the claim is false (next three theorems). -/
theorem C13_frozen_never_changes_partial {w : World V} (hw : SafelyReachable grow w) {a : Nat} {l : List (Option V)}
    (h : view w a = some (l, true)) (ops : List (Op V)) (hs : SafeRun grow w ops) :
    view (execAll grow w ops).2 a = some (l, true) := by
  have hsep := hw.sep
  clear hw
  induction ops generalizing w with
  | nil => exact h
  | cons op ops ih =>
    obtain ⟨h1, h2⟩ := exec_sep (grow := grow) hsep op hs.1
    refine ih ?_ hs.2 h1
    obtain ⟨g, hg, hr, hf⟩ := view_some h
    have hl := (List.getElem?_eq_some_iff.1 hg).1
    by_cases ht : target op = some a
    · have : (exec grow w op).2 = w ∨ op = .freeze a := by
        cases op <;> simp only [target, Option.some.injEq, reduceCtorEq] at ht <;> subst ht <;>
          first
          | (left; simp [exec, onMutable, onArr, hg, hf]; done)
          | (right; rfl)
      rcases this with e | rfl
      · exact (congrArg (view · a) e).trans h
      · simp only [onArr, hg, view]
        rw [List.getElem?_set_self hl]
        simp [hr]
    · exact (h2 a ht hl).trans h

/-- A frozen array that is sliced and extended again and again. -/
example : SafeRun Ex.dbl (Ex.run [.values true [1, 2, 3]]) [.with 0 4, .with 1 5, .slice 2 1 4, .with 2 6, .copy 2 false,
    .add 5 7, .goSlice 0, .rawSet 0 0 9] ∧
    view (Ex.run [.values true [1, 2, 3], .with 0 4, .with 1 5, .slice 2 1 4, .with 2 6, .copy 2 false,
      .add 5 7, .goSlice 0, .rawSet 0 0 9]) 3 = some ([some 2, some 3, some 4], true) := by
  constructor
  · refine ⟨fun g hg => ?_, fun g hg => ?_, trivial, fun g hg => ?_, trivial, trivial, fun g hg => ?_, trivial, trivial⟩
    · left; cases hg; decide +kernel
    · right
      cases hg
      refine ⟨rfl, ?_⟩
      intro b h hb
      match b with
      | 0 => cases hb; decide +kernel
      | 1 => cases hb; decide +kernel
      | b + 2 => cases hb
    · right
      cases hg
      refine ⟨rfl, ?_⟩
      intro b h hb
      match b with
      | 0 => cases hb; decide +kernel
      | 1 => cases hb; decide +kernel
      | 2 => cases hb; decide +kernel
      | 3 => cases hb; decide +kernel
      | b + 4 => cases hb
    · cases hg; rfl
  · decide +kernel

/-- **C13 is false for With**: `a := vf.Values(1,2,3); a.Slice(0,2).With(9)` changes the last element of the frozen `a`. -/
theorem C13_with_overwrites_frozen :
    view (Ex.run [.values true [1, 2, 3], .slice 0 0 2]) 0 = some ([some 1, some 2, some 3], true) ∧
    view (Ex.run [.values true [1, 2, 3], .slice 0 0 2, .with 1 9]) 0 = some ([some 1, some 2, some 9], true) := by
  decide +kernel

/-- **C13 is false for With and Freeze**: `b := a.With(4); b.Freeze(); a.Add(5)` changes the frozen `b`. -/
theorem C13_mutable_receiver_overwrites_frozen :
    view (Ex.run [.values false [1, 2], .add 0 3, .with 0 4, .freeze 1]) 1 = some ([some 1, some 2, some 3, some 4], true) ∧
    view (Ex.run [.values false [1, 2], .add 0 3, .with 0 4, .freeze 1, .add 0 5]) 1 =
      some ([some 1, some 2, some 3, some 5], true) := by
  decide +kernel

/-- **C13 is false for GoSlice and Freeze**: a slice taken before `Freeze` still writes to the array. -/
theorem C13_goSlice_before_freeze :
    view (Ex.run [.values false [1, 2], .goSlice 0, .freeze 0, .rawSet 0 0 9]) 0 = some ([some 9, some 2], true) := by
  decide +kernel

/-- Freezing later does not help: removing an element from `a` can even make an element of the frozen `b` a Go nil. -/
theorem C13_remove_makes_nil_element :
    view (Ex.run [.values false [1, 2], .add 0 3, .with 0 4, .freeze 1, .pop 0]) 1 =
      some ([some 1, some 2, none, some 4], true) := by
  decide +kernel

/-! ### C14: derived arrays are independent -/

/-- **C14, when there is no spare capacity.**  If the array has no spare capacity, `b := a.With(x)` and `c := a.With(y)` have
the elements of `a` and one more, `a` is as before, and no further safe calls change any of the three, except mutators
of that array.  Missing: arrays with spare capacity, for which the claim is false (next theorems). -/
theorem C14_with_is_independent_partial {w : World V} (hw : SafelyReachable grow w) {a : Nat} {g : Obj} {l : List (Option V)}
    {f : Bool} (hg : w.arrs[a]? = some g) (hv : view w a = some (l, f)) (hfull : cap w.stores g.sl = g.sl.len) (x y : V)
    (ops : List (Op V)) (j : Nat) (hj : j = a ∨ j = w.arrs.length ∨ j = w.arrs.length + 1)
    (hs : SafeRun grow (execAll grow w [.with a x, .with a y]).2 ops) (hno : ∀ op ∈ ops, target op ≠ some j) :
    (execAll grow w [.with a x, .with a y]).1 = [.arr w.arrs.length, .arr (w.arrs.length + 1)] ∧
    view (execAll grow (execAll grow w [.with a x, .with a y]).2 ops).2 j =
      some (if j = a then l else if j = w.arrs.length then l ++ [some x] else l ++ [some y], f) := by
  have hsep := hw.sep
  have hal := (List.getElem?_eq_some_iff.1 hg).1
  obtain ⟨g', hg', hr, hf⟩ := view_some hv
  rw [hg] at hg'; cases hg'
  -- the two calls
  have e1 : exec grow w (.with a x) = newArr w (append grow w.stores g.sl [some x]) g.frozen := by
    simp only [exec, onArr, hg]
  have hs1 : Safe w (.with a x) := by
    intro g' hg'; rw [hg] at hg'; cases hg'; exact .inl (by omega)
  obtain ⟨sep1, fr1⟩ := exec_sep (grow := grow) hsep (.with a x) hs1
  have a1 := append_spec grow [some x] (hsep.bnd.arrs a g hg)
  have hg1 : (exec grow w (.with a x)).2.arrs[a]? = some g := by
    rw [e1]; simp only [newArr]; rw [List.getElem?_append_left hal, hg]
  have hl1 : (exec grow w (.with a x)).2.arrs.length = w.arrs.length + 1 := by rw [e1]; simp [newArr]
  have hv1 : view (exec grow w (.with a x)).2 w.arrs.length = some (l ++ [some x], f) := by
    rw [e1, view_new, a1.read, hr, hf]
  have hva1 : view (exec grow w (.with a x)).2 a = some (l, f) := by rw [fr1 a (by simp [target]) hal, hv]
  have hcap1 : cap (exec grow w (.with a x)).2.stores g.sl = g.sl.len := by
    rw [e1]
    simp only [newArr, cap]
    rw [a1.frame.size g.sl.store (hsep.bnd.arrs a g hg).1]
    exact hfull
  generalize hw1 : (exec grow w (.with a x)).2 = w1 at *
  have e2 : exec grow w1 (.with a y) = newArr w1 (append grow w1.stores g.sl [some y]) g.frozen := by
    simp only [exec, onArr, hg1]
  have hs2 : Safe w1 (.with a y) := by
    intro g' hg'; rw [hg1] at hg'; cases hg'; exact .inl (by omega)
  obtain ⟨sep2, fr2⟩ := exec_sep (grow := grow) sep1 (.with a y) hs2
  have a2 := append_spec grow [some y] (sep1.bnd.arrs a g hg1)
  have hr1 : read w1.stores g.sl = l := by
    unfold view at hva1
    rw [hg1] at hva1; simp at hva1; exact hva1.1
  have hv2 : view (exec grow w1 (.with a y)).2 (w.arrs.length + 1) = some (l ++ [some y], f) := by
    rw [e2, ← hl1, view_new, a2.read, hr1, hf]
  have hvb2 : view (exec grow w1 (.with a y)).2 w.arrs.length = some (l ++ [some x], f) := by
    rw [fr2 _ (by simp [target]) (by omega), hv1]
  have hva2 : view (exec grow w1 (.with a y)).2 a = some (l, f) := by
    rw [fr2 _ (by simp [target]) (by omega), hva1]
  have hl2 : (exec grow w1 (.with a y)).2.arrs.length = w.arrs.length + 2 := by rw [e2]; simp [newArr]; omega
  have ex : execAll grow w [.with a x, .with a y] =
      ([(exec grow w (.with a x)).1, (exec grow w1 (.with a y)).1], (exec grow w1 (.with a y)).2) := by
    simp only [execAll, hw1]
  refine ⟨by rw [ex, e1, e2]; simp [newArr, hl1], ?_⟩
  rw [ex] at hs ⊢
  simp only at hs ⊢
  have hlast : ∀ (w2 : World V), Sep w2 → SafeRun grow w2 ops → j < w2.arrs.length →
      view (execAll grow w2 ops).2 j = view w2 j := by
    clear hs
    induction ops with
    | nil => intro w2 _ _ _; rfl
    | cons op ops ih =>
      intro w2 hsep2 hs hjl
      obtain ⟨s1, s2⟩ := exec_sep (grow := grow) hsep2 op hs.1
      have hlen : j < (exec grow w2 op).2.arrs.length := by
        have := s2 j (hno op (by simp)) hjl
        by_contra hc
        have e : view (exec grow w2 op).2 j = none := by
          unfold view; rw [List.getElem?_eq_none (by omega)]; rfl
        rw [e] at this
        unfold view at this
        rw [List.getElem?_eq_getElem hjl] at this
        cases this
      have := ih (fun op h => hno op (by simp [h])) _ s1 hs.2 hlen
      exact this.trans (s2 j (hno op (by simp)) hjl)
  rw [hlast _ sep2 hs (by omega)]
  rcases hj with rfl | rfl | rfl
  · rw [if_pos rfl]; exact hva2
  · rw [if_neg (by omega), if_pos rfl]; exact hvb2
  · rw [if_neg (by omega), if_neg (by omega)]; exact hv2

example : SafelyReachable Ex.dbl (Ex.run [.values false [1, 2]]) ∧
    (∃ g, (Ex.run [.values false [1, 2]]).arrs[0]? = some g ∧ cap (Ex.run [.values false [1, 2]]).stores g.sl = g.sl.len) :=
  ⟨⟨[.values false [1, 2]], ⟨trivial, trivial⟩, rfl⟩, _, rfl, by decide +kernel⟩

/-- **C14 is false with spare capacity**: after `b := a.With(4)`, `c := a.With(5)` the last element of `b` is 5, and
`a.Add(6)` changes both. -/
theorem C14_with_shares_spare_capacity :
    view (Ex.run [.values false [1, 2], .add 0 3, .with 0 4, .with 0 5]) 1 = some ([some 1, some 2, some 3, some 5], false) ∧
    view (Ex.run [.values false [1, 2], .add 0 3, .with 0 4, .with 0 5, .add 0 6]) 1 =
      some ([some 1, some 2, some 3, some 6], false) := by
  decide +kernel

/-- **C14 is false on frozen arrays too**: `d := a.With(4); d.With(5); d.With(6)`: the second changes the first. -/
theorem C14_frozen_with_shares_spare_capacity :
    view (Ex.run [.values true [1, 2, 3], .with 0 4, .with 1 5]) 2 = some ([some 1, some 2, some 3, some 4, some 5], true) ∧
    view (Ex.run [.values true [1, 2, 3], .with 0 4, .with 1 5, .with 1 6]) 2 =
      some ([some 1, some 2, some 3, some 4, some 6], true) := by
  decide +kernel

/-- **C14, the other derived arrays.**  `Copy(false)`, `Slice` of a mutable array, `WithAll`, `Map`, `Select`, `Reject`, `Sort`
and `Unique` are always safe: in a heap made by safe calls they leave every existing array as it is and the heap separated,
so that by `C13_frozen_never_changes_partial` and `exec_sep` no later safe call on another array changes the result. -/
theorem C14_other_derivations {w : World V} (hw : SafelyReachable grow w) {op : Op V}
    (hop : match op with
      | .copy _ _ | .slice _ _ _ | .withAll _ _ | .map _ _ | .select _ _ | .reject _ _ | .sort _ | .unique _ => True
      | _ => False) :
    Safe w op ∧ SafelyReachable grow (exec grow w op).2 ∧ ∀ j < w.arrs.length, view (exec grow w op).2 j = view w j := by
  have hs : Safe w op := by cases op <;> simp_all [Safe]
  have ht : target op = none := by cases op <;> simp_all [target]
  refine ⟨hs, ?_, fun j hj => (exec_sep hw.sep op hs).2 j (by rw [ht]; simp) hj⟩
  obtain ⟨ops, h1, rfl⟩ := hw
  refine ⟨ops ++ [op], ?_, ?_⟩
  · have : ∀ (w : World V) (ops : List (Op V)), SafeRun grow w ops → Safe (execAll grow w ops).2 op →
        SafeRun grow w (ops ++ [op]) := by
      intro w ops
      induction ops generalizing w with
      | nil => intro _ h; exact ⟨h, trivial⟩
      | cons o ops ih => intro h h'; exact ⟨h.1, ih _ h.2 h'⟩
    exact this _ _ h1 hs
  · have : ∀ (w : World V) (ops : List (Op V)),
        (execAll grow w (ops ++ [op])).2 = (exec grow (execAll grow w ops).2 op).2 := by
      intro w ops
      induction ops generalizing w with
      | nil => rfl
      | cons o ops ih => exact ih _
    exact this _ _

/-! ### C11: Sort leaves the receiver alone -/

/-- **C11, the receiver.**  In every reachable heap, whatever is shared, `Sort` leaves every array as it is, the receiver
included, and the result is a new array with the sorted elements, or the array itself when it has fewer than two. -/
theorem C11_sort_leaves_receiver {w : World V} (hw : Reachable grow w) {a : Nat} {vs : List V} {f : Bool}
    (h : view w a = some (vs.map some, f)) :
    (∀ j < w.arrs.length, view (exec grow w (.sort a)).2 j = view w j) ∧
    ∃ r, (exec grow w (.sort a)).1 = .arr r ∧ (vs.length < 2 → r = a) ∧ (2 ≤ vs.length → r = w.arrs.length) ∧
      view (exec grow w (.sort a)).2 r = some ((Value.stableSort ElemOps.less vs).map some, f) := by
  obtain ⟨g, hg, hr, hf⟩ := view_some h
  have hl := read_length (hw.bnd.arrs a g hg)
  have hlv : vs.length = g.sl.len := by rw [← hl, hr]; simp
  have has : allSome (vs.map some) = some vs := by
    clear hr hl hlv h
    induction vs with
    | nil => rfl
    | cons v vs ih => simp [allSome, ih]
  by_cases h2 : g.sl.len < 2
  · have e : exec grow w (.sort a) = (.arr a, w) := by simp [exec, onArr, hg, h2]
    rw [e]
    refine ⟨fun _ _ => rfl, a, rfl, fun _ => rfl, fun h => by omega, ?_⟩
    have : Value.stableSort ElemOps.less vs = vs := by
      match vs, hlv with
      | [], _ => rfl
      | [v], _ => rfl
      | _ :: _ :: _, hlv => simp at hlv; omega
    rw [this]; exact h
  · have e : exec grow w (.sort a) =
        newArr w (alloc w.stores ((Value.stableSort ElemOps.less vs).map some) 0) g.frozen := by
      simp [exec, onArr, hg, h2, hr, has]
    rw [e]
    refine ⟨fun j hj => ?_, w.arrs.length, rfl, fun h => by omega, fun _ => rfl, by rw [view_new, alloc_read, hf]⟩
    simp only [view, newArr]
    rw [List.getElem?_append_left hj]
    match hh : w.arrs[j]? with
    | none => rfl
    | some h =>
      simp only [Option.map_some]
      rw [(alloc_frame w.stores ((Value.stableSort ElemOps.less vs).map some) 0 (h.sl.store + 1) 0).read h.sl
        (hw.bnd.arrs j h hh) (.inl (by omega))]

example : view (Ex.run [.values false [3, 1, 2], .sort 0]) 0 = some ([some 3, some 1, some 2], false) ∧
    view (Ex.run [.values false [3, 1, 2], .sort 0]) 1 = some ([some 1, some 2, some 3], false) := by decide +kernel

/-! ### Slice looks behind the end -/

/-- The upper bound of `Slice` is the capacity and not the length: `vf.Values(1,1).Unique().Slice(0,2)` does not panic, but has
an element that is a Go nil. -/
theorem C15_slice_beyond_length :
    (exec Ex.dbl (Ex.run [.values true [1, 1], .unique 0]) (.slice 1 0 2)).1 = .arr 2 ∧
    view (Ex.run [.values true [1, 1], .unique 0]) 1 = some ([some 1], true) ∧
    view (Ex.run [.values true [1, 1], .unique 0, .slice 1 0 2]) 2 = some ([some 1, none], true) := by
  decide +kernel

/-- **C15, Slice.**  `Slice` within the length has the elements from `i` up to `j`.  Missing: a panic for `j` beyond the
length, which is not what happens (above). -/
theorem C15_slice_partial {w : World V} (hw : Reachable grow w) {a : Nat} {l : List (Option V)} {f : Bool}
    (h : view w a = some (l, f)) (i j : Nat) (hij : i ≤ j) (hj : j ≤ l.length) :
    ∃ r, (exec grow w (.slice a i j)).1 = .arr r ∧ view (exec grow w (.slice a i j)).2 r = some ((l.take j).drop i, f) := by
  obtain ⟨g, hg, rfl, hf⟩ := view_some h
  have hin := hw.bnd.arrs a g hg
  have hl := read_length hin
  have h2 := hin.2
  by_cases hc : (g.frozen && ((i : Int) == 0) && ((j : Int) == g.sl.len)) = true
  · have e : exec grow w (.slice a i j) = (.arr a, w) := by simp only [exec, onArr, hg]; rw [if_pos hc]
    refine ⟨a, by rw [e], ?_⟩
    rw [e, h]
    simp only [Bool.and_eq_true, beq_iff_eq] at hc
    have hi : i = 0 := by omega
    subst hi
    rw [List.take_of_length_le (by omega), List.drop_zero]
  · have hb : (0 : Int) ≤ i ∧ (i : Int) ≤ j ∧ (j : Int) ≤ cap w.stores g.sl := by unfold cap; omega
    have e : exec grow w (.slice a i j) =
        (if !g.frozen then newArr w (sliceCopy w.stores ⟨g.sl.store, g.sl.off + i, j - i⟩) false
         else newArr w (⟨g.sl.store, g.sl.off + i, j - i⟩, w.stores) true) := by
      simp only [exec, onArr, hg]
      rw [if_neg hc, if_pos hb]
      rfl
    have hrd : read w.stores ⟨g.sl.store, g.sl.off + i, j - i⟩ = ((read w.stores g.sl).take j).drop i := by
      unfold read
      simp only
      rw [List.take_take, Nat.min_eq_left (by omega), List.drop_take, List.drop_drop]
    refine ⟨w.arrs.length, ?_, ?_⟩
    · rw [e]; split <;> rfl
    · rw [e]
      cases hfr : g.frozen
      · simp only [Bool.not_false, if_true]
        rw [view_new, sliceCopy, alloc_read, hrd, ← hf, hfr]
      · simp only [Bool.not_true, Bool.false_eq_true, if_false]
        rw [view_new, hrd, ← hf, hfr]

example : view (Ex.run [.values true [1, 2, 3, 4], .slice 0 1 3]) 1 = some ([some 2, some 3], true) := by decide +kernel

end Verif.Arr
