import Verif.Arr.Props
/-!
# C14 and C15: what the derived arrays contain, and what the observers say
-/
set_option linter.unusedSectionVars false
set_option linter.unusedVariables false
set_option autoImplicit false
namespace Verif.Arr
open HMap (KeyOps)

variable {V : Type} [ElemOps V] {grow : Nat → Nat → Nat}

/-- The call returns an array that has the elements `l` and is frozen or not. -/
def Makes (grow : Nat → Nat → Nat) (w : World V) (op : Op V) (l : List (Option V)) (f : Bool) : Prop :=
  ∃ r, (exec grow w op).1 = .arr r ∧ view (exec grow w op).2 r = some (l, f)

theorem makes_new {w : World V} {op : Op V} {r : Sl × Stores V} {l : List (Option V)} {f : Bool} (h : exec grow w op = newArr w r f)
    (hr : read r.2 r.1 = l) : Makes grow w op l f := ⟨w.arrs.length, by rw [h]; rfl, by rw [h, view_new, hr]⟩

theorem makes_self {w : World V} {op : Op V} {a : Nat} {l : List (Option V)} {f : Bool} (h : exec grow w op = (.arr a, w))
    (hv : view w a = some (l, f)) : Makes grow w op l f := ⟨a, by rw [h], by rw [h, hv]⟩

/-- the elements of a copy: frozen copies, or thawed copies, and a Go nil stays one -/
abbrev frozenElems (l : List (Option V)) : List (Option V) := l.map (·.map KeyOps.freeze)
abbrev thawedElems (l : List (Option V)) : List (Option V) := l.map (·.map ElemOps.thaw)

/-- **C14, new arrays.**  `Values`, `MutableValues` and `ArrayWithCapacity` have the given elements, frozen copies of them for `Values`. -/
theorem C14_new {w : World V} (xs : List V) (n : Nat) :
    Makes grow w (.values true xs) (xs.map fun x => some (KeyOps.freeze x)) true ∧
    Makes grow w (.values false xs) (xs.map some) false ∧
    Makes grow w (.withCapacity n) [] false :=
  ⟨makes_new rfl (alloc_read ..), makes_new rfl (alloc_read ..), makes_new rfl (alloc_read ..)⟩

/-- **C14, copies.**  In every reachable heap: a copy that is not to be frozen has thawed copies of the elements; a frozen copy has frozen
copies of them, and of a frozen array it is the array itself. -/
theorem C14_copy {w : World V} (hw : Reachable grow w) {a : Nat} {l : List (Option V)} {f : Bool} (h : view w a = some (l, f)) :
    Makes grow w (.copy a false) (thawedElems l) false ∧
    (f = false → Makes grow w (.copy a true) (frozenElems l) true) ∧
    (f = true → exec grow w (.copy a true) = (.arr a, w)) := by
  obtain ⟨g, hg, rfl, rfl⟩ := view_some h
  refine ⟨?_, fun hf => ?_, fun hf => ?_⟩
  · exact makes_new (by simp only [exec, onArr, hg]; rfl) (by rw [alloc_read]; rfl)
  · exact makes_new (by simp only [exec, onArr, hg, hf]; rfl) (by rw [alloc_read]; rfl)
  · simp [exec, onArr, hg, hf]

/-- elements that know whether they are frozen, to tell the copies apart -/
instance ExF : ElemOps (Nat × Bool) where
  hash n := BitVec.ofNat 64 n.1
  eq a b := a.1 == b.1
  freeze n := (n.1, true)
  thaw n := (n.1, false)
  less a b := a.1 < b.1

example : view (execAll Ex.dbl World.init [.values false [(1, false)], .copy 0 true, .copy 1 false]).2 1 = some ([some ((1 : Nat), true)], true) ∧
    view (execAll Ex.dbl World.init [.values false [(1, false)], .copy 0 true, .copy 1 false]).2 2 = some ([some ((1 : Nat), false)], false) := by
  decide +kernel

/-- **C14, longer arrays.**  In every reachable heap, whatever storage is shared: `With` and `WithValues` have the elements of the array and
the new ones, `WithAll` has thawed copies of the elements and the elements of the other array.  The result is frozen if the array is.  (That
the frozen results have thawed copies in them, and that `With` does not freeze the new one, is C22's business.) -/
theorem C14_with_results {w : World V} (hw : Reachable grow w) {a : Nat} {l : List (Option V)} {f : Bool} (h : view w a = some (l, f)) :
    (∀ x, Makes grow w (.with a x) (l ++ [some x]) f) ∧
    (∀ xs, Makes grow w (.withValues a xs) (l ++ xs.map fun x => some (if f then KeyOps.freeze x else x)) f) ∧
    (∀ b m f', view w b = some (m, f') → m ≠ [] →
      Makes grow w (.withAll a b) (thawedElems l ++ if f = true ∧ f' = false then frozenElems m else m) f) ∧
    (∀ b f', view w b = some ([], f') → exec grow w (.withAll a b) = (.arr a, w)) := by
  obtain ⟨g, hg, rfl, rfl⟩ := view_some h
  have hin := hw.bnd.arrs a g hg
  refine ⟨fun x => ?_, fun xs => ?_, fun b m f' hb hm => ?_, fun b f' hb => ?_⟩
  · exact makes_new (by simp only [exec, onArr, hg]) (append_spec grow [some x] hin).read
  · by_cases hx : xs.length = 0
    · have : xs = [] := List.length_eq_zero_iff.1 hx
      subst this
      exact makes_self (a := a) (by simp [exec, onArr, hg]) (by simpa using h)
    · exact makes_new (by simp only [exec, onArr, hg, if_neg hx]) (append_spec grow _ hin).read
  · obtain ⟨g', hg', rfl, rfl⟩ := view_some hb
    have hin' := hw.bnd.arrs b g' hg'
    have hl : g'.sl.len ≠ 0 := by
      intro h0
      have := read_length hin'
      rw [h0] at this
      exact hm (List.length_eq_zero_iff.1 this)
    refine makes_new (by simp only [exec, onArr, hg, hg', if_neg hl]; rfl) ?_
    rw [(append_spec grow _ (alloc_inside w.stores (copyCells false (read w.stores g.sl)) 0)).read, alloc_read]
    congr 1
    rw [(alloc_frame w.stores (copyCells false (read w.stores g.sl)) 0 (g'.sl.store + 1) 0).read g'.sl hin' (.inl (by omega))]
    cases g.frozen <;> cases g'.frozen <;> rfl
  · obtain ⟨g', hg', h0, rfl⟩ := view_some hb
    have := read_length (hw.bnd.arrs b g' hg')
    rw [h0] at this
    simp only [exec, onArr, hg, hg']
    rw [if_pos (by simpa using this.symm)]

example : view (execAll Ex.dbl World.init [.values true [((1 : Nat), false)], .values false [(2, false)], .withAll 0 1, .withValues 2 [(3, false)]]).2 3 =
    some ([some (1, false), some (2, true), some (3, true)], true) := by decide +kernel

/-- **C14, arrays of some of the elements.**  `Map` has the images; `Select` and `Reject` have the elements that are wanted in order; `Unique`
has those that `C17_unique` says. -/
theorem C14_filter_results {w : World V} (hw : Reachable grow w) {a : Nat} {l : List (Option V)} {f : Bool} (h : view w a = some (l, f)) :
    (∀ k, Makes grow w (.map a k) (l.map fun x => some (k x)) f) ∧
    (∀ p, Makes grow w (.select a p) (l.filter p) f) ∧
    (∀ p, Makes grow w (.reject a p) (l.filter fun x => !p x) f) := by
  obtain ⟨g, hg, rfl, rfl⟩ := view_some h
  refine ⟨fun k => ?_, fun p => ?_, fun p => ?_⟩
  · exact makes_new (by simp only [exec, onArr, hg]; rfl) (alloc_read ..)
  · exact makes_new (by simp only [exec, onArr, hg]; rfl) (by rw [alloc_read, Value.select, Value.selectLoop_eq]; rfl)
  · exact makes_new (by simp only [exec, onArr, hg]; rfl) (by rw [alloc_read, Value.reject, Value.rejectLoop_eq]; rfl)

example : view (Ex.run [.values true [1, 2, 3, 4], .select 0 (fun c => c == some 3 || c == some 1), .reject 0 (fun c => c == some 3 || c == some 1)]) 1 =
    some ([some 1, some 3], true) ∧
  view (Ex.run [.values true [1, 2, 3, 4], .select 0 (fun c => c == some 3 || c == some 1), .reject 0 (fun c => c == some 3 || c == some 1)]) 2 =
    some ([some 2, some 4], true) := by decide +kernel

/-- **C15, the observers.**  `Len`, `Frozen` and `Get` say what the array is, `Get` panics exactly outside of it, and nothing changes; `Freeze`
leaves the elements and freezes the array. -/
theorem C15_observers {w : World V} (hw : Reachable grow w) {a : Nat} {l : List (Option V)} {f : Bool} (h : view w a = some (l, f)) :
    exec grow w (.len a) = (.int l.length, w) ∧ exec grow w (.frozen a) = (.bool f, w) ∧
    (∀ (n : Nat) (x : Option V), l[n]? = some x → exec grow w (.get a n) = (.val x, w)) ∧
    (∀ n : Int, (n < 0 ∨ l.length ≤ n) → exec grow w (.get a n) = (.panic, w)) ∧
    (exec grow w (.freeze a)).1 = .unit ∧ view (exec grow w (.freeze a)).2 a = some (l, true) ∧
    (∀ j, j ≠ a → view (exec grow w (.freeze a)).2 j = view w j) := by
  obtain ⟨g, hg, rfl, rfl⟩ := view_some h
  have hl := read_length (hw.bnd.arrs a g hg)
  have ha := (List.getElem?_eq_some_iff.1 hg).1
  refine ⟨by simp [exec, onArr, hg, hl], by simp [exec, onArr, hg], fun n x hx => ?_, fun n hn => ?_, by simp [exec, onArr, hg], ?_, fun j hj => ?_⟩
  · have := (List.getElem?_eq_some_iff.1 hx).1
    simp only [exec, onArr, hg]
    rw [if_pos (by omega)]
    simp [hx]
  · simp only [exec, onArr, hg]
    rw [if_neg (by omega)]
  · simp [exec, onArr, hg, view, List.getElem?_set_self ha]
  · simp [exec, onArr, hg, view, List.getElem?_set_ne (Ne.symm hj)]

example : view (Ex.run [.values false [1, 2], .freeze 0]) 0 = some ([some 1, some 2], true) := by decide +kernel

end Verif.Arr
