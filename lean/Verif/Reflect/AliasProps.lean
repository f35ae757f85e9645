import Verif.Reflect.AliasLemmas
/-!
# C72: what structs share with Go variables

`St.init` is the empty memory, `run .init os` the memory after the steps `os`; `view m o` is what `Values()` of the struct `o` returns and
`values m v` the values of the fields of the Go variable `v`.
-/
set_option autoImplicit false
set_option linter.unusedVariables false
namespace Verif.Reflect.Alias

/-- A frozen struct never changes, whatever the Go program and the other structs do.  Missing: the elements of slices in its fields, which the
program may have a reference to (`C72_slice_violated`), and programs that call `GoStruct` for a frozen struct (`C72_goStruct_violated`). -/
theorem C72_frozen_partial (os os' : List Op) (h : SafeRun .init os) (o : Nat) (ho : o < (run .init os).no)
    (hf : ((run .init os).objs o).frozen = true) (h' : SafeRun (run .init os) os')
    (hw : ∀ op ∈ os', ∀ a, Writes op a → FV.slice a ∉ (run .init os).fields o) :
    view (run (run .init os) os') o = view (run .init os) o ∧ ((run (run .init os) os').objs o).frozen = true := by
  have I := inv_run os inv_init h
  have K := kept_run (W := fun a => FV.slice a ∉ (run .init os).fields o) os' I h' hw
  generalize run .init os = m at *
  refine ⟨?_, by rw [K.objs o ho hf]; exact hf⟩
  rw [view, view, values, values, K.objs o ho hf, K.vars o ho hf]
  apply List.map_congr_left
  intro f hm
  have hok := I.fv _ (I.obj o ho) f hm
  cases f with
  | scalar => rfl
  | slice a => rw [look, look, K.arrs a hok fun h => h hm]
  | dgo d => rw [look, look, K.dgos d hok (I.frz o ho hf d hm)]

namespace Ex
/-- An array, a slice and a struct variable with a number, the slice and the array; a struct for its address, which is frozen -/
def os1 : List Op := [.dgoNew [1], .goSlice [2, 3], .goVar [.scalar 4, .slice 0, .dgo 0], .ofPtr 0, .freeze 0]
end Ex

example : SafeRun .init Ex.os1 ∧ ((run .init Ex.os1).objs 0).frozen = true ∧ view (run .init Ex.os1) 0 = [.int 4, .list [2, 3], .list [1]] ∧
    view (run (run .init Ex.os1) [.goSet 0 0 (.scalar 9), .goSlice [7], .goSet 0 1 (.slice 1), .goWrite 1 0 8, .dgoSet 0 0 5, .put 0 0 6]) 0
      = [.int 4, .list [2, 3], .list [1]] :=
  ⟨⟨trivial, trivial, trivial, trivial, trivial, trivial⟩, by decide, by decide, by decide⟩

/-- At the time when they are made, copies show what the struct shows; `Freeze` changes nothing that is seen, in no struct. -/
theorem C72_copies (os : List Op) (h : SafeRun .init os) (o : Nat) (ho : o < (run .init os).no) :
    let m := run .init os
    let Shows (m' : St) (frozen : Bool) := m'.no = m.no + 1 ∧ view m' m.no = view m o ∧ (m'.objs m.no).frozen = frozen ∧ ∀ p, p < m.no → view m' p = view m p
    Shows (step m (.thawedCopy o)) false ∧ Shows (step m (.copy o false)) false ∧
      ((m.objs o).frozen = false → Shows (step m (.frozenCopy o)) true ∧ Shows (step m (.copy o true)) true ∧
        ((step m (.freeze o)).objs o).frozen = true ∧ ∀ p, p < m.no → view (step m (.freeze o)) p = view m p) := by
  have I := inv_run os inv_init h
  generalize run .init os = m at *
  intro m1 Shows
  have hok := I.fv _ (I.obj o ho)
  refine ⟨?_, ?_, fun hf => ⟨?_, ?_, freeze_shows I ho hf⟩⟩
  · obtain ⟨g, _, _, _, d⟩ := thawedFields_spec (m.fields o) m hok
    obtain ⟨a, b, c, _, e, f⟩ := copy_shows I g ho d false true
    simp only [Shows, m1, step, if_pos ho]
    exact ⟨a, e, b, f⟩
  · obtain ⟨a, b, c, _, e, f⟩ := copy_shows I (r := (m, m.fields o)) (.refl m) ho rfl false true
    simp only [Shows, m1, step, if_pos ho, Bool.false_eq_true, if_false]
    exact ⟨a, e, b, f⟩
  · obtain ⟨g, _, _, d⟩ := frozenFields_spec (m.fields o) m hok
    obtain ⟨a, b, c, _, e, f⟩ := copy_shows I g ho d true true
    simp only [Shows, m1, step, ho, hf, decide_true, Bool.not_false, Bool.and_self, if_true]
    exact ⟨a, e, b, f⟩
  · obtain ⟨g, _, _, d⟩ := frozenFields_spec (m.fields o) m hok
    obtain ⟨a, b, c, _, e, f⟩ := copy_shows I g ho d true true
    simp only [Shows, m1, step, ho, hf, if_true, Bool.false_eq_true, if_false]
    exact ⟨a, e, b, f⟩

example : view (run .init (Ex.os1 ++ [.thawedCopy 0])) 1 = [.int 4, .list [2, 3], .list [1]] := by decide

/-- A thawed copy shares nothing with the rest: it stays as it is as long as the program does not use it, or change an array that is in it. -/
theorem C72_thawed (os os' : List Op) (h : SafeRun .init os) (o : Nat) (ho : o < (run .init os).no) :
    let m := run .init os
    let m' := step m (.thawedCopy o)
    SafeRun m' os' → (∀ op ∈ os', Avoids m.no (fun d => FV.dgo d ∈ m'.fields m.no) op) →
      view (run m' os') m.no = view m o ∧ ∀ d, FV.dgo d ∈ m'.fields m.no → m.nd ≤ d := by
  have I := inv_run os inv_init h
  have C := (C72_copies os h o ho).1.2.1
  generalize run .init os = m at *
  intro m1 m' hs ha
  obtain ⟨S, hd⟩ := sep_thawed I ho
  have I' := (fine_step I (.thawedCopy o) trivial).1
  have A := apart_run os' I' hs S (fun d h => (hd d h).2) ha
  exact ⟨(view_still A.2).trans C, fun d h => (hd d h).1⟩

example : view (run .init (Ex.os1 ++ [.thawedCopy 0, .goWrite 0 0 9, .dgoNew [5], .goSet 0 2 (.dgo 1), .freeze 0])) 1
    = [.int 4, .list [2, 3], .list [1]] := by decide

/-- And nothing that is done with a thawed copy, or with what was made after it, is seen in what was there before. -/
theorem C72_original (os os' : List Op) (h : SafeRun .init os) (o : Nat) (ho : o < (run .init os).no) :
    let m := run .init os
    let m' := step m (.thawedCopy o)
    SafeRun m' os' → (∀ op ∈ os', op.New m.base) → ∀ p, p < m.no → view (run m' os') p = view m p := by
  have I := inv_run os inv_init h
  generalize run .init os = m at *
  intro m1 m' hs hn p hp
  have I' := (fine_step I (.thawedCopy o) trivial).1
  have B := later_thawed I ho
  exact view_frame I (B.trans (beyond_run os' I' hs B.1 hn)).2 hp

example : view (run .init (Ex.os1 ++ [.thawedCopy 0, .put 1 0 9, .toPtr 1, .goRead 2 1, .goWrite 1 0 8, .dgoSet 1 0 7])) 1 = [.int 9, .list [8, 3], .list [7]] ∧
    view (run .init (Ex.os1 ++ [.thawedCopy 0, .put 1 0 9, .toPtr 1, .goRead 2 1, .goWrite 1 0 8, .dgoSet 1 0 7])) 0 = [.int 4, .list [2, 3], .list [1]] ∧
    ∀ op ∈ [Op.put 1 0 9, .toPtr 1, .goRead 2 1, .goWrite 1 0 8, .dgoSet 1 0 7], op.New (run .init Ex.os1).base := by
  refine ⟨by decide, by decide, ?_⟩
  simp only [List.forall_mem_cons, Op.New]
  exact ⟨by decide, by decide, by decide, by decide, by decide, by simp⟩

/-- The struct for a pointer shows the variable and `Put` writes to it, until it is frozen. -/
theorem C72_live (m : St) (v : Nat) (h : m.ptrs v = true) (os : List Op) (hf : .freeze m.no ∉ os) :
    let m' := run (step m (.ofPtr v)) os
    view m' m.no = values m' v ∧
      ∀ i x y, (m'.vars v)[i]? = some (.scalar y) → values (step m' (.put m.no i x)) v = (values m' v).set i (.int x) := by
  have e : (step m (.ofPtr v)) = m.newObj ⟨v, false, true⟩ := by rw [step, if_pos h]
  have hr := objs_run (m := step m (.ofPtr v)) (n := m.no) os (by rw [e]; exact Nat.lt_succ_self _) hf
  intro m'
  have hlt : m.no < m'.no := hr.1
  have ho' : m'.objs m.no = ⟨v, false, true⟩ := by rw [show m'.objs m.no = _ from hr.2, e]; simp [St.newObj]
  refine ⟨by rw [view, ho'], ?_⟩
  intro i x y hi
  simp only [step, hlt, ho', decide_true, Bool.not_false, Bool.and_self, if_true, St.fields, hi]
  simp only [values, St.setVar, Function.update_self, List.map_set]
  rfl

example : values (run .init [.goVar [.scalar 1], .ofPtr 0, .goSet 0 0 (.scalar 2), .put 0 0 3]) 0 = [.int 3] ∧
    view (run .init [.goVar [.scalar 1], .ofPtr 0, .goSet 0 0 (.scalar 2)]) 0 = [.int 2] := by decide

/-- The elements of a slice that only the struct has a reference to change after `Freeze`: a copy of the struct that `vf.FromValue` makes has the
same slice. -/
theorem C72_slice_violated : ∃ os os' o, SafeRun .init os ∧ SafeRun (run .init os) os' ∧ o < (run .init os).no ∧ ((run .init os).objs o).frozen = true ∧
    view (run (run .init os) os') o ≠ view (run .init os) o :=
  ⟨[.goSlice [], .goVar [.slice 0], .ofPtr 0, .dgoNew [1], .putArray 0 0 0, .freeze 0], [.toPtr 0, .goRead 2 0, .goWrite 1 0 2], 0,
    ⟨trivial, trivial, trivial, trivial, trivial, trivial, trivial⟩, ⟨trivial, trivial, trivial, trivial⟩, by decide, by decide, by decide⟩

/-- `GoStruct` of a frozen copy is a pointer to what the copy shows. -/
theorem C72_goStruct_violated : ∃ os os' o, o < (run .init os).no ∧ ((run .init os).objs o).frozen = true ∧ (∀ op ∈ os', ∀ a, ¬Writes op a) ∧
    view (run (run .init os) os') o ≠ view (run .init os) o :=
  ⟨[.goVar [.scalar 1], .ofPtr 0, .frozenCopy 0], [.goStruct 1, .goSet 1 0 (.scalar 2)], 1, by decide, by decide, by simp [Writes], by decide⟩

end Verif.Reflect.Alias
