import Verif.Arr.EachSteps
/-!
# C109: loops over an array that is changed in the loop

`each` is the loop of the code (`Verif/Arr/EachModel.lean`), for every growth policy of `append`; the kinds of actors are in `Verif/Arr/EachSpec.lean`.
-/
set_option autoImplicit false
set_option linter.unusedSectionVars false
namespace Verif.Arr

variable {V S : Type} [ElemOps V] {grow : Nat → Nat → Nat}

theorem each_eq {w : World V} {a : Nat} {g : Obj} (hg : w.arrs[a]? = some g) (actor : S → Nat → Option V → Prog V S) (s : S) :
    each grow a actor s w = visit grow actor g.sl g.sl.len 0 s w := by
  simp only [each, hg]

namespace Ex
/-- Removes the first element. -/
def drops : Unit → Nat → Option Nat → Prog Nat Unit := fun s _ _ => .call (.remove 0 0) fun _ => .ret s true
/-- Adds an element, and replaces the one after the current one. -/
def sets : Unit → Nat → Option Nat → Prog Nat Unit := fun s i _ => .call (.add 0 9) fun _ => .call (.set 0 (i + 1) 7) fun _ => .ret s true
/-- Replaces the next element. -/
def nexts : Unit → Nat → Option Nat → Prog Nat Unit := fun s i _ => .call (.set 0 (i + 1) 7) fun _ => .ret s true
/-- Adds what it is given. -/
def adds : Unit → Nat → Option Nat → Prog Nat Unit := fun s _ c => .call (.addValues 0 c.toList) fun _ => .ret s true
/-- Puts an element in front of the current one. -/
def inserts : Unit → Nat → Option Nat → Prog Nat Unit := fun s _ _ => .call (.insert 0 0 9) fun _ => .ret s true
/-- Adds an element to array 1. -/
def others : Unit → Nat → Option Nat → Prog Nat Unit := fun s _ _ => .call (.add 1 9) fun _ => .call (.set 1 0 9) fun _ => .ret s true
/-- What a loop has seen. -/
def seen (r : Option (Seen Nat Unit × World Nat)) : Option (List (Option Nat)) := r.map fun x => x.1.seen.map (·.2)
end Ex

/-- **C109.**  Whatever the actor does, with this array and with others: the loop doesn't panic, and it ends; an actor that doesn't end it is called once
for every index that the array had at the start, in order, and another one for the first ones of them. -/
theorem C109_calls {w : World V} (hw : Reachable grow w) {a : Nat} {l : List (Option V)} {f : Bool} (h : view w a = some (l, f))
    (actor : S → Nat → Option V → Prog V S) (s : S) :
    ∃ x w', each grow a actor s w = some (x, w') ∧ x.seen.map (·.1) <+: List.range l.length ∧
      ((∀ s i c, (actor s i c).Goes) → x.seen.map (·.1) = List.range l.length) := by
  obtain ⟨g, hg, rfl, rfl⟩ := view_some h
  have hin := hw.bnd.arrs a g hg
  obtain ⟨x, w', e1, _, e2, e3⟩ := visit_ok (grow := grow) (actor := actor) (s := s) (a := g.sl) (n := g.sl.len) (i := 0) hw.bnd hin (by omega)
  rw [read_length hin, List.range_eq_range']
  exact ⟨x, w', by rw [each_eq hg]; exact e1, e2, e3⟩

/-- An actor that adds elements; the array has six in the end. -/
example : Ex.seen (each Ex.dbl 0 Ex.adds () (Ex.run [.values false [1, 2, 3]])) = some [some 1, some 2, some 3] ∧
    ((each Ex.dbl 0 Ex.adds () (Ex.run [.values false [1, 2, 3]])).bind fun x => view x.2 0) =
      some ([some 1, some 2, some 3, some 1, some 2, some 3], false) := by decide +kernel

/-- **C109.**  As long as no elements are added to the array and none are removed, the actor is given what `Get` returns for the index at that time, however
elements are replaced: with `Set`, or through slices and arrays that share the storage. -/
theorem C109_current {w : World V} (hw : Reachable grow w) {a : Nat} {l : List (Option V)} {f : Bool} (h : view w a = some (l, f))
    {actor : S → Nat → Option V → Prog V S} (ha : ∀ s i c, (actor s i c).Calls (KeepsLength a)) (s : S) :
    ∃ x w', each grow a (checked a actor) (s, True) w = some (x, w') ∧ x.state.2 := by
  obtain ⟨g, hg, rfl, rfl⟩ := view_some h
  obtain ⟨x, w', e1, e2⟩ := visit_checked (grow := grow) ha (sl := g.sl) (n := g.sl.len) (i := 0) (s := (s, True)) hw.bnd ⟨g, hg, rfl⟩ (by omega) trivial
  exact ⟨x, w', by rw [each_eq hg]; exact e1, e2⟩

example : (∃ x w', each Ex.dbl 0 (checked 0 Ex.nexts) ((), True) (Ex.run [.values false [1, 2, 3]]) = some (x, w') ∧ x.state.2) ∧
    Ex.seen (each Ex.dbl 0 Ex.nexts () (Ex.run [.values false [1, 2, 3]])) = some [some 1, some 7, some 7] :=
  ⟨C109_current (actor := Ex.nexts) (a := 0) ⟨_, rfl⟩ (l := [some 1, some 2, some 3]) (f := false) (by decide +kernel) (fun _ _ _ => ⟨trivial, fun _ => trivial⟩) (),
    by decide +kernel⟩

/-- **C109.**  An actor that only adds elements to the array, and otherwise makes calls that change no array, is given the elements that the array had at
the start. -/
theorem C109_adds {w : World V} (hw : Reachable grow w) {a : Nat} {l : List (Option V)} {f : Bool} (h : view w a = some (l, f))
    {actor : S → Nat → Option V → Prog V S} (ha : ∀ s i c, (actor s i c).Calls (OnlyAdds a)) (hg : ∀ s i c, (actor s i c).Goes) (s : S) :
    ∃ x w', each grow a actor s w = some (x, w') ∧ x.seen.map (·.2) = l := by
  obtain ⟨g, hg', rfl, rfl⟩ := view_some h
  have hin := hw.bnd.arrs a g hg'
  have hb : Before w a g.sl (read w.stores g.sl) := ⟨hin, ⟨g, hg', .inr (Nat.le_refl _)⟩, rfl⟩
  generalize hl : read w.stores g.sl = l at hb ⊢
  obtain ⟨x, w', e1, _, e2⟩ := visit_same (grow := grow) (actor := actor) (a := g.sl) (I := fun w => Bnd w ∧ Before w a g.sl l) (l := l)
    (fun h hq => ⟨exec_bnd h.1 _, h.2.exec h.1 hq⟩) (fun h => h.2.same) ha hg (s := s) (n := g.sl.len) (i := 0) ⟨hw.bnd, hb⟩
    (by rw [← hl, read_length hin]; omega)
  exact ⟨x, w', by rw [each_eq hg']; exact e1, e2⟩

example : ∃ x w', each Ex.dbl 0 Ex.adds () (Ex.run [.values false [1, 2, 3]]) = some (x, w') ∧ x.seen.map (·.2) = [some 1, some 2, some 3] :=
  C109_adds (actor := Ex.adds) (a := 0) ⟨_, rfl⟩ (f := false) (by decide +kernel) (fun _ _ _ => ⟨rfl, fun _ => trivial⟩) (fun _ _ _ _ => rfl) ()

/-- **C109.**  Changes of other arrays aren't noticed by a loop, in programs that don't let arrays share storage. -/
theorem C109_others_partial {w : World V} (hw : SafelyReachable grow w) {a : Nat} {l : List (Option V)} {f : Bool} (h : view w a = some (l, f))
    {actor : S → Nat → Option V → Prog V S} (ha : ∀ s i c, (actor s i c).Calls fun op => KeepsApart op ∧ ¬ Changes a op)
    (hg : ∀ s i c, (actor s i c).Goes) (s : S) :
    ∃ x w', each grow a actor s w = some (x, w') ∧ x.seen.map (·.2) = l := by
  obtain ⟨g, hg', rfl, rfl⟩ := view_some h
  have hin := hw.sep.bnd.arrs a g hg'
  have hs : Still w a g.sl (read w.stores g.sl) false := ⟨hw.sep, ⟨g, hg', rfl, fun h => nomatch h⟩, rfl⟩
  generalize hl : read w.stores g.sl = l at hs ⊢
  obtain ⟨x, w', e1, _, e2⟩ := visit_same (grow := grow) (actor := actor) (a := g.sl) (I := fun w => Still w a g.sl l false) (l := l)
    (fun h hq => h.exec hq.1 (.inr hq.2)) (fun h => h.same) ha hg (s := s) (n := g.sl.len) (i := 0) hs (by rw [← hl, read_length hin]; omega)
  exact ⟨x, w', by rw [each_eq hg']; exact e1, e2⟩

example : ∃ x w', each Ex.dbl 0 Ex.others () (Ex.run [.values false [1, 2], .values false [5]]) = some (x, w') ∧ x.seen.map (·.2) = [some 1, some 2] :=
  C109_others_partial (actor := Ex.others) (a := 0) ⟨[.values false [1, 2], .values false [5]], ⟨trivial, trivial, trivial⟩, rfl⟩ (f := false) (by decide +kernel)
    (fun _ _ _ => ⟨⟨trivial, by simp [Changes]⟩, fun _ => ⟨⟨trivial, by simp [Changes]⟩, fun _ => trivial⟩⟩) (fun _ _ _ _ _ => rfl) ()

/-- **C109.**  A loop over a frozen array sees its elements, whatever the actor tries to do to it and to others; in programs that don't let arrays share
storage. -/
theorem C109_frozen_partial {w : World V} (hw : SafelyReachable grow w) {a : Nat} {l : List (Option V)} (h : view w a = some (l, true))
    {actor : S → Nat → Option V → Prog V S} (ha : ∀ s i c, (actor s i c).Calls KeepsApart) (hg : ∀ s i c, (actor s i c).Goes) (s : S) :
    ∃ x w', each grow a actor s w = some (x, w') ∧ x.seen.map (·.2) = l := by
  obtain ⟨g, hg', rfl, hf⟩ := view_some h
  have hin := hw.sep.bnd.arrs a g hg'
  have hs : Still w a g.sl (read w.stores g.sl) true := ⟨hw.sep, ⟨g, hg', rfl, fun _ => hf⟩, rfl⟩
  generalize hl : read w.stores g.sl = l at hs ⊢
  obtain ⟨x, w', e1, _, e2⟩ := visit_same (grow := grow) (actor := actor) (a := g.sl) (I := fun w => Still w a g.sl l true) (l := l)
    (fun h hq => h.exec hq (.inl rfl)) (fun h => h.same) ha hg (s := s) (n := g.sl.len) (i := 0) hs (by rw [← hl, read_length hin]; omega)
  exact ⟨x, w', by rw [each_eq hg']; exact e1, e2⟩

example : ∃ x w', each Ex.dbl 0 Ex.drops () (Ex.run [.values true [1, 2, 3]]) = some (x, w') ∧ x.seen.map (·.2) = [some 1, some 2, some 3] :=
  C109_frozen_partial (actor := Ex.drops) (a := 0) ⟨[.values true [1, 2, 3]], ⟨trivial, trivial⟩, rfl⟩ (by decide +kernel) (fun _ _ _ => ⟨trivial, fun _ => trivial⟩) (fun _ _ _ _ => rfl) ()

/-! ### Where loops do what one wouldn't expect -/

/-- **C109** is violated: after elements have been removed, the actor is called with Go's `nil` for the last indexes, and isn't called for elements that
have moved to the front. -/
theorem C109_removed_violated :
    Ex.seen (each Ex.dbl 0 Ex.drops () (Ex.run [.values false [1, 2, 3]])) = some [some 1, some 3, none] := by decide +kernel

/-- **C109** is violated: after an element has been put in front, the actor is called for the same element again if there was room for it, and for the
elements of the start otherwise. -/
theorem C109_inserted_violated :
    Ex.seen (each Ex.dbl 0 Ex.inserts () (Ex.run [.values false [1, 2]])) = some [some 1, some 2] ∧
    Ex.seen (each Ex.dbl 0 Ex.inserts () (Ex.run [.withCapacity 9, .addValues 0 [1, 2]])) = some [some 1, some 1] := by decide +kernel

/-- **C109** is violated: after an element has been added, whether the actor is called with elements that are replaced later or with the old ones depends
on the capacity. -/
theorem C109_stale_violated :
    Ex.seen (each Ex.dbl 0 Ex.sets () (Ex.run [.values false [1, 2, 3]])) = some [some 1, some 2, some 3] ∧
    Ex.seen (each Ex.dbl 0 Ex.sets () (Ex.run [.withCapacity 9, .addValues 0 [1, 2, 3]])) = some [some 1, some 7, some 7] := by decide +kernel

end Verif.Arr
