import Verif.Arr.Model
/-!
# Loops over an array whose actor calls arrays, the one looped over included

Model of `array.All`, `Any`, `Each`, `EachWithIndex`, `Find`, `Map`, `One`, `Reduce`, `Reject` and `Select` (internal/array.go:857-875, 999-1011, 1024-1032,
1140-1170, 1235-1245, 1251-1261): all of them take `a := v.slice` and then go through `for i := range a`, reading `a[i]` from the storage of that slice
when it is its turn.

Simplified: the calls that the actor makes are those of `Op`, and it survives their panics (Go `recover`); what the methods make of the results of the
actor is in `Verif/Value/Lists`.
-/
set_option autoImplicit false
namespace Verif.Arr

variable {V S : Type} [ElemOps V] (grow : Nat → Nat → Nat)

/-- What an actor does: calls, the next one chosen with what the previous ones returned; it then returns its new state, and whether the loop is to go
on. -/
inductive Prog (V S : Type) where
  | ret (s : S) (go : Bool)
  | call (op : Op V) (cont : Out V → Prog V S)

def Prog.run : Prog V S → World V → (S × Bool) × World V
  | .ret s go, w => ((s, go), w)
  | .call op cont, w => (cont (exec grow w op).1).run (exec grow w op).2

/-- What has been seen of a loop: the indexes and elements that the actor was called with, and the state of the actor. -/
structure Seen (V S : Type) where
  seen : List (Nat × Option V)
  state : S

/-- The loop `for i := range a { actor(a[i]) }` of internal/array.go:999-1011 and of the other methods named above, from index `i` on, with `n` elements
to go; `none` is the panic of an index out of range. -/
def visit (actor : S → Nat → Option V → Prog V S) (a : Sl) : Nat → Nat → S → World V → Option (Seen V S × World V)
  | 0, _, s, w => some (⟨[], s⟩, w)
  | n + 1, i, s, w =>
    match (read w.stores a)[i]? with
    | none => none
    | some c =>
      let r := (actor s i c).run grow w
      if r.1.2 then (visit actor a n (i + 1) r.1.1 r.2).map fun x => (⟨(i, c) :: x.1.seen, x.1.state⟩, x.2)
      else some (⟨[(i, c)], r.1.1⟩, r.2)

/-- `array.EachWithIndex`: internal/array.go:1006-1011, and the other loops named above.  A call on an array that does not exist is a panic. -/
def each (a : Nat) (actor : S → Nat → Option V → Prog V S) (s : S) (w : World V) : Option (Seen V S × World V) :=
  match w.arrs[a]? with
  | some g => visit grow actor g.sl g.sl.len 0 s w
  | none => none

end Verif.Arr
