import Verif.HMap.Spec
/-!
# Loops over a map whose actor calls maps, the one looped over included

Model of `hashMap.All`, `AllKeys`, `AllValues`, `Any`, `AnyKey`, `AnyValue`, `Each`, `EachEntry`, `EachKey`, `EachValue` and `Find`
(internal/map.go:341-393, 439-461, 478-485): the one loop `for e := g.first; e != nil; e = e.next { actor(e) }`, which reads `e.next` after the actor
has returned, or ends when a predicate says so.

Simplified: the actor is given the key and the value of the entry at the time of the call (for `Each`, `EachEntry`, `All`, `Any` and `Find` it is
given the node, which it may ask for its value later); the calls it makes are those of `Op`, and it survives their panics (Go `recover`).
-/
set_option autoImplicit false
namespace Verif.HMap
open Spec

variable {K V S : Type} [KeyOps K] [ValOps V]

/-- What an actor does: calls, the next one chosen with what the previous ones returned; it then returns its new state, and whether the loop is to go
on. -/
inductive Prog (K V S : Type) where
  | ret (s : S) (go : Bool)
  | call (op : Op K V) (cont : Out K V → Prog K V S)

def Prog.run : Prog K V S → M (World K V) (S × Bool)
  | .ret s go => pure (s, go)
  | .call op cont => fun w => (cont (exec w op).1).run (exec w op).2

/-- What has been seen of a loop: the entries given to the actor, whether there are more, and the state of the actor. -/
structure Seen (K V S : Type) where
  seen : List (K × V)
  more : Bool
  state : S

/-- The loop `for e := …; e != nil; e = e.next { actor(e) }` of internal/map.go:341-393, 439-461 and 478-485, for up to `n` entries. -/
def visit (actor : S → K → V → Prog K V S) : Nat → Option Ptr → S → M (World K V) (Seen K V S)
  | 0, cur, s => pure ⟨[], cur.isSome, s⟩
  | _ + 1, none, s => pure ⟨[], false, s⟩
  | n + 1, some p, s => do
    let e ← getNode p
    let r ← (actor s e.key e.value).run
    if r.2 then do
      let e' ← getNode p
      let x ← visit actor n e'.next r.1
      pure ⟨(e.key, e.value) :: x.seen, x.more, x.state⟩
    else pure ⟨[(e.key, e.value)], false, r.1⟩

/-- `hashMap.EachEntry`: internal/map.go:445-449, and the other loops named above: what has happened after `n` entries. -/
def each (m : MRef) (actor : S → K → V → Prog K V S) (n : Nat) (s : S) : M (World K V) (Seen K V S) := do
  let g ← getMap m
  visit actor n g.first s

end Verif.HMap
