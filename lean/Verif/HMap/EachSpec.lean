import Verif.HMap.EachModel
import Verif.HMap.Refine
/-!
# What a loop over a map sees when the map is changed in the loop

A cursor says which entries will be visited if the map isn't changed any more.  The changes of the map move it.
-/
set_option autoImplicit false
namespace Verif.HMap.Spec
open Verif.HMap

variable {K V S : Type} [KeyOps K] [ValOps V]

/-- `cur` is the key of the entry being visited while that entry is in the map.  The entries `gone` will be visited next although they no longer are in
the map, then those of `rest`, which are the last ones of the map. -/
structure Cursor (K V : Type) where
  cur : Option K
  gone : List (K × V)
  rest : List (K × V)

namespace Cursor

/-- The next entry. -/
def next : Cursor K V → Option ((K × V) × Cursor K V)
  | ⟨_, e :: gone, rest⟩ => some (e, ⟨none, gone, rest⟩)
  | ⟨_, [], e :: rest⟩ => some (e, ⟨some e.1, [], rest⟩)
  | ⟨_, [], []⟩ => none

/-- The value of a key has been replaced. -/
def set (c : Cursor K V) (k : K) (v : V) : Cursor K V :=
  { c with rest := c.rest.map fun e => if KeyOps.eq k e.1 then (e.1, v) else e }

/-- An entry has been added at the end of the map.  It is visited unless the loop is past the end. -/
def add (c : Cursor K V) (e : K × V) : Cursor K V :=
  match c.cur, c.rest with
  | none, [] => c
  | _, _ => { c with rest := c.rest ++ [e] }

/-- An entry has been removed from the map.  It isn't visited, unless it is the next one to the one just removed. -/
def remove (c : Cursor K V) (k : K) : Cursor K V :=
  match c.cur, c.rest with
  | some k', _ => if KeyOps.eq k k' then { c with cur := none } else { c with rest := erase c.rest k }
  | none, e :: r => if KeyOps.eq k e.1 then { c with gone := c.gone ++ [e], rest := r } else { c with rest := e :: erase r k }
  | none, [] => c

/-- The map has moved its entries to a larger table.  The loop goes on with the entries as they were. -/
def grow (c : Cursor K V) : Cursor K V := ⟨none, c.gone ++ c.rest, []⟩

end Cursor

/-- How a call moves the cursor of a loop over `m`; `st` are the maps before the call, and `r` and `r'` are how many entries `m` has room for before
and after it; there may be more entries already than there is room for. -/
inductive Moves (m : MRef) (st : AWorld K V) (c : Cursor K V) (r : Int) : Op K V → Cursor K V → Int → Prop
  /-- calls that don't change the entries of `m` -/
  | other {op : Op K V} : op.target ≠ some m → Moves m st c r op c r
  | refused {op : Op K V} : (step st op).1 = .panic → Moves m st c r op c r
  | nothing {a : MRef} {y : AMap K V} : st[a]? = some y → y.es = [] → Moves m st c r (.putAll m a) c r
  | replaced {k : K} {v : V} {x : AMap K V} : st[m]? = some x → x.frozen = false → (lookup k x.es).isSome = true →
      Moves m st c r (.put m k v) (c.set k v) r
  | added {k : K} {v : V} {x : AMap K V} {r' : Int} : st[m]? = some x → x.frozen = false → lookup k x.es = none → 1 ≤ r → r' = r - 1 →
      Moves m st c r (.put m k v) (c.add (KeyOps.freeze k, v)) r'
  | grown {k : K} {v : V} {x : AMap K V} {r' : Int} : st[m]? = some x → x.frozen = false → lookup k x.es = none → r ≤ 0 →
      Moves m st c r (.put m k v) c.grow r'
  | all {a : MRef} {x y : AMap K V} {r' : Int} : st[m]? = some x → x.frozen = false → st[a]? = some y → y.es ≠ [] → Moves m st c r (.putAll m a) c.grow r'
  | removed {k : K} {x : AMap K V} {r' : Int} : st[m]? = some x → x.frozen = false → r' = r + (if (lookup k x.es).isSome then 1 else 0) →
      Moves m st c r (.remove m k) (c.remove k) r'
  | removedAll {ks : List K} {x : AMap K V} {r' : Int} : st[m]? = some x → x.frozen = false →
      Moves m st c r (.removeAll m ks) (ks.foldl Cursor.remove c) r'

/-- What an actor does in a loop over `m`. -/
inductive Acts (m : MRef) : Prog K V S → AWorld K V → Cursor K V → Int → S × Bool → AWorld K V → Cursor K V → Int → Prop
  | ret {s : S} {go : Bool} {st c r} : Acts m (.ret s go) st c r (s, go) st c r
  | call {op : Op K V} {cont : Out K V → Prog K V S} {st c r c1 r1 x st' c' r'} : Moves m st c r op c1 r1 →
      Acts m (cont (step st op).1) (step st op).2 c1 r1 x st' c' r' → Acts m (.call op cont) st c r x st' c' r'

/-- What is seen of a loop over `m` up to the `n`th entry. -/
inductive Loops (m : MRef) (actor : S → K → V → Prog K V S) : Nat → S → AWorld K V → Cursor K V → Int → Seen K V S → AWorld K V → Prop
  | pause {s st c r} : Loops m actor 0 s st c r ⟨[], c.next.isSome, s⟩ st
  | ended {n s st c r} : c.next = none → Loops m actor (n + 1) s st c r ⟨[], false, s⟩ st
  | more {n s st c r e c1 s1 st1 c2 r2 x st'} : c.next = some (e, c1) → Acts m (actor s e.1 e.2) st c1 r (s1, true) st1 c2 r2 →
      Loops m actor n s1 st1 c2 r2 x st' → Loops m actor (n + 1) s st c r ⟨e :: x.seen, x.more, x.state⟩ st'
  | left {n s st c r e c1 s1 st1 c2 r2} : c.next = some (e, c1) → Acts m (actor s e.1 e.2) st c1 r (s1, false) st1 c2 r2 →
      Loops m actor (n + 1) s st c r ⟨[e], false, s1⟩ st1

/-! Kinds of calls in a loop over `m`, at the entry of `k` -/

/-- The calls that don't change `m` except that they may remove the entry of `k`. -/
abbrev OnlyRemoves (m : MRef) (k : K) (op : Op K V) : Prop := op.target = some m → op = .remove m k

/-- The calls that don't remove entries of `m`. -/
def RemovesNot (m : MRef) : Op K V → Prop
  | .remove m' _ | .removeAll m' _ => m' ≠ m
  | _ => True

/-- The calls that, if they change `m`, replace the value of the key `k` or of one in `keep`, or remove an entry whose key is none of these. -/
def Tame (m : MRef) (keep : List K) (k : K) : Op K V → Prop
  | .put m' k' _ => m' = m → k' = k ∨ k' ∈ keep
  | .remove m' k' => m' = m → KeyOps.eq k' k = false ∧ ∀ t ∈ keep, KeyOps.eq k' t = false
  | .putAll m' _ | .removeAll m' _ => m' ≠ m
  | _ => True

end Verif.HMap.Spec

namespace Verif.HMap
open Spec
variable {K V S : Type} [KeyOps K] [ValOps V]

/-- All calls of an actor are of this kind. -/
def Prog.Calls (P : Op K V → Prop) : Prog K V S → Prop
  | .ret _ _ => True
  | .call op cont => P op ∧ ∀ o, (cont o).Calls P

/-- The actor never ends the loop. -/
def Prog.Goes : Prog K V S → Prop
  | .ret _ go => go = true
  | .call _ cont => ∀ o, (cont o).Goes

def Prog.map {T : Type} (f : S → T) : Prog K V S → Prog K V T
  | .ret s go => .ret (f s) go
  | .call op cont => .call op fun o => (cont o).map f

/-- The actor, which first asks the map for the value of the key that it is given, and keeps in its state whether it always was the value given. -/
def checked (m : MRef) (actor : S → K → V → Prog K V S) : S × Prop → K → V → Prog K V (S × Prop) :=
  fun s k v => .call (.get m k) fun o => (actor s.1 k v).map fun s' => (s', s.2 ∧ o = .val (some v))

end Verif.HMap
