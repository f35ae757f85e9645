import Verif.HMap.Model
/-!
# Specification of maps: insertion-ordered dictionaries

A map is a list of key/value pairs in insertion order with pairwise different keys, and a frozen flag.  Nothing is
shared: an operation on one map never touches another one.
-/
namespace Verif.HMap.Spec
open Verif.HMap

variable {K V : Type} [KeyOps K] [ValOps V]

/-- The value stored for `k`. -/
def lookup (k : K) (es : List (K × V)) : Option V := (es.find? fun e => KeyOps.eq k e.1).map (·.2)

/-- Put: replaces the value of an existing key in place, adds a new key at the end. -/
def insert (es : List (K × V)) (k : K) (v : V) : List (K × V) :=
  if (lookup k es).isSome then es.map fun e => if KeyOps.eq k e.1 then (e.1, v) else e
  else es ++ [(KeyOps.freeze k, v)]

/-- Remove: the other entries keep their order. -/
def erase (es : List (K × V)) (k : K) : List (K × V) := es.filter fun e => !KeyOps.eq k e.1

def insertAll (es as : List (K × V)) : List (K × V) := as.foldl (fun es e => insert es e.1 e.2) es
def eraseAll (es : List (K × V)) (ks : List K) : List (K × V) := ks.foldl erase es

/-- No two keys are equal. -/
def DistinctKeys (es : List (K × V)) : Prop := es.Pairwise fun a b => KeyOps.eq a.1 b.1 = false

structure AMap (K V : Type) where
  es : List (K × V)
  frozen : Bool

/-- The maps a program has created, in order of creation. -/
abbrev AWorld (K V : Type) := List (AMap K V)

/-- The calls of the API.  `MRef` is the number of a map, in order of creation. -/
inductive Op (K V : Type) where
  | new (capacity : Nat)
  | newEmpty
  | ofList (kvs : List (K × V)) (frozen : Bool)
  | get (m : MRef) (k : K)
  | containsKey (m : MRef) (k : K)
  | len (m : MRef)
  | entries (m : MRef)
  | put (m : MRef) (k : K) (v : V)
  | putAll (m a : MRef)
  | remove (m : MRef) (k : K)
  | removeAll (m : MRef) (ks : List K)
  | freeze (m : MRef)
  | copy (m : MRef) (frozen : Bool)
  | map (m : MRef) (fn : K → V → V)
  | merge (m a : MRef)
  | withEntry (m : MRef) (k : K) (v : V)
  | without (m : MRef) (k : K)
  | withoutAll (m : MRef) (ks : List K)

/-- What the caller observes. -/
inductive Out (K V : Type) where
  | val (v : Option V)
  | bool (b : Bool)
  | nat (n : Nat)
  | list (es : List (K × V))
  | ref (m : MRef)
  | unit
  | panic
  | diverge

def Op.refs : Op K V → List MRef
  | .new _ | .newEmpty | .ofList _ _ => []
  | .get m _ | .containsKey m _ | .len m | .entries m | .put m _ _ | .remove m _ | .removeAll m _ | .freeze m
  | .copy m _ | .map m _ | .withEntry m _ _ | .without m _ | .withoutAll m _ => [m]
  | .putAll m a | .merge m a => [m, a]

/-- A new map. -/
def mk (s : AWorld K V) (a : AMap K V) : Out K V × AWorld K V := (.ref s.length, s ++ [a])

/-- A mutation of map `m`, which panics if the map is frozen. -/
def mutate (s : AWorld K V) (m : MRef) (a : AMap K V) (es : List (K × V)) (o : Out K V) : Out K V × AWorld K V :=
  if a.frozen then (.panic, s) else (o, s.set m { a with es := es })

/-- One call on the specification. -/
def step (s : AWorld K V) : Op K V → Out K V × AWorld K V
  | .new _ => mk s ⟨[], false⟩
  | .newEmpty => mk s ⟨[], true⟩
  | .ofList kvs frozen => mk s ⟨kvs, frozen⟩
  | .get m k => match s[m]? with
    | some a => (.val (lookup k a.es), s)
    | none => (.panic, s)
  | .containsKey m k => match s[m]? with
    | some a => (.bool (lookup k a.es).isSome, s)
    | none => (.panic, s)
  | .len m => match s[m]? with
    | some a => (.nat a.es.length, s)
    | none => (.panic, s)
  | .entries m => match s[m]? with
    | some a => (.list a.es, s)
    | none => (.panic, s)
  | .put m k v => match s[m]? with
    | some a => mutate s m a (insert a.es k v) (.val (lookup k a.es))
    | none => (.panic, s)
  | .putAll m a => match s[m]?, s[a]? with
    | some x, some y => if y.es = [] then (.unit, s) else mutate s m x (insertAll x.es y.es) .unit
    | _, _ => (.panic, s)
  | .remove m k => match s[m]? with
    | some a => mutate s m a (erase a.es k) (.val (lookup k a.es))
    | none => (.panic, s)
  | .removeAll m ks => match s[m]? with
    | some a => mutate s m a (eraseAll a.es ks) .unit
    | none => (.panic, s)
  | .freeze m => match s[m]? with
    | some a => (.unit, s.set m { a with frozen := true })
    | none => (.panic, s)
  | .copy m frozen => match s[m]? with
    | some a => if frozen && a.frozen then (.ref m, s)
        else mk s ⟨a.es.map fun e => (e.1, if frozen then ValOps.freeze e.2 else ValOps.thaw e.2), frozen⟩
    | none => (.panic, s)
  | .map m fn => match s[m]? with
    | some a => mk s ⟨a.es.map fun e => (e.1, fn e.1 e.2), a.frozen⟩
    | none => (.panic, s)
  | .merge m a => match s[m]?, s[a]? with
    | some x, some y =>
        if y.es = [] ∨ m = a then (.ref m, s)
        else if x.es = [] then (.ref a, s)
        else mk s ⟨insertAll x.es y.es, x.frozen⟩
    | _, _ => (.panic, s)
  | .withEntry m k v => match s[m]? with
    | some a => match lookup k a.es with
      | some o => if ValOps.veq v o then (.ref m, s) else mk s ⟨insert a.es k v, a.frozen⟩
      | none => mk s ⟨insert a.es k v, a.frozen⟩
    | none => (.panic, s)
  | .without m k => match s[m]? with
    | some a => if (lookup k a.es).isSome then mk s ⟨erase a.es k, a.frozen⟩ else (.ref m, s)
    | none => (.panic, s)
  | .withoutAll m ks => match s[m]? with
    | some a => if ks.any (fun k => (lookup k a.es).isSome) then mk s ⟨eraseAll a.es ks, a.frozen⟩ else (.ref m, s)
    | none => (.panic, s)

/-- What a program observes. -/
def run (s : AWorld K V) : List (Op K V) → List (Out K V) × AWorld K V
  | [] => ([], s)
  | op :: ops =>
    let (o, s') := step s op
    let (os, s'') := run s' ops
    (o :: os, s'')

end Verif.HMap.Spec

/-! ## The same programs on the code model -/
namespace Verif.HMap
open Spec
variable {K V : Type} [KeyOps K] [ValOps V]

/-- One call on the model of the code. -/
def call : Op K V → M (World K V) (Out K V)
  | .new c => do return .ref (← mapWithCapacity c)
  | .newEmpty => do return .ref (← emptyMap)
  | .ofList kvs frozen => do return .ref (← toMap kvs frozen)
  | .get m k => do return .val (← mget m k)
  | .containsKey m k => do return .bool (← containsKey m k)
  | .len m => do return .nat (← mlen m)
  | .entries m => do return .list (← entries m)
  | .put m k v => do return .val (← put m k v)
  | .putAll m a => do putAll m a; return .unit
  | .remove m k => do return .val (← remove m k)
  | .removeAll m ks => do removeAll m ks; return .unit
  | .freeze m => do freeze m; return .unit
  | .copy m frozen => do return .ref (← copy m frozen)
  | .map m fn => do return .ref (← mapMap m fn)
  | .merge m a => do return .ref (← merge m a)
  | .withEntry m k v => do return .ref (← withEntry m k v)
  | .without m k => do return .ref (← without m k)
  | .withoutAll m ks => do return .ref (← withoutAll m ks)

/-- A call by a program, which can only name maps that exist and which survives a panic (Go `recover`). -/
def exec (w : World K V) (op : Op K V) : Out K V × World K V :=
  if op.refs.all (· < w.maps.length) then
    match call op w with
    | .ok o w' => (o, w')
    | .panic w' => (.panic, w')
    | .diverge => (.diverge, w)
  else (.panic, w)

def execAll (w : World K V) : List (Op K V) → List (Out K V) × World K V
  | [] => ([], w)
  | op :: ops =>
    let (o, w') := exec w op
    let (os, w'') := execAll w' ops
    (o :: os, w'')

/-- The heap at the start of a program. -/
def World.init : World K V := ⟨[], []⟩

/-- The two calls whose documented behaviour the code does not meet (see `Props.lean`): building a map from a list with
repeated keys, and `With` of the `Nil` value. -/
def Regular : Op K V → Prop
  | .ofList kvs _ => DistinctKeys kvs
  | .withEntry _ _ v => ValOps.isNil v = false
  | _ => True

end Verif.HMap
