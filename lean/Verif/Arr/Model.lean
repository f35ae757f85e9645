import Verif.Value.Lists
/-!
# Arrays, with the storage that slices share

An array of `internal/array.go` holds a Go slice: a window into backing storage that other slices may share.  The heap
(`World`) has the backing stores, the array objects, and the Go slices that the program has obtained from `GoSlice`.

Simplifications, for the whole file:
* elements are of an abstract type `V` (a class gives `Equals`, `HashCode`, `FrozenCopy`, `ThawedCopy` and the `less`
  of `Sort`); a cell of a store can also be a Go `nil` (`none`).  `Freeze` of the elements is the subject of `Verif/Graph`.
* the capacity of a slice extends to the end of its store: the code uses no three-index slices.
* the growth of `append` is an arbitrary function `grow`, see below.
* callbacks are pure functions; for those that change the array see `Verif/Arr/EachModel`.  The iterable that is passed to `AddAll` and `WithAll` is an array.
* not modelled here: `Flatten` (see `Verif/Value/Lists`), `ToMap` (see `Verif/HMap`), `ReflectTo`, `Resolve`.
-/
namespace Verif.Arr
open HMap (KeyOps)

/-- What arrays need to know about elements; `KeyOps.freeze` is the `FrozenCopy` of a Freezable and the identity on others. -/
class ElemOps (V : Type) extends KeyOps V where
  /-- `ThawedCopy` of a Freezable, the value itself otherwise -/
  thaw : V → V
  /-- the `less` function of `Sort` -/
  less : V → V → Bool

/-- A Go slice: internal/array.go:15-18 has one in every array. -/
structure Sl where
  store : Nat
  off : Nat
  len : Nat
  deriving Repr, DecidableEq

/-- `array`: internal/array.go:15-18. -/
structure Obj where
  sl : Sl
  frozen : Bool
  deriving Repr, DecidableEq

structure World (V : Type) where
  stores : List (List (Option V))
  arrs : List Obj
  /-- the slices returned by `GoSlice` -/
  raws : List Sl
  deriving Repr, DecidableEq

abbrev Stores (V : Type) := List (List (Option V))

section
variable {V : Type}

def storeAt (st : Stores V) (i : Nat) : List (Option V) := st[i]?.getD []

/-- The elements of a slice. -/
def read (st : Stores V) (s : Sl) : List (Option V) := ((storeAt st s.store).drop s.off).take s.len

/-- `cap(s)` -/
def cap (st : Stores V) (s : Sl) : Nat := (storeAt st s.store).length - s.off

/-- Overwrites the cells from `i` on. -/
def overwrite (l : List (Option V)) (i : Nat) (xs : List (Option V)) : List (Option V) :=
  l.take i ++ xs ++ l.drop (i + xs.length)

/-- Writes `xs` into the store of `s`, from index `i` of the slice on. -/
def write (st : Stores V) (s : Sl) (i : Nat) (xs : List (Option V)) : Stores V :=
  st.set s.store (overwrite (storeAt st s.store) (s.off + i) xs)

/-- New storage holding `xs`, with `spare` further cells that are nil. -/
def alloc (st : Stores V) (xs : List (Option V)) (spare : Nat) : Sl × Stores V :=
  (⟨st.length, 0, xs.length⟩, st ++ [xs ++ List.replicate spare none])

/-- Go's `append(s, xs...)`: in place when the capacity suffices, into new storage of capacity `grow (cap s) n`, at least `n`,
otherwise.  (The growth policy is not part of the Go specification, so it is a parameter.) -/
def append (grow : Nat → Nat → Nat) (st : Stores V) (s : Sl) (xs : List (Option V)) : Sl × Stores V :=
  let n := s.len + xs.length
  if n ≤ cap st s then ({ s with len := n }, write st s s.len xs)
  else alloc st (read st s ++ xs) (grow (cap st s) n - n)

/-- `util.SliceCopy`: util/slice.go -/
def sliceCopy (st : Stores V) (s : Sl) : Sl × Stores V := alloc st (read st s) 0

end

/-- The calls. -/
inductive Op (V : Type) where
  /-- `Values(xs)` (frozen) and `MutableValues(xs)` -/
  | values (frozen : Bool) (xs : List V)
  /-- `ArrayWithCapacity(n)` -/
  | withCapacity (n : Nat)
  | add (a : Nat) (x : V)
  | addAll (a b : Nat)
  | addValues (a : Nat) (xs : List V)
  | insert (a : Nat) (pos : Int) (x : V)
  | set (a : Nat) (pos : Int) (x : V)
  | remove (a : Nat) (pos : Int)
  | removeValue (a : Nat) (x : V)
  | pop (a : Nat)
  | get (a : Nat) (pos : Int)
  | len (a : Nat)
  | frozen (a : Nat)
  | indexOf (a : Nat) (x : V)
  | freeze (a : Nat)
  | copy (a : Nat) (frozen : Bool)
  | slice (a : Nat) (i j : Int)
  | with (a : Nat) (x : V)
  | withAll (a b : Nat)
  | withValues (a : Nat) (xs : List V)
  | map (a : Nat) (f : Option V → V)
  | select (a : Nat) (p : Option V → Bool)
  | reject (a : Nat) (p : Option V → Bool)
  | sort (a : Nat)
  | unique (a : Nat)
  | goSlice (a : Nat)
  /-- the program writes `s[i] = x` into a slice it got from `GoSlice` -/
  | rawSet (r : Nat) (i : Nat) (x : V)
  /-- `WrapSlice(s)` -/
  | wrapSlice (r : Nat)

/-- What a call gives back. -/
inductive Out (V : Type) where
  | unit
  | panic
  | val (v : Option V)
  | popped (v : Option (Option V))
  | bool (b : Bool)
  | int (i : Int)
  | arr (a : Nat)
  | raw (r : Nat)
  deriving Repr, DecidableEq

section
variable {V : Type} [ElemOps V] (grow : Nat → Nat → Nat)

/-- A method call on the array `a`; a call on an array that does not exist is the panic of a nil pointer. -/
def onArr (w : World V) (a : Nat) (f : Obj → Out V × World V) : Out V × World V :=
  match w.arrs[a]? with
  | some g => f g
  | none => (.panic, w)

/-- The methods that start with `if v.frozen { panic }`. -/
def onMutable (w : World V) (a : Nat) (f : Obj → Out V × World V) : Out V × World V :=
  onArr w a fun g => if g.frozen then (.panic, w) else f g

/-- `v.slice = s` -/
def setSlice (w : World V) (a : Nat) (g : Obj) (r : Sl × Stores V) : World V :=
  { w with stores := r.2, arrs := w.arrs.set a { g with sl := r.1 } }

/-- `&array{slice: s, frozen: frozen}` -/
def newArr (w : World V) (r : Sl × Stores V) (frozen : Bool) : Out V × World V :=
  (.arr w.arrs.length, { w with stores := r.2, arrs := w.arrs ++ [⟨r.1, frozen⟩] })

/-- `val.Equals(a[i])`; a nil element is not equal to anything but the `Nil` value, which does not matter for the model. -/
def eqCell (x : V) : Option V → Bool
  | some y => KeyOps.eq x y
  | none => false

/-- `array.removePos`: internal/array.go:1201-1212.  `none`: out of range, nothing happens. -/
def removePos (st : Stores V) (s : Sl) (pos : Int) : Option (Option V × Sl × Stores V) :=
  if 0 ≤ pos ∧ pos < s.len then
    let p := pos.toNat
    let l := read st s
    -- copy(a[pos:], a[pos+1:]); a[newLen] = nil
    some (l[p]?.getD none, { s with len := s.len - 1 }, write st s p (l.drop (p + 1) ++ [none]))
  else none

/-- `array.Copy(false)` and `array.Copy(true)` after the test: internal/array.go:935-954. -/
def copyCells (frozen : Bool) (l : List (Option V)) : List (Option V) :=
  l.map fun c => c.map (if frozen then KeyOps.freeze else ElemOps.thaw)

/-- The elements as values; `none` if one of them is a Go nil. -/
def allSome : List (Option V) → Option (List V)
  | [] => some []
  | none :: _ => none
  | some v :: r => (allSome r).map (v :: ·)

def exec (w : World V) : Op V → Out V × World V
  -- internal/array.go:826-828, 769-775 and 789-804
  | .values frozen xs => newArr w (alloc w.stores (xs.map fun x => some (if frozen then KeyOps.freeze x else x)) 0) frozen
  -- internal/array.go:757-759
  | .withCapacity n => newArr w (alloc w.stores [] n) false
  -- internal/array.go:830-835
  | .add a x => onMutable w a fun g => (.unit, setSlice w a g (append grow w.stores g.sl [some x]))
  -- internal/array.go:837-848
  | .addAll a b => onMutable w a fun g => onArr w b fun h =>
    (.unit, setSlice w a g (append grow w.stores g.sl (read w.stores h.sl)))
  -- internal/array.go:850-855
  | .addValues a xs => onMutable w a fun g => (.unit, setSlice w a g (append grow w.stores g.sl (xs.map some)))
  -- internal/array.go:1118-1123: v.slice[:pos] needs pos <= cap, v.slice[pos:] needs pos <= len
  | .insert a pos x => onMutable w a fun g =>
    if 0 ≤ pos ∧ pos ≤ g.sl.len then
      let p := pos.toNat
      (.unit, setSlice w a g (append grow w.stores { g.sl with len := p } (some x :: (read w.stores g.sl).drop p)))
    else (.panic, w)
  -- internal/array.go:1263-1270
  | .set a pos x => onMutable w a fun g =>
    if 0 ≤ pos ∧ pos < g.sl.len then
      (.val ((read w.stores g.sl)[pos.toNat]?.getD none), { w with stores := write w.stores g.sl pos.toNat [some x] })
    else (.panic, w)
  -- internal/array.go:1214-1219
  | .remove a pos => onMutable w a fun g =>
    match removePos w.stores g.sl pos with
    | some (v, s, st) => (.val v, setSlice w a g (s, st))
    | none => (.val none, w)
  -- internal/array.go:1221-1226
  | .removeValue a x => onMutable w a fun g =>
    match removePos w.stores g.sl (Value.indexOf (eqCell x) (read w.stores g.sl)) with
    | some (v, s, st) => (.bool v.isSome, setSlice w a g (s, st))
    | none => (.bool false, w)
  -- internal/array.go:1414-1423
  | .pop a => onMutable w a fun g =>
    match removePos w.stores g.sl ((g.sl.len : Int) - 1) with
    | some (v, s, st) => (.popped (some v), setSlice w a g (s, st))
    | none => (.popped none, w)
  -- internal/array.go:1103-1105
  | .get a pos => onArr w a fun g =>
    if 0 ≤ pos ∧ pos < g.sl.len then (.val ((read w.stores g.sl)[pos.toNat]?.getD none), w) else (.panic, w)
  -- internal/array.go:1136-1138
  | .len a => onArr w a fun g => (.int g.sl.len, w)
  -- internal/array.go:1071-1073
  | .frozen a => onArr w a fun g => (.bool g.frozen, w)
  -- internal/array.go:1107-1116
  | .indexOf a x => onArr w a fun g => (.int (Value.indexOf (eqCell x) (read w.stores g.sl)), w)
  -- internal/array.go:1058-1069
  | .freeze a => onArr w a fun g => (.unit, { w with arrs := w.arrs.set a { g with frozen := true } })
  -- internal/array.go:935-954
  | .copy a frozen => onArr w a fun g =>
    if frozen && g.frozen then (.arr a, w)
    else newArr w (alloc w.stores (copyCells frozen (read w.stores g.sl)) 0) frozen
  -- internal/array.go:1272-1282: the upper bound of v.slice[i:j] is the capacity, not the length
  | .slice a i j => onArr w a fun g =>
    if g.frozen && i == 0 && j == g.sl.len then (.arr a, w)
    else if 0 ≤ i ∧ i ≤ j ∧ j ≤ cap w.stores g.sl then
      let ss : Sl := ⟨g.sl.store, g.sl.off + i.toNat, j.toNat - i.toNat⟩
      if !g.frozen then newArr w (sliceCopy w.stores ss) false else newArr w (ss, w.stores) true
    else (.panic, w)
  -- internal/array.go:1425-1427
  | .with a x => onArr w a fun g => newArr w (append grow w.stores g.sl [some x]) g.frozen
  -- internal/array.go:1429-1440
  | .withAll a b => onArr w a fun g => onArr w b fun h =>
    if h.sl.len = 0 then (.arr a, w)
    else
      let c := alloc w.stores (copyCells false (read w.stores g.sl)) 0
      let vs := read c.2 h.sl
      let vs := if g.frozen && !h.frozen then copyCells true vs else vs
      newArr w (append grow c.2 c.1 vs) g.frozen
  -- internal/array.go:1442-1447
  | .withValues a xs => onArr w a fun g =>
    if xs.length = 0 then (.arr a, w)
    else newArr w (append grow w.stores g.sl (xs.map fun x => some (if g.frozen then KeyOps.freeze x else x))) g.frozen
  -- internal/array.go:1140-1147
  | .map a f => onArr w a fun g => newArr w (alloc w.stores ((read w.stores g.sl).map fun c => some (f c)) 0) g.frozen
  -- internal/array.go:1251-1261, with the spare capacity that the appends leave
  | .select a p => onArr w a fun g =>
    let l := Value.select p (read w.stores g.sl)
    newArr w (alloc w.stores l (grow 0 l.length - l.length)) g.frozen
  -- internal/array.go:1235-1245
  | .reject a p => onArr w a fun g =>
    let l := Value.reject p (read w.stores g.sl)
    newArr w (alloc w.stores l (grow 0 l.length - l.length)) g.frozen
  -- internal/array.go:1284-1302
  | .sort a => onArr w a fun g =>
    if g.sl.len < 2 then (.arr a, w)
    else match allSome (read w.stores g.sl) with
      | none => (.panic, w)
      | some vs => newArr w (alloc w.stores ((Value.stableSort ElemOps.less vs).map some) 0) g.frozen
  -- internal/array.go:1384-1412: the result is u[:ui] of a slice of the original length
  | .unique a => onArr w a fun g =>
    if g.sl.len < 2 then (.arr a, w)
    else match allSome (read w.stores g.sl) with
      | none => (.panic, w)
      | some vs =>
        let u := Value.unique vs
        if u.length = vs.length then (.arr a, w)
        else newArr w (alloc w.stores (u.map some) (vs.length - u.length)) g.frozen
  -- internal/array.go:1083-1088
  | .goSlice a => onArr w a fun g =>
    if g.frozen then
      let r := sliceCopy w.stores g.sl
      (.raw w.raws.length, { w with stores := r.2, raws := w.raws ++ [r.1] })
    else (.raw w.raws.length, { w with raws := w.raws ++ [g.sl] })
  | .rawSet r i x =>
    match w.raws[r]? with
    | some s => if i < s.len then (.unit, { w with stores := write w.stores s i [some x] }) else (.panic, w)
    | none => (.panic, w)
  -- internal/array.go:761-765; ReplaceNil is left out
  | .wrapSlice r =>
    match w.raws[r]? with
    | some s => newArr w (s, w.stores) false
    | none => (.panic, w)

def execAll (w : World V) : List (Op V) → List (Out V) × World V
  | [] => ([], w)
  | op :: ops =>
    let (o, w') := exec grow w op
    let (os, w'') := execAll w' ops
    (o :: os, w'')

def World.init : World V := ⟨[], [], []⟩

end
end Verif.Arr
