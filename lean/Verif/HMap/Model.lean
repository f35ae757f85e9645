import Verif.Core
/-!
# The hash map of `internal/map.go`, pointer by pointer

Nodes and maps live in a heap (`World`), addressed by index.  Only ever-growing allocation is modelled (Go has a garbage
collector).  The functions below follow `internal/map.go` statement by statement.

Simplifications, for the whole file:
* keys are of an abstract type `K` with the operations the code uses on keys (`HashCode`, `Equals`, `FrozenCopy`); values
  are of an abstract type `V` with `Equals`, the test for the `Nil` value, `FrozenCopy` and `ThawedCopy`.
  The conversion `Value(ki)` of Go values to dgo values is assumed to have been done.
* the load factor tests on `float64` are done on natural numbers: `float64(n) > float64(t)*0.75` is `4*n > 3*t`,
  which is the same for all sizes below 2^50.
* a loop over a chain of nodes takes the number of nodes in the heap as fuel, and yields `diverge` if that is not enough.
-/
namespace Verif.HMap

/-- The address of a node. -/
scoped notation "Ptr" => Nat
/-- The address of a map object. -/
scoped notation "MRef" => Nat

/-- What `hashMap` needs to know about keys. -/
class KeyOps (K : Type) where
  /-- `Value.HashCode()`, a Go `int`. -/
  hash : K → BitVec 64
  /-- `k.Equals(e)` -/
  eq : K → K → Bool
  /-- `frozenCopy(k)`: internal/map.go:900-905 -/
  freeze : K → K

/-- What `hashMap` needs to know about values. -/
class ValOps (V : Type) where
  /-- `v.Equals(w)` -/
  veq : V → V → Bool
  /-- `v.Equals(nil)` with a Go `nil`: true for the dgo `Nil` value only, internal/nil.go:31-33 -/
  isNil : V → Bool
  /-- `FrozenCopy` of a Freezable, the value itself otherwise -/
  freeze : V → V
  /-- `ThawedCopy` of a Freezable, the value itself otherwise -/
  thaw : V → V

/-- `hashNode`: internal/map.go:46-51 with the embedded `mapEntry` of 36-39. -/
structure Node (K V : Type) where
  key : K
  value : V
  hashNext : Option Ptr
  next : Option Ptr
  prev : Option Ptr
  deriving Repr, DecidableEq

/-- `hashMap`: internal/map.go:54-60.  A `nil` table is the empty list. -/
structure HM where
  table : List (Option Ptr)
  len : Nat
  first : Option Ptr
  last : Option Ptr
  frozen : Bool
  deriving Repr, DecidableEq

structure World (K V : Type) where
  nodes : List (Node K V)
  maps : List HM
  deriving Repr, DecidableEq

section
variable {K V : Type} [KeyOps K] [ValOps V]

/-- `tableSizeFor`: internal/map.go:883-898, on 64-bit words as the Go code (`cap` is a Go `int`, `n` a `uint`). -/
def tableSizeForW (cap : BitVec 64) : BitVec 64 :=
  if cap.slt 1 then 1
  else
    let n := cap - 1
    let n := n ||| (n >>> 1)
    let n := n ||| (n >>> 2)
    let n := n ||| (n >>> 4)
    let n := n ||| (n >>> 8)
    let n := n ||| (n >>> 16)
    let n := n + 1
    if (BitVec.ofNat 64 (2 ^ 30)).ult n then BitVec.ofNat 64 (2 ^ 30) else n

/-- `tableSizeFor` for the sizes that occur in the code below (lengths, never negative). -/
def tableSizeFor (cap : Nat) : Nat := (tableSizeForW (BitVec.ofNat 64 cap)).toNat

/-- `hash`: internal/map.go:907-909.  `>>` on a Go `int` is an arithmetic shift. -/
def mix (h : BitVec 64) : BitVec 64 := h ^^^ (h.sshiftRight 16)

/-- `(len(tbl) - 1) & hash(h)`: internal/map.go:516, 613, 658, 711, 751, 869. -/
def slot (tableLen : Nat) (h : BitVec 64) : Nat := ((BitVec.ofNat 64 tableLen - 1) &&& mix h).toNat

/-! ## Heap access -/

def getMap (m : MRef) : M (World K V) HM := fun w =>
  match w.maps[m]? with
  | some g => .ok g w
  | none => .panic w      -- nil pointer dereference; no API call leads here

def setMap (m : MRef) (g : HM) : M (World K V) Unit :=
  M.modify fun w => { w with maps := w.maps.set m g }

/-- `&hashMap{..}` -/
def allocMap (g : HM) : M (World K V) MRef := fun w =>
  .ok w.maps.length { w with maps := w.maps ++ [g] }

/-- The map allocated last is unreachable and is collected.  This only keeps the numbering of maps dense; it is used
where the code drops a map it has just made. -/
def dropMap : M (World K V) Unit := M.modify fun w => { w with maps := w.maps.dropLast }

def getNode (p : Ptr) : M (World K V) (Node K V) := fun w =>
  match w.nodes[p]? with
  | some n => .ok n w
  | none => .panic w

def setNode (p : Ptr) (n : Node K V) : M (World K V) Unit :=
  M.modify fun w => { w with nodes := w.nodes.set p n }

/-- `&hashNode{..}` -/
def allocNode (n : Node K V) : M (World K V) Ptr := fun w =>
  .ok w.nodes.length { w with nodes := w.nodes ++ [n] }

/-- `tbl[i]`, with the bounds check. -/
def tblGet (tbl : List (Option Ptr)) (i : Nat) : M (World K V) (Option Ptr) := fun w =>
  match tbl[i]? with
  | some p => .ok p w
  | none => .panic w

def fuel : M (World K V) Nat := fun w => .ok (w.nodes.length + 1) w

/-! ## Lookup -/

/-- The bucket loop `for e := tbl[hk]; e != nil; e = e.hashNext { if k.Equals(e.key) {..}; p = e }` of
internal/map.go:516-540, 614-620, 659-664, 713-736, 752-774.  Yields the node before the match and the match. -/
def findChain (k : K) : Nat → Option Ptr → Option Ptr → M (World K V) (Option (Option Ptr × Ptr))
  | _, _, none => pure none
  | 0, _, some _ => M.loop
  | f + 1, pp, some p => do
    let n ← getNode p
    if KeyOps.eq k n.key then pure (some (pp, p)) else findChain k f (some p) n.hashNext

/-- `hashMap.Get`: internal/map.go:508-544.  The four cases of the type switch differ only in how the Go compiler
inlines `HashCode` and `Equals`; `none` is the Go `nil`. -/
def mget (m : MRef) (k : K) : M (World K V) (Option V) := do
  let g ← getMap m
  if g.table.length = 0 then pure none
  else do
    let hd ← tblGet g.table (slot g.table.length (KeyOps.hash k))
    let f ← fuel
    match ← findChain k f none hd with
    | some (_, p) => do
      let n ← getNode p
      pure (some n.value)
    | none => pure none

/-- `hashMap.ContainsKey`: internal/map.go:416-418. -/
def containsKey (m : MRef) (k : K) : M (World K V) Bool := do
  let r ← mget m k
  pure r.isSome

/-- `hashMap.Len`: internal/map.go:571-573. -/
def mlen (m : MRef) : M (World K V) Nat := do
  let g ← getMap m
  pure g.len

/-- The loop `for e := g.first; e != nil; e = e.next { actor(e) }` of internal/map.go:341-393, 439-461, collecting what
the actor sees. -/
def walk : Nat → Option Ptr → M (World K V) (List (K × V))
  | _, none => pure []
  | 0, some _ => M.loop
  | f + 1, some p => do
    let n ← getNode p
    let r ← walk f n.next
    pure ((n.key, n.value) :: r)

/-- `hashMap.EachEntry`: internal/map.go:445-449, the entries in the order the actor sees them.  `EachKey`, `EachValue`,
`Each` (439-461) are the same loop. -/
def entries (m : MRef) : M (World K V) (List (K × V)) := do
  let g ← getMap m
  let f ← fuel
  walk f g.first

/-! ## Growth -/

/-- The loop of `resize`: internal/map.go:867-879; carries `nt`, `c.first` and `prev`. -/
def resizeLoop : Nat → Option Ptr → List (Option Ptr) → Option Ptr → Option Ptr →
    M (World K V) (List (Option Ptr) × Option Ptr × Option Ptr)
  | _, none, nt, first, prev => pure (nt, first, prev)
  | 0, some _, _, _, _ => M.loop
  | f + 1, some oe, nt, first, prev => do
    let o ← getNode oe
    let hk := slot nt.length (KeyOps.hash o.key)
    let hn ← tblGet nt hk
    let ne ← allocNode { key := o.key, value := o.value, hashNext := hn, next := none, prev := none }
    let first' ← match prev with
      | none => pure (some ne)
      | some pp => do
        let pn ← getNode pp
        setNode pp { pn with next := some ne }
        let nn ← getNode ne
        setNode ne { nn with prev := some pp }
        pure first
    let o' ← getNode oe
    resizeLoop f o'.next (nt.set hk (some ne)) first' (some ne)

/-- `resize`: internal/map.go:861-881 (`g` and `c` may be the same map). -/
def resize (m c : MRef) (capInc : Nat) : M (World K V) Unit := do
  let g ← getMap m
  let tl := tableSizeFor (g.table.length + capInc)
  let nt := List.replicate tl none
  let cm ← getMap c
  let f ← fuel
  let (nt', first, last) ← resizeLoop f g.first nt cm.first none
  setMap c { cm with table := nt', first := first, last := last }

/-! ## Mutators -/

/-- Lines 628-635 and 665-672: a new node at the head of its bucket and at the end of the list.  `len` is the caller's. -/
def appendNode (m : MRef) (hk : Nat) (k : K) (v : V) : M (World K V) Unit := do
  let g ← getMap m
  let hn ← tblGet g.table hk
  let nd ← allocNode { key := KeyOps.freeze k, value := v, hashNext := hn, next := none, prev := g.last }
  match g.first, g.last with
  | none, _ => setMap m { g with first := some nd, last := some nd, table := g.table.set hk (some nd) }
  | some _, some l => do
    let ln ← getNode l
    setNode l { ln with next := some nd }
    setMap m { g with last := some nd, table := g.table.set hk (some nd) }
  | some _, none => M.throw  -- g.last.next with g.last == nil

/-- `hashMap.Put`: internal/map.go:599-638. -/
def put (m : MRef) (k : K) (v : V) : M (World K V) (Option V) := do
  let g ← getMap m
  if g.frozen then M.throw
  else do
    let g := if g.table.length = 0 then { g with table := List.replicate (tableSizeFor 1) none } else g
    setMap m g
    let hd ← tblGet g.table (slot g.table.length (KeyOps.hash k))
    let f ← fuel
    match ← findChain k f none hd with
    | some (_, p) => do
      let n ← getNode p
      setNode p { n with value := v }
      pure (some n.value)
    | none => do
      if 4 * (g.len + 1) > 3 * g.table.length then resize m m 1 else pure ()
      let g' ← getMap m
      appendNode m (slot g'.table.length (KeyOps.hash k)) k v
      let g'' ← getMap m
      setMap m { g'' with len := g''.len + 1 }
      pure none

/-- The actor of `PutAll` for one entry: internal/map.go:655-674; returns by how much `l` grows. -/
def putAllEntry (m : MRef) (k : K) (v : V) : M (World K V) Nat := do
  let g ← getMap m
  let hk := slot g.table.length (KeyOps.hash k)
  let hd ← tblGet g.table hk
  let f ← fuel
  match ← findChain k f none hd with
  | some (_, p) => do
    let n ← getNode p
    setNode p { n with value := v }
    pure 0
  | none => do
    appendNode m hk k v
    pure 1

/-- `associations.EachEntry(..)` in `PutAll`: the argument's node list is read while `g` is written. -/
def putAllLoop (m : MRef) : Nat → Option Ptr → Nat → M (World K V) Nat
  | _, none, l => pure l
  | 0, some _, _ => M.loop
  | f + 1, some p, l => do
    let n ← getNode p
    let d ← putAllEntry m n.key n.value
    let n' ← getNode p
    putAllLoop m f n'.next (l + d)

/-- `hashMap.PutAll`: internal/map.go:640-676, for an argument that is a `hashMap`.  The test in line 650 compares with
`l` where `Put` compares with the table size; as `al > 0` it is always true. -/
def putAll (m a : MRef) : M (World K V) Unit := do
  let ga ← getMap a
  if ga.len = 0 then pure ()
  else do
    let g ← getMap m
    if g.frozen then M.throw
    else do
      if 4 * (g.len + ga.len) > 3 * g.len then resize m m ga.len else pure ()
      let ga' ← getMap a
      let f ← fuel
      let l ← putAllLoop m f ga'.first g.len
      let g' ← getMap m
      setMap m { g' with len := l }

/-- Taking the node `e` out of its bucket `hk`, where it follows `pp`: internal/map.go:717-721 and 755-759. -/
def unlinkBucket (m : MRef) (hk : Nat) (pp : Option Ptr) (e : Node K V) : M (World K V) Unit :=
  match pp with
  | none => do
    let g ← getMap m
    setMap m { g with table := g.table.set hk e.hashNext }
  | some q => do
    let qn ← getNode q
    setNode q { qn with hashNext := e.hashNext }

/-- internal/map.go:722-726 and 760-764 -/
def unlinkPrev (m : MRef) (e : Node K V) : M (World K V) Unit :=
  match e.prev with
  | none => do
    let g ← getMap m
    setMap m { g with first := e.next }
  | some q => do
    let qn ← getNode q
    setNode q { qn with next := e.next }

/-- internal/map.go:727-731 and 765-769 -/
def unlinkNext (m : MRef) (e : Node K V) : M (World K V) Unit :=
  match e.next with
  | none => do
    let g ← getMap m
    setMap m { g with last := e.prev }
  | some q => do
    let qn ← getNode q
    setNode q { qn with prev := e.prev }

/-- Unlinking of the node `p` found in bucket `hk` after `pp`: internal/map.go:716-732 and 755-770. -/
def unlink (m : MRef) (hk : Nat) (pp : Option Ptr) (p : Ptr) : M (World K V) Unit := do
  let e ← getNode p
  unlinkBucket m hk pp e
  unlinkPrev m e
  unlinkNext m e
  let g ← getMap m
  setMap m { g with len := g.len - 1 }

/-- `hashMap.Remove`: internal/map.go:706-738. -/
def remove (m : MRef) (k : K) : M (World K V) (Option V) := do
  let g ← getMap m
  if g.frozen then M.throw
  else do
    let hk := slot g.table.length (KeyOps.hash k)
    let hd ← tblGet g.table hk
    let f ← fuel
    match ← findChain k f none hd with
    | some (pp, p) => do
      let n ← getNode p
      unlink m hk pp p
      pure (some n.value)
    | none => pure none

/-- The actor of `RemoveAll` for one key: internal/map.go:750-775. -/
def removeKey (m : MRef) (k : K) : M (World K V) Unit := do
  let g ← getMap m
  let hk := slot g.table.length (KeyOps.hash k)
  let hd ← tblGet g.table hk
  let f ← fuel
  match ← findChain k f none hd with
  | some (pp, p) => unlink m hk pp p
  | none => pure ()

def removeKeys (m : MRef) : List K → M (World K V) Unit
  | [] => pure ()
  | k :: ks => do
    removeKey m k
    removeKeys m ks

/-- `hashMap.RemoveAll`: internal/map.go:740-776; the key array is given as the list of its elements. -/
def removeAll (m : MRef) (ks : List K) : M (World K V) Unit := do
  let g ← getMap m
  if g.frozen then M.throw
  else if g.len = 0 ∨ ks.length = 0 then pure ()
  else removeKeys m ks

/-! ## Non-mutating operations -/

/-- `for e := c.first; e != nil; e = e.next { e.value = f(e) }`: internal/map.go:428-434 and 578-580. -/
def mapNodes (fn : K → V → V) : Nat → Option Ptr → M (World K V) Unit
  | _, none => pure ()
  | 0, some _ => M.loop
  | f + 1, some p => do
    let n ← getNode p
    setNode p { n with value := fn n.key n.value }
    let n' ← getNode p
    mapNodes fn f n'.next

/-- `hashMap.Copy`: internal/map.go:420-437. -/
def copy (m : MRef) (frozen : Bool) : M (World K V) MRef := do
  let g ← getMap m
  if frozen && g.frozen then pure m
  else do
    let c ← allocMap { table := [], len := g.len, first := none, last := none, frozen := frozen }
    resize m c 0
    let cm ← getMap c
    let f ← fuel
    mapNodes (fun _ v => if frozen then ValOps.freeze v else ValOps.thaw v) f cm.first
    pure c

/-- `hashMap.Map`: internal/map.go:575-582. -/
def mapMap (m : MRef) (fn : K → V → V) : M (World K V) MRef := do
  let g ← getMap m
  let c ← allocMap { table := [], len := g.len, first := none, last := none, frozen := g.frozen }
  resize m c 0
  let cm ← getMap c
  let f ← fuel
  mapNodes fn f cm.first
  pure c

/-- `hashMap.Merge`: internal/map.go:584-597. -/
def merge (m a : MRef) : M (World K V) MRef := do
  let ga ← getMap a
  if ga.len = 0 ∨ m = a then pure m
  else do
    let g ← getMap m
    if g.len = 0 then pure a
    else do
      let c ← allocMap { table := [], len := g.len, first := none, last := none, frozen := false }
      resize m c (g.len + ga.len)
      putAll c a
      let cm ← getMap c
      setMap c { cm with frozen := g.frozen }
      pure c

/-- `val.Equals(g.Get(key))` of line 804: the argument is a Go `nil` when the key is absent. -/
def eqGot (v : V) : Option V → Bool
  | none => ValOps.isNil v
  | some o => ValOps.veq v o

/-- `hashMap.With`: internal/map.go:797-813. -/
def withEntry (m : MRef) (k : K) (v : V) : M (World K V) MRef := do
  let g ← getMap m
  if g.table.length = 0 then do
    let c ← allocMap { table := List.replicate (tableSizeFor 8) none, len := g.len, first := none, last := none,
                       frozen := false }
    let _ ← put c k v
    let cm ← getMap c
    setMap c { cm with frozen := g.frozen }
    pure c
  else do
    let old ← mget m k
    if eqGot v old then pure m
    else do
      let c ← allocMap { table := [], len := g.len, first := none, last := none, frozen := false }
      resize m c 1
      let _ ← put c k v
      let cm ← getMap c
      setMap c { cm with frozen := g.frozen }
      pure c

/-- `hashMap.Without`: internal/map.go:815-825. -/
def without (m : MRef) (k : K) : M (World K V) MRef := do
  match ← mget m k with
  | none => pure m
  | some _ => do
    let g ← getMap m
    let c ← allocMap { table := [], len := g.len, first := none, last := none, frozen := false }
    resize m c 0
    let _ ← remove c k
    let cm ← getMap c
    setMap c { cm with frozen := g.frozen }
    pure c

/-- `hashMap.WithoutAll`: internal/map.go:827-839. -/
def withoutAll (m : MRef) (ks : List K) : M (World K V) MRef := do
  let g ← getMap m
  if g.len = 0 ∨ ks.length = 0 then pure m
  else do
    let c ← allocMap { table := [], len := g.len, first := none, last := none, frozen := false }
    resize m c 0
    removeAll c ks
    let cm ← getMap c
    if g.len = cm.len then do
      dropMap
      pure m
    else do
      setMap c { cm with frozen := g.frozen }
      pure c

/-! ## Construction -/

/-- `MapWithCapacity`: internal/map.go:333-339 (`int(float64(capacity) / 0.75)` is `4*capacity/3`, exact below 2^50).
The Go argument may be negative, which is treated as 0. -/
def mapWithCapacity (capacity : Nat) : M (World K V) MRef :=
  let c := if capacity = 0 then 8 else capacity
  allocMap { table := List.replicate (tableSizeFor (4 * c / 3)) none, len := 0, first := none, last := none,
             frozen := false }

/-- `emptyMap`: internal/map.go:189, what `vf.Map()` returns. -/
def emptyMap : M (World K V) MRef :=
  allocMap { table := [], len := 0, first := none, last := none, frozen := true }

/-- The loop of `array.ToMap`: internal/array.go:1320-1337, on the pairs of the array (an odd last key is paired with
`Nil` by the caller). -/
def toMapLoop (tl : Nat) : List (K × V) → List (Option Ptr) → Option Ptr → Option Ptr →
    M (World K V) (List (Option Ptr) × Option Ptr × Option Ptr)
  | [], tbl, first, last => pure (tbl, first, last)
  | (k, v) :: r, tbl, first, last => do
    let hk := slot tl (KeyOps.hash k)
    let hn ← tblGet tbl hk
    let nd ← allocNode { key := k, value := v, hashNext := hn, next := none, prev := last }
    match first, last with
    | none, _ => toMapLoop tl r (tbl.set hk (some nd)) (some nd) (some nd)
    | some _, some l => do
      let ln ← getNode l
      setNode l { ln with next := some nd }
      toMapLoop tl r (tbl.set hk (some nd)) first (some nd)
    | some _, none => M.throw

/-- `array.ToMap`: internal/array.go:1308-1339. -/
def toMap (kvs : List (K × V)) (frozen : Bool) : M (World K V) MRef := do
  let tbl := List.replicate (tableSizeFor kvs.length) none
  let (tbl', first, last) ← toMapLoop tbl.length kvs tbl none none
  allocMap { table := tbl', len := kvs.length, first := first, last := last, frozen := frozen }

/-- One element of the array that `ToMapFromEntries` is called on. -/
inductive EntryArg (K V : Type) where
  /-- a `*hashNode`, by address -/
  | node (p : Ptr)
  /-- an array of two elements -/
  | pair (k : K) (v : V)
  /-- anything else -/
  | other

/-- The node for one element of `ToMapFromEntries`: internal/array.go:1349-1363; a node of another map is copied only if
it has a `hashNext`, otherwise it is taken over. `none` is the exit with `nil, false`. -/
def entryNode : EntryArg K V → M (World K V) (Option Ptr)
  | .other => pure none
  | .pair k v => do
    let nd ← allocNode { key := k, value := v, hashNext := none, next := none, prev := none }
    pure (some nd)
  | .node p => do
    let n ← getNode p
    if n.hashNext.isSome then do
      let nd ← allocNode { n with next := none }
      pure (some nd)
    else pure (some p)

/-- Linking the node `nd`: internal/array.go:1364-1373. -/
def linkEntry (tl : Nat) (nd : Ptr) (tbl : List (Option Ptr)) (first last : Option Ptr) :
    M (World K V) (List (Option Ptr) × Option Ptr × Option Ptr) := do
  let n ← getNode nd
  let hk := slot tl (KeyOps.hash n.key)
  let hn ← tblGet tbl hk
  setNode nd { n with hashNext := hn, prev := last }
  match first, last with
  | none, _ => pure (tbl.set hk (some nd), some nd, some nd)
  | some _, some l => do
    let ln ← getNode l
    setNode l { ln with next := some nd }
    pure (tbl.set hk (some nd), first, some nd)
  | some _, none => M.throw

/-- The loop of `array.ToMapFromEntries`: internal/array.go:1348-1374. -/
def fromEntriesLoop (tl : Nat) : List (EntryArg K V) → List (Option Ptr) → Option Ptr → Option Ptr →
    M (World K V) (Option (List (Option Ptr) × Option Ptr × Option Ptr))
  | [], tbl, first, last => pure (some (tbl, first, last))
  | e :: r, tbl, first, last => do
    match ← entryNode e with
    | none => pure none
    | some nd => do
      let (tbl', first', last') ← linkEntry tl nd tbl first last
      fromEntriesLoop tl r tbl' first' last'

/-- `array.ToMapFromEntries`: internal/array.go:1341-1376. -/
def toMapFromEntries (es : List (EntryArg K V)) (frozen : Bool) : M (World K V) (Option MRef) := do
  let tbl := List.replicate (tableSizeFor es.length) none
  match ← fromEntriesLoop tbl.length es tbl none none with
  | none => pure none
  | some (tbl', first, last) => do
    let m ← allocMap { table := tbl', len := es.length, first := first, last := last, frozen := frozen }
    pure (some m)

/-- `hashMap.Freeze`: internal/map.go:487-494; freezing of the values is `ValOps`' business and is modelled in
`Verif/Freeze`. -/
def freeze (m : MRef) : M (World K V) Unit := do
  let g ← getMap m
  setMap m { g with frozen := true }

end
end Verif.HMap
