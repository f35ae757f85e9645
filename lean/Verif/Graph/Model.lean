import Verif.Core
import Verif.HMap.Model
import Verif.Value.Model
/-!
# Object graphs: freezing, copying and equality

Collections as objects with identity, which may contain each other and themselves.

Simplifications, for the whole file:
* scalar values (`atom`) are represented by integers: values that are not `Freezable`, that cannot contain anything, and whose
  `Equals` compares content.  Keys of maps are such values.  (Keys that are collections are frozen copies.)
* an array owns its elements: sharing of backing storage is the subject of `Verif/Arr`.
* the table of a map is represented by its length, which decides when entries get new node objects; lookup by key is what
  `Verif/HMap` proves it to be, the first entry with that key.
* a native value is opaque.  Types, functions, aliases and struct values are not modelled.
* recursion depth is bounded by fuel; `diverge` means that it does not suffice.  (In Go: stack overflow.)
-/
set_option autoImplicit false
namespace Verif.Graph

/-- A `dgo.Value` in an element or variable. -/
inductive Ref where
  | atom (i : BitVec 64)
  | obj (p : Nat)
  deriving Repr, DecidableEq

inductive Obj where
  /-- internal/array.go:15-18 -/
  | arr (frozen : Bool) (es : List Ref)
  /-- internal/map.go:54-60: the length of the table, and the addresses of the nodes in iteration order -/
  | map (frozen : Bool) (tl : Nat) (es : List Nat)
  /-- internal/map.go:36-51, a `mapEntry` or `hashNode` -/
  | entry (k : BitVec 64) (v : Ref)
  /-- internal/binary.go:26-29 -/
  | bin (frozen : Bool) (bytes : List UInt8)
  /-- internal/sensitive.go:10-12 -/
  | sens (v : Ref)
  /-- internal/native.go:12 -/
  | native (id : Nat)
  deriving Repr, DecidableEq

abbrev Heap := List Obj

def load (p : Nat) : M Heap Obj := fun h =>
  match h[p]? with
  | some o => .ok o h
  | none => .panic h

def store (p : Nat) (o : Obj) : M Heap Unit := M.modify fun h => h.set p o

def alloc (o : Obj) : M Heap Nat := fun h => .ok h.length (h ++ [o])

def forEach {α : Type} (f : α → M Heap Unit) : List α → M Heap Unit
  | [] => pure ()
  | a :: as => do
    f a
    forEach f as

def mapEach {α β : Type} (f : α → M Heap β) : List α → M Heap (List β)
  | [] => pure []
  | a :: as => do
    let b ← f a
    let bs ← mapEach f as
    pure (b :: bs)

/-- The key and value of a node. -/
def loadEntry (e : Nat) : M Heap (BitVec 64 × Ref) := do
  match ← load e with
  | .entry k v => pure (k, v)
  | _ => M.throw    -- not an entry: cannot happen in a heap that programs make

/-! ## Freezing -/

/-- `Freeze`: array.go:1058-1069, map.go:487-494, map.go:112-116 (entries), binary.go:344-351, sensitive.go:126-130,
native.go:94-98.  Values that are not `Freezable` are skipped by the callers. -/
def freeze : Nat → Ref → M Heap Unit
  | _, .atom _ => pure ()
  | 0, .obj _ => M.loop
  | n + 1, .obj p => do
    match ← load p with
    | .arr f es =>
      if f then pure ()
      else do
        store p (.arr true es)
        forEach (freeze n) es
    | .map f tl es =>
      if f then pure ()
      else do
        store p (.map true tl es)
        forEach (fun e => freeze n (.obj e)) es
    | .entry _ v => freeze n v
    | .bin _ bs => store p (.bin true bs)
    | .sens v => freeze n v
    | .native _ => M.throw

/-- `Frozen`: array.go:1071-1073, map.go:496-498, map.go:118-123 (entries), binary.go:353-355, sensitive.go:132-137,
native.go:100-102; true for a value that is not `Freezable`. -/
def isFrozen : Nat → Ref → M Heap Bool
  | _, .atom _ => pure true
  | 0, .obj _ => M.loop
  | n + 1, .obj p => do
    match ← load p with
    | .arr f _ => pure f
    | .map f _ _ => pure f
    | .entry _ v => isFrozen n v
    | .bin f _ => pure f
    | .sens v => isFrozen n v
    | .native _ => pure false

/-- `FrozenCopy`: array.go:935-954 and 1075-1077, map.go:420-437 and 500-502, map.go:125-132 and 142-149 (entries),
binary.go:279-286, sensitive.go:139-144, native.go:104-106.  The nodes of a copied map are allocated by `resize` before the
values are copied; here each node is allocated after its value, which only changes addresses. -/
def frozenCopy : Nat → Ref → M Heap Ref
  | _, .atom i => pure (.atom i)
  | 0, .obj _ => M.loop
  | n + 1, .obj p => do
    match ← load p with
    | .arr f es =>
      if f then pure (.obj p)
      else do
        let es' ← mapEach (frozenCopy n) es
        let q ← alloc (.arr true es')
        pure (.obj q)
    | .map f tl es =>
      if f then pure (.obj p)
      else do
        let es' ← mapEach (fun e => do
          let kv ← loadEntry e
          let v' ← frozenCopy n kv.2
          alloc (.entry kv.1 v')) es
        let q ← alloc (.map true (HMap.tableSizeFor tl) es')
        pure (.obj q)
    | .entry k v => do
      if ← isFrozen n v then pure (.obj p)
      else do
        let v' ← frozenCopy n v
        let q ← alloc (.entry k v')
        pure (.obj q)
    | .bin f bs =>
      if f then pure (.obj p)
      else do
        let q ← alloc (.bin true bs)
        pure (.obj q)
    | .sens v => do
      if ← isFrozen n v then pure (.obj p)
      else do
        let v' ← frozenCopy n v
        let q ← alloc (.sens v')
        pure (.obj q)
    | .native _ => M.throw

/-- `ThawedCopy`: array.go:935-954 and 1079-1081, map.go:420-437 and 504-506, map.go:134-140 and 151-157 (entries: the
thawed value is stored in the receiver), binary.go:279-286, sensitive.go:146-151, native.go:108-110. -/
def thawedCopy : Nat → Ref → M Heap Ref
  | _, .atom i => pure (.atom i)
  | 0, .obj _ => M.loop
  | n + 1, .obj p => do
    match ← load p with
    | .arr _ es => do
      let es' ← mapEach (thawedCopy n) es
      let q ← alloc (.arr false es')
      pure (.obj q)
    | .map _ tl es => do
      let es' ← mapEach (fun e => do
        let kv ← loadEntry e
        let v' ← thawedCopy n kv.2
        alloc (.entry kv.1 v')) es
      let q ← alloc (.map false (HMap.tableSizeFor tl) es')
      pure (.obj q)
    | .entry k v => do
      let q ← alloc (.entry k v)
      let v' ← thawedCopy n v
      store p (.entry k v')
      pure (.obj q)
    | .bin _ bs => do
      let q ← alloc (.bin false bs)
      pure (.obj q)
    | .sens v =>
      match v with
      | .atom _ => pure (.obj p)
      | .obj _ => do
        let v' ← thawedCopy n v
        let q ← alloc (.sens v')
        pure (.obj q)
    | .native _ => M.throw

/-! ## Equality -/

/-- The key and value at a node address, if there is a node. -/
def entryAt (h : Heap) (e : Nat) : Option (BitVec 64 × Ref) :=
  match h[e]? with
  | some (.entry k v) => some (k, v)
  | _ => none

/-- The entries of a map. -/
def entriesOf (h : Heap) : List Nat → Option (List (BitVec 64 × Ref))
  | [] => some []
  | e :: es =>
    match entryAt h e, entriesOf h es with
    | some kv, some r => some (kv :: r)
    | _, _ => none

/-- The loop of `sliceEquals`, internal/compare.go:136-147, after the comparison of the lengths. -/
def sliceEq (f : Ref → Ref → Option Bool) : List Ref → List Ref → Option Bool
  | a :: as, b :: bs =>
    match f a b with
    | some true => sliceEq f as bs
    | r => r
  | _, _ => some true

/-- The loop of `mapEqual`, internal/map.go:471-476, after the comparison of the lengths.  `om.Get` of an absent key is a Go
`nil`, for which `equals` is false. -/
def mapEq (f : Ref → Ref → Option Bool) : List (BitVec 64 × Ref) → List (BitVec 64 × Ref) → Option Bool
  | [], _ => some true
  | (k, v) :: r, bs =>
    match bs.find? fun e => k == e.1 with
    | none => some false
    | some e =>
      match f v e.2 with
      | some true => mapEq f r bs
      | x => x

/-- The `deepEqual` methods: array.go:1017-1022, map.go:467-476, map.go:97-102, sensitive.go:119-124.  `none`: a node address
that is not a node, or fuel exhausted inside. -/
def deepEq (h : Heap) (f : Ref → Ref → Option Bool) : Obj → Obj → Option Bool
  | .arr _ as, .arr _ bs => if as.length = bs.length then sliceEq f as bs else some false
  | .map _ _ es, .map _ _ es' =>
    if es.length = es'.length then
      match entriesOf h es, entriesOf h es' with
      | some as, some bs => mapEq f as bs
      | _, _ => none
    else some false
  | .entry k v, .entry k' v' => if k == k' then f v v' else some false
  | .sens v, .sens v' => f v v'
  | _, _ => some false

/-- Does the object implement `deepEqual`? -/
def Obj.deep : Obj → Bool
  | .bin _ _ | .native _ => false
  | _ => true

/-- `equals`: internal/compare.go:113-134.  `seen` are the addresses in the `seen` slice.  A native is equal to itself only
(simplified). -/
def geq : Nat → Heap → List Nat → Ref → Ref → Option Bool
  | 0, _, _, _, _ => none
  | n + 1, h, seen, a, b =>
    if a = b then some true
    else
      match a with
      | .atom _ => some false
      | .obj p =>
        match h[p]? with
        | none => none
        | some oa =>
          if oa.deep then
            if seen.contains p then some true
            else
              match b with
              | .atom _ => some false
              | .obj q =>
                match h[q]? with
                | none => none
                | some ob => if ob.deep then deepEq h (geq n h (p :: seen)) oa ob else some false
          else
            match oa, b with
            | .bin _ bs, .obj q =>
              match h[q]? with
              | some (.bin _ bs') => some (bs == bs')
              | some _ => some false
              | none => none
            | _, _ => some false

/-! ## Hash codes -/

/-- `h*31 + x` over the elements -/
def hashList (f : Ref → Option (BitVec 64)) : BitVec 64 → List Ref → Option (BitVec 64)
  | acc, [] => some acc
  | acc, r :: rs =>
    match f r with
    | some x => hashList f (31 * acc + x) rs
    | none => none

def hashNodes (f : Ref → Option (BitVec 64)) : List Nat → Option (List (BitVec 64))
  | [] => some []
  | e :: r =>
    match f (.obj e), hashNodes f r with
    | some x, some xs => some (x :: xs)
    | _, _ => none

/-- The `deepHashCode` methods: array.go:1094-1101, map.go:550-565, map.go:108-110, sensitive.go:157-159. -/
def deepHash (f : Ref → Option (BitVec 64)) : Obj → Option (BitVec 64)
  | .arr _ es => hashList f 1 es
  | .map _ _ es => (hashNodes f es).map fun xs => Value.fold31 (Value.sortInts xs)
  | .entry k v => (f v).map fun x => Value.hash (.int k) ^^^ x
  | .sens v => (f v).map (· * 7)
  | .bin _ bs => some (Value.hash (.bin bs))
  | .native id => some (BitVec.ofNat 64 id)

/-- `deepHashCode`: internal/compare.go:98-106. -/
def ghash : Nat → Heap → List Nat → Ref → Option (BitVec 64)
  | _, _, _, .atom i => some (Value.hash (.int i))
  | 0, _, _, .obj _ => none
  | n + 1, h, seen, .obj p =>
    match h[p]? with
    | none => none
    | some o =>
      if o.deep then
        if seen.contains p then some 0 else deepHash (ghash n h (p :: seen)) o
      else deepHash (fun _ => none) o

/-- `HashCode`: an array calls its method directly with no `seen` (array.go:1090-1092); maps, entries and sensitive values go
through `deepHashCode(nil, v)` (map.go:104-106 and 546-548, sensitive.go:153-155). -/
def hashCode (n : Nat) (h : Heap) (p : Nat) : Option (BitVec 64) :=
  match h[p]? with
  | some (.arr f es) => deepHash (ghash n h []) (.arr f es)
  | _ => ghash n h [] (.obj p)

/-! ## Calls -/

inductive Op where
  /-- `MutableValues` -/
  | newArr (es : List Ref)
  /-- `Values`: elements are frozen copies -/
  | values (es : List Ref)
  | add (p : Nat) (r : Ref)
  | set (p : Nat) (i : Nat) (r : Ref)
  | insert (p : Nat) (i : Nat) (r : Ref)
  /-- `Remove`, `RemoveValue` and `Pop` -/
  | removeAt (p : Nat) (i : Nat)
  | addAll (p q : Nat)
  /-- `Select`, `Reject`, `Slice`, `Unique`, `Sort`: an array of some of the elements -/
  | pick (p : Nat) (is : List Nat)
  | arrMap (p : Nat) (f : Ref → Ref)
  | with (p : Nat) (r : Ref)
  | withValues (p : Nat) (rs : List Ref)
  | withAll (p q : Nat)
  /-- `MapWithCapacity` -/
  | newMap (tl : Nat)
  /-- `emptyMap` -/
  | emptyMap
  | put (p : Nat) (k : BitVec 64) (r : Ref)
  | putAll (p q : Nat)
  | remove (p : Nat) (k : BitVec 64)
  | mapWith (p : Nat) (k : BitVec 64) (r : Ref)
  | without (p : Nat) (k : BitVec 64)
  | merge (p q : Nat)
  | mapMap (p : Nat) (f : BitVec 64 → Ref → Ref)
  /-- `Values` of a map -/
  | mapValues (p : Nat)
  /-- `NewMapEntry` -/
  | newEntry (k : BitVec 64) (r : Ref)
  | newBin (frozen : Bool) (bs : List UInt8)
  | sensitive (r : Ref)
  | native (id : Nat)
  | freeze (r : Ref)
  | frozenCopy (r : Ref)
  | thawedCopy (r : Ref)

def loadArr (p : Nat) : M Heap (Bool × List Ref) := do
  match ← load p with
  | .arr f es => pure (f, es)
  | _ => M.throw

def loadMap (p : Nat) : M Heap (Bool × Nat × List Nat) := do
  match ← load p with
  | .map f tl es => pure (f, tl, es)
  | _ => M.throw

/-- The array methods that start with `if v.frozen { panic }`. -/
def onMutableArr (p : Nat) (f : List Ref → M Heap Ref) : M Heap Ref := do
  let (fr, es) ← loadArr p
  if fr then M.throw else f es

/-- New nodes for all entries: the loop of `resize`, internal/map.go:861-881. -/
def renode (es : List Nat) : M Heap (List Nat) :=
  mapEach (fun e => do
    let kv ← loadEntry e
    alloc (.entry kv.1 kv.2)) es

/-- The address of the node with the key, if there is one. -/
def findNode (k : BitVec 64) : List Nat → M Heap (Option Nat)
  | [] => pure none
  | e :: es => do
    let kv ← loadEntry e
    if k == kv.1 then pure (some e) else findNode k es

/-- The entry with the key gets the value, or a new entry is added; internal/map.go:655-674. -/
def putNode (es : List Nat) (k : BitVec 64) (r : Ref) : M Heap (List Nat) := do
  match ← findNode k es with
  | some e => do
    store e (.entry k r)
    pure es
  | none => do
    let e ← alloc (.entry k r)
    pure (es ++ [e])

/-- internal/map.go:622-626: the table is resized when it gets too full. -/
def grow (tl : Nat) (es : List Nat) : M Heap (Nat × List Nat) :=
  if 4 * (es.length + 1) > 3 * tl then do
    let es' ← renode es
    pure (HMap.tableSizeFor (tl + 1), es')
  else pure (tl, es)

/-- `hashMap.Put` on a map object: internal/map.go:599-638; the previous value is not returned. -/
def mput (p : Nat) (k : BitVec 64) (r : Ref) : M Heap Unit := do
  let (fr, tl, es) ← loadMap p
  if fr then M.throw
  else do
    let tl := if tl = 0 then HMap.tableSizeFor 1 else tl
    match ← findNode k es with
    | some e => do
      store p (.map fr tl es)
      store e (.entry k r)
    | none => do
      let (tl, es) ← grow tl es
      let e ← alloc (.entry k r)
      store p (.map fr tl (es ++ [e]))

/-- The entries of the argument, one after the other. -/
def putNodes (es : List Nat) : List Nat → M Heap (List Nat)
  | [] => pure es
  | a :: as => do
    let kv ← loadEntry a
    let es' ← putNode es kv.1 kv.2
    putNodes es' as

/-- `hashMap.PutAll`: internal/map.go:640-676. -/
def mputAll (p q : Nat) : M Heap Unit := do
  let (_, _, as) ← loadMap q
  if as.length = 0 then pure ()
  else do
    let (fr, tl, es) ← loadMap p
    if fr then M.throw
    else do
      let es' ← renode es
      let tl' := HMap.tableSizeFor (tl + as.length)
      store p (.map fr tl' es')
      let (_, _, as') ← loadMap q
      let es'' ← putNodes es' as'
      store p (.map fr tl' es'')

/-- The remaining nodes: `hashMap.Remove`, internal/map.go:706-738. -/
def dropNode (k : BitVec 64) (es : List Nat) : M Heap (List Nat) := do
  match ← findNode k es with
  | some e => pure (es.filter (· != e))
  | none => pure es

def allocObj (o : Obj) : M Heap Ref := do
  let q ← alloc o
  pure (.obj q)

/-- The elements, or frozen copies of them. -/
def frozenIf (n : Nat) (b : Bool) (rs : List Ref) : M Heap (List Ref) :=
  if b then mapEach (frozenCopy n) rs else pure rs

/-- internal/map.go:804: is there an entry with the key and an equal value? -/
def hasValue (n : Nat) (k : BitVec 64) (r : Ref) (es : List Nat) : M Heap Bool := do
  match ← findNode k es with
  | none => pure false
  | some e => do
    let kv ← loadEntry e
    let h ← M.get
    match geq n h [] r kv.2 with
    | some b => pure b
    | none => M.loop

/-- One call, with fuel `n`; calls without a result answer the atom 0. -/
def exec (n : Nat) : Op → M Heap Ref
  -- array.go:769-775
  | .newArr es => allocObj (.arr false es)
  -- array.go:826-828, 789-804
  | .values es => do
    let es' ← mapEach (frozenCopy n) es
    allocObj (.arr true es')
  -- array.go:830-835
  | .add p r => onMutableArr p fun es => do
    store p (.arr false (es ++ [r]))
    pure (.atom 0)
  -- array.go:1263-1270
  | .set p i r => onMutableArr p fun es =>
    if i < es.length then do
      store p (.arr false (es.set i r))
      pure (.atom 0)
    else M.throw
  -- array.go:1118-1123
  | .insert p i r => onMutableArr p fun es =>
    if i ≤ es.length then do
      store p (.arr false (es.take i ++ r :: es.drop i))
      pure (.atom 0)
    else M.throw
  -- array.go:1201-1226 and 1414-1423
  | .removeAt p i => onMutableArr p fun es => do
    store p (.arr false (es.eraseIdx i))
    pure (.atom 0)
  -- array.go:837-848
  | .addAll p q => onMutableArr p fun es => do
    let (_, as) ← loadArr q
    store p (.arr false (es ++ as))
    pure (.atom 0)
  -- array.go:1235-1302, 1384-1412
  | .pick p is => do
    let (fr, es) ← loadArr p
    allocObj (.arr fr (is.filterMap fun i => es[i]?))
  -- array.go:1140-1147
  | .arrMap p f => do
    let (fr, es) ← loadArr p
    allocObj (.arr fr (es.map f))
  -- array.go:1425-1427
  | .with p r => do
    let (fr, es) ← loadArr p
    allocObj (.arr fr (es ++ [r]))
  -- array.go:1442-1447
  | .withValues p rs => do
    let (fr, es) ← loadArr p
    if rs.length = 0 then pure (.obj p)
    else do
      let rs' ← frozenIf n fr rs
      allocObj (.arr fr (es ++ rs'))
  -- array.go:1429-1440, for an array as argument
  | .withAll p q => do
    let (_, as) ← loadArr q
    if as.length = 0 then pure (.obj p)
    else do
      let (fr, es) ← loadArr p
      let es' ← mapEach (thawedCopy n) es
      let (qf, as) ← loadArr q
      let as' ← frozenIf n (fr && !qf) as
      allocObj (.arr fr (es' ++ as'))
  -- map.go:333-339
  | .newMap tl => allocObj (.map false (tl + 1) [])
  -- map.go:189
  | .emptyMap => allocObj (.map true 0 [])
  | .put p k r => do
    mput p k r
    pure (.atom 0)
  | .putAll p q => do
    mputAll p q
    pure (.atom 0)
  -- map.go:706-738
  | .remove p k => do
    let (fr, tl, es) ← loadMap p
    if fr then M.throw
    else do
      let es' ← dropNode k es
      store p (.map fr tl es')
      pure (.atom 0)
  -- map.go:797-813
  | .mapWith p k r => do
    let (fr, tl, es) ← loadMap p
    if tl = 0 then do
      let e ← alloc (.entry k r)
      allocObj (.map fr (HMap.tableSizeFor 8) [e])
    else do
      let same ← hasValue n k r es
      if same then pure (.obj p)
      else do
        let es' ← renode es
        let c ← alloc (.map false (HMap.tableSizeFor (tl + 1)) es')
        mput c k r
        let (_, tl', es'') ← loadMap c
        store c (.map fr tl' es'')
        pure (.obj c)
  -- map.go:815-825
  | .without p k => do
    let (fr, tl, es) ← loadMap p
    match ← findNode k es with
    | none => pure (.obj p)
    | some _ => do
      let es' ← renode es
      let es'' ← dropNode k es'
      allocObj (.map fr (HMap.tableSizeFor tl) es'')
  -- map.go:584-597
  | .merge p q => do
    let (_, _, as) ← loadMap q
    if as.length = 0 ∨ p = q then pure (.obj p)
    else do
      let (fr, tl, es) ← loadMap p
      if es.length = 0 then pure (.obj q)
      else do
        let es' ← renode es
        let c ← alloc (.map false (HMap.tableSizeFor (tl + es.length + as.length)) es')
        mputAll c q
        let (_, tl', es'') ← loadMap c
        store c (.map fr tl' es'')
        pure (.obj c)
  -- map.go:575-582
  | .mapMap p f => do
    let (fr, tl, es) ← loadMap p
    let es' ← mapEach (fun e => do
      let kv ← loadEntry e
      alloc (.entry kv.1 (f kv.1 kv.2))) es
    allocObj (.map fr (HMap.tableSizeFor tl) es')
  -- map.go:847-859
  | .mapValues p => do
    let (fr, _, es) ← loadMap p
    let vs ← mapEach (fun e => do
      let kv ← loadEntry e
      pure kv.2) es
    allocObj (.arr fr vs)
  -- map.go:76-78
  | .newEntry k r => allocObj (.entry k r)
  -- binary.go:223-230
  | .newBin f bs => allocObj (.bin f bs)
  -- sensitive.go:111-113
  | .sensitive r => allocObj (.sens r)
  | .native id => allocObj (.native id)
  | .freeze r => do
    freeze n r
    pure (.atom 0)
  | .frozenCopy r => frozenCopy n r
  | .thawedCopy r => thawedCopy n r

/-- The heap after the calls, when all of them end (panics are recovered from). -/
def run (n : Nat) (h : Heap) : List Op → Option Heap
  | [] => some h
  | op :: ops =>
    match exec n op h with
    | .ok _ h' => run n h' ops
    | .panic h' => run n h' ops
    | .diverge => none

end Verif.Graph
