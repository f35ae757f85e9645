import Verif.Graph.Model
import Mathlib.Data.List.Forall2
/-!
# Object graphs: what the properties speak about
-/
set_option autoImplicit false
namespace Verif.Graph

/-- What an object contains. -/
def Obj.children : Obj → List Ref
  | .arr _ es => es
  | .map _ _ es => es.map .obj
  | .entry _ v => [v]
  | .sens v => [v]
  | _ => []

/-- The frozen flag of arrays, maps and binaries. -/
def Obj.flag : Obj → Option Bool
  | .arr f _ => some f
  | .map f _ _ => some f
  | .bin f _ => some f
  | _ => none

/-- Objects that only hand `Freeze` on to the value inside. -/
def Obj.wrapped : Obj → Option Ref
  | .entry _ v => some v
  | .sens v => some v
  | _ => none

/-- The object with its flag set. -/
def Obj.froze : Obj → Obj
  | .arr _ es => .arr true es
  | .map _ tl es => .map true tl es
  | .bin _ bs => .bin true bs
  | o => o

/-- The object at address `q` is reachable from the value. -/
inductive Reach (h : Heap) : Ref → Nat → Prop
  | here (p : Nat) : Reach h (.obj p) p
  | step {p q : Nat} {o : Obj} {c : Ref} : h[p]? = some o → c ∈ o.children → Reach h c q → Reach h (.obj p) q

/-- The array, map or binary at `p` is frozen. -/
def IsFrozen (h : Heap) (p : Nat) : Prop := ∃ o, h[p]? = some o ∧ o.flag = some true

/-- The array, map or binary at `p` can be changed. -/
def IsMutable (h : Heap) (p : Nat) : Prop := ∃ o, h[p]? = some o ∧ o.flag = some false

/-- Every frozen collection reaches only frozen collections. -/
def DeeplyFrozen (h : Heap) : Prop := ∀ p, IsFrozen h p → ∀ q, Reach h (.obj p) q → ¬ IsMutable h q

/-- References lead to objects, and the nodes of maps are entries. -/
def WellFormed (h : Heap) : Prop :=
  (∀ (p : Nat) (o : Obj), h[p]? = some o → ∀ q, Ref.obj q ∈ o.children → q < h.length) ∧
  (∀ (p : Nat) (f : Bool) (tl : Nat) (es : List Nat), h[p]? = some (.map f tl es) → ∀ e ∈ es, ∃ k v, h[e]? = some (.entry k v))

/-- The value exists in the heap. -/
def Exists' (h : Heap) (r : Ref) : Prop := ∀ q, r = .obj q → q < h.length

/-- The wrappers from the value on end after at most `k` steps. -/
inductive Chain (h : Heap) : Nat → Ref → Prop
  | atom (k : Nat) (i : BitVec 64) : Chain h k (.atom i)
  | none {p : Nat} (k : Nat) : h[p]? = none → Chain h k (.obj p)
  | coll {p : Nat} {o : Obj} (k : Nat) : h[p]? = some o → o.wrapped = none → Chain h k (.obj p)
  | wrap {p k : Nat} {o : Obj} {v : Ref} : h[p]? = some o → o.wrapped = some v → Chain h k v → Chain h (k + 1) (.obj p)

/-- No entry or sensitive value contains itself through entries and sensitive values only. -/
def NoWrapperCycle (h : Heap) : Prop := ∀ r, ∃ k, Chain h k r

/-- The value tree that a value of an acyclic heap stands for; `none` if the fuel does not suffice (on cycles, it never
does), or if there is a native value in it. -/
def tree : Nat → Heap → Ref → Option Value.Val
  | _, _, .atom i => some (.int i)
  | 0, _, .obj _ => none
  | n + 1, h, .obj p =>
    match h[p]? with
    | some (.arr _ es) => (es.mapM (tree n h)).map .arr
    | some (.map _ _ es) =>
      (es.mapM fun e => match entryAt h e with
        | some (k, v) => (tree n h v).map fun t => (Value.Val.int k, t)
        | none => none).map .map
    | some (.entry k v) => (tree n h v).map fun t => .entry (.int k) t
    | some (.bin _ bs) => some (.bin bs)
    | some (.sens v) => (tree n h v).map .sens
    | _ => none

/-- The value is an acyclic structure that stands for the tree. -/
def IsTree (h : Heap) (r : Ref) (t : Value.Val) : Prop := ∃ n, tree n h r = some t

/-- What two values have in common that cannot be told apart by looking at them, one step. -/
def SameStep (h : Heap) (R : Ref → Ref → Prop) : Ref → Ref → Prop
  | .atom i, .atom j => i = j
  | .obj p, .obj q =>
    match h[p]?, h[q]? with
    | some (.arr _ as), some (.arr _ bs) => List.Forall₂ R as bs
    | some (.map _ _ es), some (.map _ _ es') => es.length = es'.length ∧
        ∃ as bs, entriesOf h es = some as ∧ entriesOf h es' = some bs ∧
          ∀ a ∈ as, ∃ b, bs.find? (fun e => a.1 == e.1) = some b ∧ R a.2 b.2
    | some (.entry k v), some (.entry k' v') => k = k' ∧ R v v'
    | some (.sens v), some (.sens v') => R v v'
    | some (.bin _ bs), some (.bin _ bs') => bs = bs'
    | some (.native _), some (.native _) => p = q
    | _, _ => False
  | _, _ => False

/-- No map entry is an element of an array, a value of a map, or wrapped; the entries of maps are not meant. -/
inductive EntryFree : Value.Val → Prop
  | int (i : BitVec 64) : EntryFree (.int i)
  | bin (bs : List UInt8) : EntryFree (.bin bs)
  | arr {ts : List Value.Val} : (∀ t ∈ ts, EntryFree t) → EntryFree (.arr ts)
  | map {es : List (Value.Val × Value.Val)} : (∀ e ∈ es, EntryFree e.2) → EntryFree (.map es)
  | sens {t : Value.Val} : EntryFree t → EntryFree (.sens t)

/-- The value exists and is not a node of a map. -/
def Arg (h : Heap) (r : Ref) : Prop := ∀ q, r = .obj q → q < h.length ∧
  ∀ (p : Nat) (f : Bool) (tl : Nat) (es : List Nat), h[p]? = some (.map f tl es) → q ∉ es

/-- `Frozen` answers true. -/
def FrozenValue (h : Heap) (r : Ref) : Prop := ∃ n, isFrozen n r h = .ok true h

/-- An acyclic value in which no map entry is an element. -/
def PlainTree (h : Heap) (r : Ref) : Prop := ∃ t, IsTree h r t ∧ EntryFree t

/-- Calls that do not put something mutable into something frozen:
no node of a map, as an iteration over its entries yields it, is passed on as a value;
what `With`, `Map` or `Merge` adds to a frozen receiver is frozen;
`WithAll` on a frozen array has only scalar elements to copy;
`ThawedCopy` (also by `WithAll`) meets no map entries but those of maps;
`Freeze` does not panic. -/
def SafeOp (n : Nat) (h : Heap) : Op → Prop
  | .newArr es => ∀ r ∈ es, Arg h r
  | .values es => ∀ r ∈ es, Arg h r
  | .add _ r => Arg h r
  | .set _ _ r => Arg h r
  | .insert _ _ r => Arg h r
  | .arrMap p f => ∀ fr es, h[p]? = some (.arr fr es) → ∀ r ∈ es, Arg h (f r) ∧ (fr = true → FrozenValue h (f r))
  | .with p r => Arg h r ∧ (IsFrozen h p → FrozenValue h r)
  | .withValues _ rs => ∀ r ∈ rs, Arg h r
  | .withAll p _ => ∀ fr es, h[p]? = some (.arr fr es) →
      (∀ r ∈ es, PlainTree h r) ∧ (fr = true → ∀ r ∈ es, ∃ i, r = .atom i)
  | .put _ _ r => Arg h r
  | .mapWith p _ r => Arg h r ∧ (IsFrozen h p → FrozenValue h r)
  | .merge p q => IsFrozen h p → ∀ f tl es, h[q]? = some (.map f tl es) → ∀ e ∈ es, FrozenValue h (.obj e)
  | .mapMap p f => ∀ fr tl es, h[p]? = some (.map fr tl es) → ∀ e ∈ es, ∀ k v, h[e]? = some (.entry k v) →
      Arg h (f k v) ∧ (fr = true → FrozenValue h (f k v))
  | .newEntry _ r => Arg h r
  | .sensitive r => Arg h r
  | .freeze r => ∀ h', freeze n r h ≠ .panic h'
  | .frozenCopy r => Arg h r
  | .thawedCopy r => Arg h r ∧ PlainTree h r
  | _ => True

/-- The calls are safe, each in the heap that the ones before left, and end; `h'` is the heap at the end. -/
inductive SafeRun (n : Nat) : Heap → List Op → Heap → Prop
  | nil (h : Heap) : SafeRun n h [] h
  | ok {h h1 h' : Heap} {op : Op} {ops : List Op} {r : Ref} : SafeOp n h op → exec n op h = .ok r h1 → SafeRun n h1 ops h' →
      SafeRun n h (op :: ops) h'
  | panic {h h1 h' : Heap} {op : Op} {ops : List Op} : SafeOp n h op → exec n op h = .panic h1 → SafeRun n h1 ops h' →
      SafeRun n h (op :: ops) h'

end Verif.Graph
