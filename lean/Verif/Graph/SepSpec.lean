import Verif.Graph.Spec
/-!
# What maps contain, and that they have nothing in common
-/
set_option autoImplicit false
namespace Verif.Graph

/-- A list of entries: keys and values in order -/
abbrev Entries := List (BitVec 64 × Ref)

/-- What the map at `p` contains: keys and values in order. -/
def content (h : Heap) (p : Nat) : Option Entries :=
  match h[p]? with
  | some (.map _ _ es) => entriesOf h es
  | _ => none

/-- The entries with another value for the key: in its place if the key is there, at the end if not. -/
def upd (k : BitVec 64) (v : Ref) : Entries → Entries
  | [] => [(k, v)]
  | e :: r => if e.1 = k then (k, v) :: r else e :: upd k v r

/-- The entries with those of another list, one after the other -/
def updAll (l l' : Entries) : Entries := l'.foldl (fun l e => upd e.1 e.2 l) l

/-- The entries without the one for the key -/
def del (k : BitVec 64) (l : Entries) : Entries := l.filter fun e => e.1 != k

/-- All maps have entries with distinct keys, no entry is in two maps, and maps without a table have no entries. -/
structure Sep (h : Heap) : Prop where
  own : ∀ (p : Nat) (f : Bool) (tl : Nat) (es : List Nat), h[p]? = some (.map f tl es) → ∃ l, entriesOf h es = some l ∧ (l.map (·.1)).Nodup
  apart : ∀ (p q : Nat) (f f' : Bool) (tl tl' : Nat) (es es' : List Nat), h[p]? = some (.map f tl es) → h[q]? = some (.map f' tl' es') → p ≠ q →
    ∀ e ∈ es, e ∉ es'
  empty : ∀ (p : Nat) (f : Bool) (es : List Nat), h[p]? = some (.map f 0 es) → es = []

/-- The map, array or other object that a call is to change -/
def Op.receiver : Op → Option Nat
  | .add p _ | .set p _ _ | .insert p _ _ | .removeAt p _ | .addAll p _ | .put p _ _ | .putAll p _ | .remove p _ => some p
  | _ => none

/-- Calls that thaw elements: those change entries that are elements (theorem `C23_entry_is_changed`). -/
def Op.thaws : Op → Bool
  | .thawedCopy _ | .withAll _ _ => true
  | _ => false

/-- What is in a collection, without its flag -/
inductive Inside where
  | arr (es : List Ref)
  | map (es : Option Entries)
  | bin (bs : List UInt8)
  deriving Repr, DecidableEq

/-- What is in the collection at `p` -/
def inside (h : Heap) (p : Nat) : Option Inside :=
  match h[p]? with
  | some (.arr _ es) => some (.arr es)
  | some (.map _ _ es) => some (.map (entriesOf h es))
  | some (.bin _ bs) => some (.bin bs)
  | _ => none

end Verif.Graph
