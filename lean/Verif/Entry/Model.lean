import Verif.Arr.Model
/-!
# Entries of maps as values

There are three implementations of `dgo.MapEntry`: `hashNode` is what a map hands out, `mapEntry` is what `vf.MapEntry` makes and what a struct hands out, and
`structEntry` is what `tf.StructMapEntry` makes and what the type of a struct hands out.  The last two structs have a `mapEntry` inside, whose methods they
take over: internal/map.go:36-52, internal/mapstruct.go.

Values are trees (what contains itself is not modelled, so the lists `seen` are left out).  Values that are neither arrays nor entries are of any type `A` and
are equal if they are equal in `A`; they cannot be frozen.  The key and the value of a struct entry are types, hence of `A`.  Addresses are left out:
internal/compare.go:112 answers true for identical values, for which the rest of `equals` answers true as well (`C117_preorder`).
-/
set_option autoImplicit false
namespace Verif.Entry

inductive Val (A : Type) where
  | atom (a : A)
  | arr (frozen : Bool) (es : List (Val A))
  /-- `&hashNode{…}` if `node`, otherwise `&mapEntry{…}` -/
  | entry (node : Bool) (k v : Val A)
  | sentry (required : Bool) (k v : A)

variable {A : Type} [DecidableEq A]

/-- `&t.mapEntry`, the receiver that the methods of `mapEntry` see: internal/map.go:45-46. -/
def Val.embedded : Val A → Val A
  | .sentry _ k v => .entry false (.atom k) (.atom v)
  | .entry _ k v => .entry false k v
  | x => x

mutual
/-- `equals`: internal/compare.go:111-132; `deepEqual` of arrays: internal/array.go:1017-1022; of entries: internal/map.go:97-102; of struct entries:
internal/mapstruct.go:471-478. -/
def equals : Val A → Val A → Bool
  | .atom a, .atom b => a == b
  | .arr _ es, .arr _ fs => sliceEquals es fs
  | .entry _ k v, .entry _ k' v' => equals k k' && equals v v'
  | .entry _ k v, .sentry _ k' v' => equals k (.atom k') && equals v (.atom v')
  | .sentry r k v, .sentry r' k' v' => r == r' && k == k' && v == v'
  | _, _ => false
/-- `sliceEquals`: internal/compare.go:134-145. -/
def sliceEquals : List (Val A) → List (Val A) → Bool
  | [], [] => true
  | e :: es, f :: fs => equals e f && sliceEquals es fs
  | _, _ => false
end

mutual
/-- `deepHashCode`: internal/compare.go:98-106; of arrays: internal/array.go:1094-1101; of entries: internal/map.go:104-110.  `h` is the hash code of other
values. -/
def hashCode (h : A → BitVec 64) : Val A → BitVec 64
  | .atom a => h a
  | .arr _ es => hashSlice h 1 es
  | .entry _ k v => hashCode h k ^^^ hashCode h v
  | .sentry _ k v => h k ^^^ h v
def hashSlice (h : A → BitVec 64) (acc : BitVec 64) : List (Val A) → BitVec 64
  | [] => acc
  | e :: es => hashSlice h (acc * 31 + hashCode h e) es
end

/-- `Frozen`, true for values that are not `Freezable`: internal/map.go:118-123, internal/array.go. -/
def frozen : Val A → Bool
  | .arr f _ => f
  | .entry _ _ v => frozen v
  | _ => true

mutual
/-- `FrozenCopy`, the value itself if it is not `Freezable`: internal/map.go:125-132, 142-149, 175-179; of arrays: internal/array.go:935-954, 1075-1077.
A struct entry has the method of the `mapEntry` in it, which returns itself. -/
def frozenCopy : Val A → Val A
  | .atom a => .atom a
  | .arr true es => .arr true es
  | .arr false es => .arr true (frozenCopies es)
  | .entry n k v => if frozen (.entry n k v) then .entry n k v else .entry n k (frozenCopy v)
  | .sentry r k v => Val.embedded (.sentry r k v)
def frozenCopies : List (Val A) → List (Val A)
  | [] => []
  | e :: es => frozenCopy e :: frozenCopies es
end

/-- `vf.Values`: internal/array.go:775-805. -/
def values (vs : List (Val A)) : Val A := .arr true (frozenCopies vs)

/-- `IndexOf` from position `i`: internal/array.go:1107-1116. -/
def indexOf (x : Val A) : Int → List (Val A) → Int
  | _, [] => -1
  | i, e :: es => if equals x e then i else indexOf x (i + 1) es

/-- `Instance` of the type of an entry: internal/map.go:167-171, internal/exact.go:52-54, 73-75.  `Type` is a method of `mapEntry`. -/
def typeInstance (e v : Val A) : Bool := equals e.embedded v

/-- `Equals` of the types of two entries: internal/exact.go:44-46, 60-65. -/
def typeEquals (e e' : Val A) : Bool := equals e.embedded e'.embedded

/-- `ToMapFromEntries`: internal/array.go:1341-1380.  The keys and values of the map in their order; `none`: it answers false.  (What the nodes that are taken
over do to the map that they are from is `HMap/Model`.) -/
def toMapFromEntries : List (Val A) → Option (List (Val A × Val A))
  | [] => some []
  | .entry true k v :: es => (toMapFromEntries es).map ((k, v) :: ·)
  | .arr _ [k, v] :: es => (toMapFromEntries es).map ((k, v) :: ·)
  | _ :: _ => none

/-! ## What is meant -/

mutual
/-- Nothing in the value can be changed. -/
def Val.Immutable : Val A → Prop
  | .atom _ => True
  | .arr f es => f = true ∧ AllImmutable es
  | .entry _ k v => k.Immutable ∧ v.Immutable
  | .sentry _ _ _ => True
def AllImmutable : List (Val A) → Prop
  | [] => True
  | e :: es => e.Immutable ∧ AllImmutable es
end

mutual
/-- The keys of entries cannot be changed, nor anything in arrays that are frozen. -/
def Val.KeysImmutable : Val A → Prop
  | .atom _ => True
  | .arr f es => (f = true → AllImmutable es) ∧ AllKeysImmutable es
  | .entry _ k v => k.Immutable ∧ v.KeysImmutable
  | .sentry _ _ _ => True
def AllKeysImmutable : List (Val A) → Prop
  | [] => True
  | e :: es => e.KeysImmutable ∧ AllKeysImmutable es
end

mutual
/-- No struct entries are in the value. -/
def Val.NoStruct : Val A → Prop
  | .atom _ => True
  | .arr _ es => AllNoStruct es
  | .entry _ k v => k.NoStruct ∧ v.NoStruct
  | .sentry _ _ _ => False
def AllNoStruct : List (Val A) → Prop
  | [] => True
  | e :: es => e.NoStruct ∧ AllNoStruct es
end

/-- What a value is, whatever implements it -/
inductive Content (A : Type) where
  | atom (a : A)
  | list (es : List (Content A))
  | entry (k v : Content A)

mutual
def Val.content : Val A → Content A
  | .atom a => .atom a
  | .arr _ es => .list (contents es)
  | .entry _ k v => .entry k.content v.content
  | .sentry _ k v => .entry (.atom k) (.atom v)
def contents : List (Val A) → List (Content A)
  | [] => []
  | e :: es => e.content :: contents es
end

mutual
/-- The value with what `Equals` never asks for left out: whether arrays are frozen, and which entries are from maps -/
def Val.bare : Val A → Val A
  | .atom a => .atom a
  | .arr _ es => .arr true (bares es)
  | .entry _ k v => .entry true k.bare v.bare
  | .sentry r k v => .sentry r k v
def bares : List (Val A) → List (Val A)
  | [] => []
  | e :: es => e.bare :: bares es
end

/-- The key and the value of an entry, whatever implements it -/
def Val.keyValue : Val A → Option (Val A × Val A)
  | .entry _ k v => some (k, v)
  | .sentry _ k v => some (.atom k, .atom v)
  | _ => none

end Verif.Entry
