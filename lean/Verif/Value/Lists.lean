import Verif.Value.Model
import Verif.HMap.Model
/-!
# The operations of `internal/array.go` that only read the array, on the list of its elements

Storage, aliasing and frozenness are the subject of `Verif/Arr`.  Simplification for the whole file: predicates, mappers and
reductors are pure functions that return (a callback that panics is not modelled; one that changes the array it is called for is the
subject of `Verif/Arr/EachModel`).
-/
namespace Verif.Value

/-! ## Searching and filtering -/

/-- `array.IndexOf`: internal/array.go:1107-1116.  `p` is `val.Equals`; `i` is the loop variable. -/
def indexOfFrom {α : Type} (p : α → Bool) (i : Nat) : List α → Int
  | [] => -1
  | a :: as => if p a then i else indexOfFrom p (i + 1) as

def indexOf {α : Type} (p : α → Bool) (as : List α) : Int := indexOfFrom p 0 as

/-- `array.Select`: internal/array.go:1251-1261. -/
def selectLoop {α : Type} (p : α → Bool) (vs : List α) : List α → List α
  | [] => vs
  | a :: as => selectLoop p (if p a then vs ++ [a] else vs) as

def select {α : Type} (p : α → Bool) (as : List α) : List α := selectLoop p [] as

/-- `array.Reject`: internal/array.go:1235-1245. -/
def rejectLoop {α : Type} (p : α → Bool) (vs : List α) : List α → List α
  | [] => vs
  | a :: as => rejectLoop p (if !p a then vs ++ [a] else vs) as

def reject {α : Type} (p : α → Bool) (as : List α) : List α := rejectLoop p [] as

/-- `array.All`: internal/array.go:857-865. -/
def all {α : Type} (p : α → Bool) : List α → Bool
  | [] => true
  | a :: as => if !p a then false else all p as

/-- `array.Any`: internal/array.go:867-875. -/
def any {α : Type} (p : α → Bool) : List α → Bool
  | [] => false
  | a :: as => if p a then true else any p as

/-- `array.One`: internal/array.go:1149-1161; `f` is the variable of that name. -/
def oneLoop {α : Type} (p : α → Bool) (f : Bool) : List α → Bool
  | [] => f
  | a :: as => if p a then (if f then false else oneLoop p true as) else oneLoop p f as

def one {α : Type} (p : α → Bool) (as : List α) : Bool := oneLoop p false as

/-- `array.Find`: internal/array.go:1024-1032.  A Go `nil` from the finder is `none`. -/
def find {α β : Type} (f : α → Option β) : List α → Option β
  | [] => none
  | a :: as => match f a with
    | some v => some v
    | none => find f as

/-- `array.Map`: internal/array.go:1140-1147, writing into a slice of the right length. -/
def mapLoop {α β : Type} (f : α → β) (i : Nat) (vs : List (Option β)) : List α → List (Option β)
  | [] => vs
  | a :: as => mapLoop f (i + 1) (vs.set i (some (f a))) as

def mapArr {α β : Type} (f : α → β) (as : List α) : List (Option β) := mapLoop f 0 (List.replicate as.length none) as

/-- `array.Reduce`: internal/array.go:1163-1170. -/
def reduce {α β : Type} (f : β → α → β) (memo : β) : List α → β
  | [] => memo
  | a :: as => reduce f (f memo a) as

/-! ## ContainsAll and SameValues -/

/-- The inner loop of `deepContainsAll`, internal/array.go:984-991: the first remaining element `be` with
`equals(be, ea)` is set to nil (`none`); `none` as result when there is no such element. -/
def takeFirst {α : Type} (e : α → α → Bool) (ea : α) : List (Option α) → Option (List (Option α))
  | [] => none
  | none :: vs => (takeFirst e ea vs).map (none :: ·)
  | some be :: vs => if e be ea then some (none :: vs) else (takeFirst e ea vs).map (some be :: ·)

/-- The outer loop of `deepContainsAll`, internal/array.go:981-996, which runs over the indices of `vs`; `n` of them are
left, and `as` is the part of `a` from the current index.  `a[i]` cannot be out of range, because of the check of the
lengths; the model answers `false` there. -/
def containsLoop {α : Type} (e : α → α → Bool) : Nat → List α → List (Option α) → Bool
  | 0, _, _ => true
  | _ + 1, [], _ => false
  | n + 1, ea :: as, vs =>
    match takeFirst e ea vs with
    | some vs' => containsLoop e n as vs'
    | none => false

/-- `array.ContainsAll` with an array as argument: internal/array.go:956-997. -/
def containsAll {α : Type} (e : α → α → Bool) (as bs : List α) : Bool :=
  if as.length < bs.length then false
  else if as.length = 0 then true
  else containsLoop e bs.length as (bs.map some)

/-- `array.SameValues`: internal/array.go:1247-1249. -/
def sameValues {α : Type} (e : α → α → Bool) (as bs : List α) : Bool := as.length == bs.length && containsAll e as bs

/-! ## Flatten -/

mutual
/-- One step of `flattenElements`, internal/array.go:1046-1056. -/
def flattenVal (receiver : List Val) : Val → List Val
  | .arr vs => flattenElements receiver vs
  | e => receiver ++ [e]

def flattenElements (receiver : List Val) : List Val → List Val
  | [] => receiver
  | e :: es => flattenElements (flattenVal receiver e) es
end

def isArr : Val → Bool
  | .arr _ => true
  | _ => false

/-- `array.Flatten`: internal/array.go:1034-1044.  `before` is `a[:i]`. -/
def flattenFrom (before : List Val) : List Val → List Val
  | [] => before
  | e :: es => if isArr e then flattenElements before (e :: es) else flattenFrom (before ++ [e]) es

def flatten (as : List Val) : List Val := flattenFrom [] as

/-! ## Sort -/

/-- One insertion into the sorted prefix, which is given with its last element first: `j > a && less(j, j-1)` swaps. -/
def insertBack {α : Type} (less : α → α → Bool) (x : α) : List α → List α
  | [] => [x]
  | p :: ps => if less x p then p :: insertBack less x ps else x :: p :: ps

/-- `sort.SliceStable`.  Simplification: it is modelled by the insertion sort that Go uses on blocks of 20 elements; the
merging of such blocks in longer slices is not modelled.  When `less` is a strict weak order, every stable sort returns the same
(`stable_unique`, `C11_any_sort`), so that all that is assumed of the Go library is that it is a stable sort. -/
def stableSort {α : Type} (less : α → α → Bool) (xs : List α) : List α :=
  (xs.foldl (fun acc x => insertBack less x acc) []).reverse

/-- `v.Type().TypeIdentifier()`, dgo/typeidentifier.go:9-145 in the order of the constants there. -/
def typeId : Val → Nat
  | .sens _ => 23
  | .arr _ => 31
  | .bin _ => 32
  | .bool _ => 33
  | .float _ => 35
  | .int _ => 37
  | .map _ => 38
  | .entry _ _ => 39
  | .nil => 41
  | .regexp _ => 42
  | .str _ => 43
  | .time _ => 44

/-- The `less` function in `array.Sort`: internal/array.go:1290-1300. -/
def sortLess (a b : Val) : Bool :=
  if a.comparable then
    match cmp a b with
    | some c => c == .lt
    | none => typeId a < typeId b
  else typeId a < typeId b

/-- `array.Sort`: internal/array.go:1284-1302. -/
def sortArr (as : List Val) : List Val := if as.length < 2 then as else stableSort sortLess as

/-! ## Unique -/

section
variable {α : Type} [HMap.KeyOps α]
open HMap (KeyOps slot tableSizeFor)

/-- The loop of `array.Unique`, internal/array.go:1395-1407.  A bucket is the list of the keys in its chain. -/
def uniqueLoop (tbl : List (List α)) (u : List α) : List α → List α
  | [] => u
  | k :: ks =>
    let hk := slot tbl.length (KeyOps.hash k)
    let chain := tbl[hk]?.getD []
    if chain.any (fun e => KeyOps.eq k e) then uniqueLoop tbl u ks
    else uniqueLoop (tbl.set hk (k :: chain)) (u ++ [k]) ks

/-- `array.Unique`: internal/array.go:1384-1412.  `int(float64(top)/0.75)` is `top*4/3` (for lengths below 2^50). -/
def unique (as : List α) : List α :=
  if as.length < 2 then as
  else uniqueLoop (List.replicate (tableSizeFor (as.length * 4 / 3)) []) [] as
end

end Verif.Value
