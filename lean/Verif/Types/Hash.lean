import Verif.Types.Assign
/-!
# Hash codes of types

Simplification, for the whole file: a type never contains itself (see `Verif.Types.Model`), so the list `seen` that
`deepHashCode` (internal/compare.go:98-106) hands down never has the object that is looked at, and is left out.
-/
set_option autoImplicit false
namespace Verif.Types
open Verif.Value

/-- `TypeIdentifier` of the exact type of a value: dgo/typeidentifier.go:103-145 and the `TypeIdentifier` methods of the exact types. -/
def exactTi : Val → BitVec 64
  | .arr _ => 31
  | .bin _ => 32
  | .bool _ => 33
  | .float _ => 35
  | .int _ => 37
  | .map _ => 38
  | .entry .. => 39
  | .nil => 41
  | .regexp _ => 42
  | .str _ => 43
  | .time _ => 44
  /- has no exact type -/
  | .sens _ => 23

/-- `exactType.HashCode` and `deepExactType.deepHashCode`: exact.go:26-28 and 69-71. -/
def exactHash (v : Val) : BitVec 64 := hash v * 7 + exactTi v

/-- The part of a hash code that sizes add: array.go:221-226, map.go:1052-1057, string.go:482-487, binary.go:92-97. -/
def sizeHash (h : BitVec 64) (min max : Int) : BitVec 64 :=
  let h := if min > 0 then h * 31 + BitVec.ofInt 64 min else h
  if max < maxInt then h * 31 + BitVec.ofInt 64 max else h

/-- `float64(math.MaxInt64)` -/
def f64MaxInt : F64 := 0x43e0000000000000

/-- `boolsHash`: mapstruct.go:484-494. -/
def boolsHash (bs : List Bool) : BitVec 64 := bs.foldl (fun h b => h * (if b then 3 else 2)) 1

mutual
/-- `HashCode` and `deepHashCode` of types. -/
def tyHash : Ty → BitVec 64
  | .any => 3
  /- nil.go:66-68 -/
  | .nilT => 42
  | .boolT => 7
  | .intT => 14
  | .floatT => 11
  | .strT => 24
  | .regexpT => 22
  | .timeT => 28
  | .arrT => 5
  | .mapT => 16
  | .exact v => exactHash v
  /- integer.go:98-110 -/
  | .intRange min max incl =>
    let h := (15 : BitVec 64)
    let h := if (0 : BitVec 64).slt min then h * 31 + min else h
    let h := if max.slt maxI64 then h * 31 + max else h
    if incl then h * 3 else h
  /- float.go:80-92 -/
  | .floatRange min max incl =>
    let h := (12 : BitVec 64)
    let h := if Value.F64.lt 0 min then h * 31 + Value.F64.toInt min else h
    let h := if Value.F64.lt max f64MaxInt then h * 31 + Value.F64.toInt max else h
    if incl then h * 3 else h
  /- string.go:480-489 -/
  | .sizedStr min max => sizeHash 26 min max
  /- exact.go:26-28 -/
  | .ciStr s => strHash s * 7 + 8
  /- string.go:384-386 -/
  | .pattern rx => strHash rx
  /- binary.go:90-99 -/
  | .bin min max => sizeHash 6 min max
  | .exactD _ v => exactHash v
  /- array.go:219-231 -/
  | .sizedArr _ e min max =>
    let h := sizeHash 5 min max
    if e.isAny then h else h * 31 + tyHash e
  /- array.go:544-554 -/
  | .tuple _ ts var => (tyHashes ts).foldl (fun h x => h * 31 + x) (if var then 7 else 1)
  /- map.go:1050-1065: for the value type too the hash code of the key type is taken. -/
  | .sizedMap _ k v min max =>
    let h := sizeHash 16 min max
    let h := if k.isAny then h else h * 31 + tyHash k
    if v.isAny then h else h * 31 + tyHash k
  /- mapstruct.go:239-245 -/
  | .struct _ add fs =>
    let h := boolsHash (fs.map fun f => f.2.1) * 31 + fold31 (fs.map fun f => exactHash f.1) * 31 + fold31 (tyHashFields fs)
    if add then h * 3 else h
  /- ternary.go:98-100 -/
  | .allOf _ ts => fold31 (tyHashes ts) * 7 + 1
  /- ternary.go:202-204: the hash codes of the values -/
  | .allOfVal _ vs => fold31 (hashes vs) * 7 + 2
  /- ternary.go:310-312 -/
  | .anyOf _ ts => fold31 (tyHashes ts) * 7 + 4
  /- ternary.go:428-430 -/
  | .oneOf _ ts => fold31 (tyHashes ts) * 7 + 21
  /- not.go:32-34 -/
  | .not t => 1579 + tyHash t
  /- sensitive.go:62-64 -/
  | .sens _ t => 23 * 31 + tyHash t
  /- meta.go:56-62 -/
  | .metaT t => 17 * 1321 + tyHash t
  | .metaMeta => 17 * 1321

def tyHashes : List Ty → List (BitVec 64)
  | [] => []
  | t :: ts => tyHash t :: tyHashes ts

def tyHashFields : List (Val × Bool × Ty) → List (BitVec 64)
  | [] => []
  | (_, _, t) :: r => tyHash t :: tyHashFields r
end

end Verif.Types
