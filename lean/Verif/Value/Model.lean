import Verif.Core
/-!
# Values as trees: equality, hash codes, comparison

The values of `internal/` without reference cycles, as trees.  (Values with cycles and with identity are the subject of
`Verif/Graph`, where it is also shown that on acyclic object graphs the code computes what is defined here.)

Simplifications, for the whole file:
* a string is its bytes, a regexp is its source text, a time is its instant in nanoseconds since the epoch (the zone does
  not take part in `time.Time.Equal` or `UnixNano`).
* a map is the list of its entries in iteration order; `Get` is the first entry whose key is equal, which is what
  `hashMap.Get` returns by theorem C01, given that hash codes respect equality (theorem C09).
* not modelled here: types used as values (see `Verif/Types`), functions, errors, native Go values.
-/
namespace Verif.Value

/-- A Go string. -/
abbrev Str := List UInt8

/-! ## float64 -/

/-- A `float64`, by its bits. -/
abbrev F64 := BitVec 64

namespace F64
/-- The magnitude bits (exponent and fraction). -/
def mag (f : F64) : Nat := f.toNat % 2 ^ 63
def neg (f : F64) : Bool := f.toNat ≥ 2 ^ 63
/-- Not a number: all exponent bits set, and a fraction. -/
def isNaN (f : F64) : Bool := f.mag > 0x7ff0000000000000
/-- IEEE numbers are ordered like their magnitude bits, with the sign; the two zeros are equal. -/
def key (f : F64) : Int := if f.neg then -(f.mag : Int) else f.mag
/-- Go `==` -/
def eq (a b : F64) : Bool := !a.isNaN && !b.isNaN && a.key == b.key
/-- Go `<` -/
def lt (a b : F64) : Bool := !a.isNaN && !b.isNaN && a.key < b.key
/-- Go `int(v)`, on amd64: truncation, and the smallest integer when that does not fit. -/
def toInt (f : F64) : BitVec 64 :=
  let e := f.mag / 2 ^ 52
  let m := 2 ^ 52 + f.mag % 2 ^ 52
  if e < 1023 then 0
  else if e ≥ 1023 + 63 then BitVec.ofNat 64 (2 ^ 63)
  else
    let n := if e ≥ 1075 then m * 2 ^ (e - 1075) else m / 2 ^ (1075 - e)
    if f.neg then -(BitVec.ofNat 64 n) else BitVec.ofNat 64 n
/-- Rounding of a natural number to the nearest float, ties to even: the bits. -/
def ofNat (n : Nat) : Nat :=
  if n = 0 then 0
  else
    let l := n.log2
    let q :=
      if l ≤ 52 then n * 2 ^ (52 - l)
      else
        let s := l - 52
        let q := n / 2 ^ s
        let r := n % 2 ^ s
        if r > 2 ^ (s - 1) ∨ (r = 2 ^ (s - 1) ∧ q % 2 = 1) then q + 1 else q
    (l + 1023) * 2 ^ 52 + (q - 2 ^ 52)
/-- Go `float64(i)` for an `int64`. -/
def ofInt (i : BitVec 64) : F64 :=
  if i.toInt < 0 then BitVec.ofNat 64 (2 ^ 63 + ofNat i.toInt.natAbs) else BitVec.ofNat 64 (ofNat i.toInt.natAbs)
end F64

/-! ## Values -/

inductive Val where
  /-- `nilValue`, internal/nil.go -/
  | nil
  /-- internal/boolean.go -/
  | bool (b : Bool)
  /-- `intVal`, internal/integer.go -/
  | int (i : BitVec 64)
  /-- `floatVal`, internal/float.go -/
  | float (f : F64)
  /-- `hstring`, internal/string.go -/
  | str (s : Str)
  /-- internal/binary.go -/
  | bin (b : List UInt8)
  /-- `timeVal`, internal/time.go -/
  | time (ns : Int)
  /-- `regexpVal`, internal/regexp.go -/
  | regexp (s : Str)
  /-- internal/sensitive.go -/
  | sens (v : Val)
  /-- internal/array.go -/
  | arr (vs : List Val)
  /-- `hashMap`, internal/map.go -/
  | map (es : List (Val × Val))
  /-- `mapEntry`, internal/map.go:36-39 -/
  | entry (k v : Val)

/-! ## Equality -/

mutual
/-- `equals` of internal/compare.go:113-134 and the `Equals`/`deepEqual` methods it dispatches to:
nil.go:31-33, boolean.go:129-137, integer.go:293-296, float.go:277-280, string.go:575-585, binary.go:334-342,
time.go:136-146, regexp.go:103-111, sensitive.go:119-124, array.go:1017-1022, map.go:467-476, map.go:97-102.
Cases for Go values that are not `dgo.Value`s are omitted. -/
def eq : Val → Val → Bool
  | .nil, .nil => true
  | .bool a, .bool b => a == b
  | .int a, .int b => a == b
  | .float a, .float b => F64.eq a b
  | .str a, .str b => a == b
  | .bin a, .bin b => a == b
  | .time a, .time b => a == b
  | .regexp a, .regexp b => a == b
  | .sens a, .sens b => eq a b
  | .arr as, .arr bs => eqSlice as bs
  | .map as, .map bs => as.length == bs.length && eqMap as bs
  | .entry k v, .entry k' v' => eq k k' && eq v v'
  | _, _ => false

/-- `sliceEquals`: internal/compare.go:136-147. -/
def eqSlice : List Val → List Val → Bool
  | [], [] => true
  | a :: as, b :: bs => eq a b && eqSlice as bs
  | _, _ => false

/-- The loop of `mapEqual` over the entries of the first map: internal/map.go:471-476. -/
def eqMap : List (Val × Val) → List (Val × Val) → Bool
  | [], _ => true
  | (k, v) :: r, bs =>
    (match bs.find? fun e => eq k e.1 with
     | some e => eq v e.2
     | none => false) && eqMap r bs
end

/-! ## Hash codes -/

/-- `util.StringHash` (util/string.go:31-37) sums over the positions where a rune starts.  The length of the rune that
starts a byte string, `utf8.DecodeRuneInString`: the first byte gives the expected length and the range of the second
byte; anything malformed has length 1. -/
def runeLen : Str → Nat
  | [] => 0
  | b0 :: r =>
    let cont (b : UInt8) : Bool := 0x80 ≤ b && b ≤ 0xBF
    let n : Nat := b0.toNat
    if n < 0xC2 then 1
    else if n < 0xE0 then
      match r with
      | b1 :: _ => if cont b1 then 2 else 1
      | _ => 1
    else if n < 0xF0 then
      match r with
      | b1 :: b2 :: _ =>
        let lo : UInt8 := if n = 0xE0 then 0xA0 else 0x80
        let hi : UInt8 := if n = 0xED then 0x9F else 0xBF
        if lo ≤ b1 && b1 ≤ hi && cont b2 then 3 else 1
      | _ => 1
    else if n < 0xF5 then
      match r with
      | b1 :: b2 :: b3 :: _ =>
        let lo : UInt8 := if n = 0xF0 then 0x90 else 0x80
        let hi : UInt8 := if n = 0xF4 then 0x8F else 0xBF
        if lo ≤ b1 && b1 ≤ hi && cont b2 && cont b3 then 4 else 1
      | _ => 1
    else 1

/-- The bytes at which a rune starts; `n` bounds the number of runes. -/
def runeStarts : Nat → Str → List UInt8
  | 0, _ => []
  | _, [] => []
  | n + 1, b :: r => b :: runeStarts n ((b :: r).drop (runeLen (b :: r)))

/-- `h = 31*h + x`, starting with 1 -/
def fold31 (xs : List (BitVec 64)) : BitVec 64 := xs.foldl (fun h x => 31 * h + x) 1

/-- `util.StringHash`: util/string.go:31-37. -/
def strHash (s : Str) : BitVec 64 := fold31 ((runeStarts s.length s).map fun b => BitVec.ofNat 64 b.toNat)

def insertInt (x : BitVec 64) : List (BitVec 64) → List (BitVec 64)
  | [] => [x]
  | y :: ys => if x.toInt ≤ y.toInt then x :: y :: ys else y :: insertInt x ys

/-- `sort.Ints`.  The sorted list of integers is unique, so any sorting algorithm will do. -/
def sortInts (xs : List (BitVec 64)) : List (BitVec 64) := xs.foldr insertInt []

mutual
/-- `deepHashCode` of internal/compare.go:98-106 and the `HashCode`/`deepHashCode` methods: nil.go:27-29,
boolean.go:143-148, integer.go:302-304, float.go:286-288, string.go:591-596, binary.go:374-376 and 401-407,
time.go:165-167, regexp.go:113-115, sensitive.go:157-159, array.go:1094-1101, map.go:550-565, map.go:108-110. -/
def hash : Val → BitVec 64
  | .nil => 131
  | .bool b => if b then 1231 else 1237
  | .int i => i ^^^ i.sshiftRight 32
  | .float f => f.toInt
  | .str s => strHash s
  | .bin b => fold31 (b.map fun x => BitVec.ofNat 64 x.toNat)
  | .time ns => BitVec.ofInt 64 ns
  | .regexp s => strHash s
  | .sens v => hash v * 7
  | .arr vs => fold31 (hashes vs)
  | .map es => fold31 (sortInts (entryHashes es))
  | .entry k v => hash k ^^^ hash v

def hashes : List Val → List (BitVec 64)
  | [] => []
  | v :: vs => hash v :: hashes vs

def entryHashes : List (Val × Val) → List (BitVec 64)
  | [] => []
  | (k, v) :: r => (hash k ^^^ hash v) :: entryHashes r
end

/-! ## Comparison -/

/-- Does the value implement `dgo.Comparable`? -/
def Val.comparable : Val → Bool
  | .nil | .bool _ | .int _ | .float _ | .str _ | .bin _ | .arr _ => true
  | _ => false

/-- The `switch { case a > b: r = 1; case a < b: r = -1 }` of the `CompareTo` methods. -/
def three (gt lt : Bool) : Ordering := if gt then .gt else if lt then .lt else .eq

/-- Go's `<` on strings. -/
def strLt : Str → Str → Bool
  | _, [] => false
  | [], _ :: _ => true
  | a :: as, b :: bs => if a < b then true else if b < a then false else strLt as bs

/-- The loop of `binary.CompareTo`, internal/binary.go:306-327; `r` is the result if no byte differs. -/
def binLoop (r : Ordering) : List UInt8 → List UInt8 → Ordering
  | a :: as, b :: bs =>
    let c : Int := (a.toNat : Int) - b.toNat
    if c ≠ 0 then (if c > 0 then .gt else .lt) else binLoop r as bs
  | _, _ => r

/-- `r` at the start of `binary.CompareTo` (internal/binary.go:309-316) and `array.deepCompare` (array.go:907-914). -/
def lenOrd (top max : Nat) : Ordering := if top < max then .lt else if top > max then .gt else .eq

mutual
/-- `compare` of internal/compare.go:149-177 and the `CompareTo`/`deepCompare` methods: nil.go:20-25,
boolean.go:109-127, integer.go:263-291, float.go:246-275, string.go:546-573, binary.go:288-328, array.go:896-933.
`none` is the result `(0, false)`.  `compare` is only called with an `a` that is comparable, and the values that are not
have no `CompareTo` method. -/
def cmp : Val → Val → Option Ordering
  | .nil, .nil => some .eq
  | .nil, _ => some .lt
  | .bool a, .bool b => some (if a then (if !b then .gt else .eq) else if b then .lt else .eq)
  | .bool _, .nil => some .gt
  | .int a, .int b => some (three (b.slt a) (a.slt b))
  | .int a, .float b => some (three (F64.lt b (F64.ofInt a)) (F64.lt (F64.ofInt a) b))
  | .int _, .nil => some .gt
  | .float a, .float b => some (three (F64.lt b a) (F64.lt a b))
  | .float a, .int b => some (three (F64.lt (F64.ofInt b) a) (F64.lt a (F64.ofInt b)))
  | .float _, .nil => some .gt
  | .str a, .str b => some (three (strLt b a) (strLt a b))
  | .str _, .nil => some .gt
  | .bin a, .bin b => some (binLoop (lenOrd a.length b.length) a b)
  | .bin _, .nil => some .gt
  | .arr as, .arr bs => cmpSlice (lenOrd as.length bs.length) as bs
  | .arr _, .nil => some .gt
  | _, _ => none

/-- The loop of `array.deepCompare`: internal/array.go:916-931. -/
def cmpSlice (r : Ordering) : List Val → List Val → Option Ordering
  | a :: as, b :: bs =>
    if !a.comparable then none
    else match cmp a b with
      | none => none
      | some .eq => cmpSlice r as bs
      | some c => some c
  | _, _ => some r
end

end Verif.Value
