import Verif.Text.Utf8
/-!
# Binary values and the byte slices that they share

`Verif/Value` has a binary as its bytes.  Here it is an object that refers to a Go slice, which others may refer to as well.

Simplifications, for the whole file:
* `ReflectTo` (internal/binary.go:378-389) hands out what `GoBytes` returns; it is not a step of its own.
* `newBinary` (binary.go:184-218) returns its argument, or what `Binary(bs, true)` or `BinaryFromEncoded` return.
-/
set_option autoImplicit false
namespace Verif.Binary
open Verif.Value (Str runeLen)

/-- A Go `[]byte`: a part of a byte array, which is known by its address.  The capacity is left out: see `Step.write`. -/
structure Slice where
  arr : Nat
  off : Nat
  len : Nat
  deriving DecidableEq

/-- `binary`: internal/binary.go:20-23. -/
structure Obj where
  bytes : Slice
  frozen : Bool
  deriving DecidableEq

/-- The memory.  `known`: the byte arrays that the caller has a slice of. -/
structure St where
  arrays : List (List UInt8)
  objs : List Obj
  known : List Nat

def St.init : St := { arrays := [], objs := [], known := [] }

/-- The bytes of a slice -/
def St.read (s : St) (x : Slice) : List UInt8 := ((s.arrays.getD x.arr []).drop x.off).take x.len

/-- The slice is within its array. -/
def St.valid (s : St) (x : Slice) : Prop := ∃ bs, s.arrays[x.arr]? = some bs ∧ x.off + x.len ≤ bs.length

/-- The bytes of a binary value -/
def St.bytes (s : St) (b : Nat) : Option (List UInt8) := (s.objs[b]?).map fun o => s.read o.bytes

/-- `make([]byte, len(bs))` and `copy`: the new slice -/
def St.alloc (s : St) (bs : List UInt8) : St × Slice :=
  ({ s with arrays := s.arrays ++ [bs] }, { arr := s.arrays.length, off := 0, len := bs.length })

/-- A new object -/
def St.new (s : St) (o : Obj) : St := { s with objs := s.objs ++ [o] }

/-- `Binary(bs, frozen)`: binary.go:223-230. -/
def St.binary (s : St) (x : Slice) (frozen : Bool) : St :=
  if frozen then
    let (s, c) := s.alloc (s.read x)
    s.new { bytes := c, frozen := frozen }
  else s.new { bytes := x, frozen := frozen }

/-- `BinaryFromEncoded` and `BinaryFromData` (binary.go:242-277) once the bytes are there -/
def St.fromBytes (s : St) (bs : List UInt8) : St :=
  let (s, c) := s.alloc bs
  s.new { bytes := c, frozen := true }

/-- `Copy` (binary.go:279-286), which `FrozenCopy` and `ThawedCopy` call; the number of the copy. -/
def St.copy (s : St) (b : Nat) (o : Obj) (frozen : Bool) : St × Nat :=
  if frozen && o.frozen then (s, b)
  else
    let (s, c) := s.alloc (s.read o.bytes)
    (s.new { bytes := c, frozen := frozen }, s.objs.length)

/-- `Freeze`: binary.go:344-351. -/
def St.freeze (s : St) (b : Nat) (o : Obj) : St :=
  if !o.frozen then
    let (s, c) := s.alloc (s.read o.bytes)
    { s with objs := s.objs.set b { bytes := c, frozen := true } }
  else s

/-- `GoBytes`: binary.go:365-372. -/
def St.goBytes (s : St) (o : Obj) : St × Slice :=
  if o.frozen then s.alloc (s.read o.bytes) else (s, o.bytes)

/-- What a program may do -/
inductive Step : St → St → Prop where
  /-- make a byte slice -/
  | make {s : St} (bs : List UInt8) :
      Step s { (s.alloc bs).1 with known := (s.alloc bs).2.arr :: s.known }
  /-- assign to an element of a slice.  Any element of an array that the caller has a slice of may be assigned to, within the slice
  or not (`append` writes beyond the end of a slice). -/
  | write {s : St} (a i : Nat) (v : UInt8) (h : a ∈ s.known) :
      Step s { s with arrays := s.arrays.set a ((s.arrays.getD a []).set i v) }
  | binary {s : St} (x : Slice) (frozen : Bool) (h : x.arr ∈ s.known) (hv : s.valid x) : Step s (s.binary x frozen)
  | fromBytes {s : St} (bs : List UInt8) : Step s (s.fromBytes bs)
  | copy {s : St} {o : Obj} (b : Nat) (frozen : Bool) (h : s.objs[b]? = some o) : Step s (s.copy b o frozen).1
  | freeze {s : St} {o : Obj} (b : Nat) (h : s.objs[b]? = some o) : Step s (s.freeze b o)
  | goBytes {s : St} {o : Obj} (b : Nat) (h : s.objs[b]? = some o) :
      Step s { (s.goBytes o).1 with known := (s.goBytes o).2.arr :: s.known }

/-- Any number of steps -/
inductive Steps : St → St → Prop where
  | refl {s : St} : Steps s s
  | tail {s t u : St} : Steps s t → Step t u → Steps s u

theorem Steps.trans {s t u : St} (h : Steps s t) (h' : Steps t u) : Steps s u := by
  induction h' with
  | refl => exact h
  | tail _ x ih => exact ih.tail x

/-! ## base64 -/

/-- The alphabets of `base64.StdEncoding` and `base64.URLEncoding` -/
inductive Alphabet where
  | std
  | url
  deriving DecidableEq

/-- A character of the alphabet: A-Z, a-z, 0-9 and two more -/
def char (al : Alphabet) (n : Nat) : UInt8 :=
  if n < 26 then UInt8.ofNat (65 + n)
  else if n < 52 then UInt8.ofNat (97 + (n - 26))
  else if n < 62 then UInt8.ofNat (48 + (n - 52))
  else
    match al with
    | .std => if n = 62 then 43 else 47
    | .url => if n = 62 then 45 else 95

/-- `decodeMap` of `base64.Encoding`; `none` is 0xff -/
def sextet (al : Alphabet) (c : UInt8) : Option Nat :=
  let n := c.toNat
  if 65 ≤ n ∧ n ≤ 90 then some (n - 65)
  else if 97 ≤ n ∧ n ≤ 122 then some (n - 97 + 26)
  else if 48 ≤ n ∧ n ≤ 57 then some (n - 48 + 52)
  else
    match al with
    | .std => if n = 43 then some 62 else if n = 47 then some 63 else none
    | .url => if n = 45 then some 62 else if n = 95 then some 63 else none

/-- `base64.Encoding.Encode` with padding, which `Encode` and `String` use (binary.go:330-332, 391-393) -/
def encode (al : Alphabet) : List UInt8 → Str
  | a :: b :: c :: r =>
    let v := a.toNat * 65536 + b.toNat * 256 + c.toNat
    char al (v / 262144) :: char al (v / 4096 % 64) :: char al (v / 64 % 64) :: char al (v % 64) :: encode al r
  | [a, b] =>
    let v := a.toNat * 65536 + b.toNat * 256
    [char al (v / 262144), char al (v / 4096 % 64), char al (v / 64 % 64), 61]
  | [a] =>
    let v := a.toNat * 65536
    [char al (v / 262144), char al (v / 4096 % 64), 61, 61]
  | [] => []

/-- `base64.Encoding.decodeQuantum`, repeated; the line breaks have been removed.  `none` is a `CorruptInputError`. -/
def decodeQuanta (al : Alphabet) (strict : Bool) : Str → Option (List UInt8)
  | [] => some []
  | a :: b :: c :: d :: r =>
    if c = 61 ∧ d = 61 ∧ r = [] then
      match sextet al a, sextet al b with
      | some x, some y =>
        -- the bits that are left over must be zero when decoding is strict
        if strict && y % 16 ≠ 0 then none else some [UInt8.ofNat (x * 4 + y / 16)]
      | _, _ => none
    else if d = 61 ∧ r = [] then
      match sextet al a, sextet al b, sextet al c with
      | some x, some y, some z =>
        if strict && z % 4 ≠ 0 then none
        else some [UInt8.ofNat (x * 4 + y / 16), UInt8.ofNat (y % 16 * 16 + z / 4)]
      | _, _, _ => none
    else
      match sextet al a, sextet al b, sextet al c, sextet al d, decodeQuanta al strict r with
      | some x, some y, some z, some w, some bs =>
        some (UInt8.ofNat (x * 4 + y / 16) :: UInt8.ofNat (y % 16 * 16 + z / 4) :: UInt8.ofNat (z % 4 * 64 + w) :: bs)
      | _, _, _, _, _ => none
  | _ => none

/-- `DecodeString`; carriage returns and line feeds are ignored. -/
def decode (al : Alphabet) (strict : Bool) (s : Str) : Option (List UInt8) :=
  decodeQuanta al strict (s.filter fun c => c != 10 && c != 13)

/-- The formats of `BinaryFromEncoded` -/
inductive Format where
  | b | u | B | s | r

/-- `utf8.ValidString`: no character is read as U+FFFD from one byte. -/
def validString (s : Str) : Bool :=
  match s with
  | [] => true
  | b :: t =>
    !(decide (Verif.Text.decode (b :: t) = Verif.Text.runeError) && decide (runeLen (b :: t) = 1)) &&
      validString ((b :: t).drop (runeLen (b :: t)))
termination_by s.length
decreasing_by
  simp only [List.length_drop]
  have := Verif.Text.runeLen_cons b t
  simp only [List.length_cons] at this ⊢
  omega

/-- The bytes of `BinaryFromEncoded`: binary.go:242-268; `none`: it panics. -/
def fromEncoded (f : Format) (str : Str) : Option (List UInt8) :=
  match f with
  | .b => decode .std false str
  | .u => decode .url false str
  | .B => decode .std true str
  | .s => if validString str then some str else none
  | .r => some str

/-- `Encode` and `String`: binary.go:330-332 and 391-393. -/
def text (bs : List UInt8) : Str := encode .std bs

end Verif.Binary
