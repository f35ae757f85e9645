import Verif.Reflect.Spec
import Verif.HMap.Spec
/-!
# Go structs as maps

`vf.Map(&x)` for a struct `x`, internal/struct.go.

Simplifications, for the whole file:
* the fields are exported; a field of a struct type is either a `time.Time`, a `regexp.Regexp` or an embedded struct whose fields are none.
* a struct is the list of its fields.  What shares storage with what is the subject of `Verif/Reflect/Alias`.
* the keys given are `dgo` values (a Go string is the same as a `dgo` string).
* where the result contains a `dgo.Native`, it is the `.error .native` of `fromReflected`.
-/
set_option autoImplicit false
set_option linter.unusedVariables false
namespace Verif.Reflect
open Verif.Value Verif.HMap

/-- A field of a struct -/
inductive Field where
  | plain (g : GV)
  | embedded (fs : List (Str × GV))

/-- `structVal`: internal/struct.go:14-19. -/
structure SV where
  /-- in the order of declaration -/
  fields : List (Str × Field)
  frozen : Bool
  /-- `reflect.Value.CanAddr`: the struct was given by a pointer (or the value is a copy made by `Copy` or `ThawedCopy`) -/
  addressable : Bool

/-- Where a field is -/
inductive Path where
  | top (n : Str)
  | sub (outer n : Str)
  deriving DecidableEq

/-- The fields called `n` of embedded structs -/
def promoted (n : Str) : List (Str × Field) → List (Path × Field)
  | [] => []
  | (_, .plain _) :: fs => promoted n fs
  | (o, .embedded gs) :: fs =>
    match gs.lookup n with
    | some g => (.sub o n, .plain g) :: promoted n fs
    | none => promoted n fs

/-- `reflect.Value.FieldByName`: a field of the struct itself, else one of the embedded structs if there is only one. -/
def locate (fs : List (Str × Field)) (n : Str) : Option (Path × Field) :=
  match fs.lookup n with
  | some f => some (.top n, f)
  | none =>
    match promoted n fs with
    | [p] => some p
    | _ => none

/-- `ValueFromReflected` of the field.  A struct is a `dgo.Native`: internal/value.go:141-142. -/
def Field.read (E : Env) : Field → Except NoVal Val
  | .plain g => fromReflected E g
  | .embedded _ => .error .native

def panics : Except NoVal Val → Bool
  | .error .panic => true
  | _ => false

namespace SV

/-- `Len`: struct.go:224-226. -/
def len (s : SV) : Nat := s.fields.length

/-- `EachKey`/`AllKeys`/`Keys`: struct.go:36-45, 97-99, 220-222. -/
def keys (s : SV) : List Val := s.fields.map fun f => .str f.1

/-- `All`/`EachEntry`: struct.go:25-34, 93-95.  Also `Find` and `EachValue`/`Values`. -/
def entries (E : Env) (s : SV) : List (Val × Except NoVal Val) := s.fields.map fun f => (.str f.1, f.2.read E)

/-- `ContainsKey`: struct.go:69-74 with `stringKey`: struct.go:199-207. -/
def containsKey (s : SV) : Val → Bool
  | .str n => (locate s.fields n).isSome
  | _ => false

/-- `Get`: struct.go:209-218.  The Go `nil` is `none`. -/
def get (E : Env) (s : SV) : Val → Option (Except NoVal Val)
  | .str n => (locate s.fields n).map fun pf => pf.2.read E
  | _ => none

end SV

/-- `ReflectTo` with a field.  Into a struct only `nil` goes (nil.go:39-41): it sets all fields to their zero. -/
def Field.set (E : Env) (v : Val) : Field → Option Field
  | .plain g => (reflectTo E v g.type).map .plain
  | .embedded gs =>
    match v with
    | .nil => some (.embedded (gs.map fun f => (f.1, zero f.2.type)))
    | _ => none

/-- Replaces the value of the field with that name. -/
def setField {α : Type} (n : Str) (x : α) : List (Str × α) → List (Str × α)
  | [] => []
  | f :: fs => if n = f.1 then (f.1, x) :: fs else f :: setField n x fs

/-- The assignment to a field of an embedded struct -/
def setSub (o n : Str) (x : Field) : List (Str × Field) → List (Str × Field)
  | [] => []
  | (o', .embedded gs) :: fs =>
    if o = o' then
      match x with
      | .plain g => (o', .embedded (setField n g gs)) :: fs
      | .embedded _ => (o', .embedded gs) :: fs      -- not reached: the fields of embedded structs are no structs
    else (o', .embedded gs) :: setSub o n x fs
  | f :: fs => f :: setSub o n x fs

def write (x : Field) (fs : List (Str × Field)) : Path → List (Str × Field)
  | .top n => setField n x fs
  | .sub o n => setSub o n x fs

namespace SV

/-- `Put`: struct.go:247-261; the result is the value that the field had.  With `none` it panics and the struct is as it was. -/
def put (E : Env) (s : SV) (key v : Val) : Option (SV × Except NoVal Val) :=
  if s.frozen then none
  else
    match key with
    | .str n =>
      (locate s.fields n).bind fun pf =>
        if panics (pf.2.read E) then none
        else if s.addressable then (pf.2.set E v).map fun f => ({ s with fields := write f s.fields pf.1 }, pf.2.read E)
        else none
    | _ => none

/-- `PutAll`: struct.go:263-265.  `false`: it panics, and what was put before is there. -/
def putAll (E : Env) (s : SV) : List (Val × Val) → SV × Bool
  | [] => (s, true)
  | (k, v) :: es =>
    match s.put E k v with
    | some (s', _) => putAll E s' es
    | none => (s, false)

/-- The values that have no `Freeze` (native.go:96-100), or that cannot be read. -/
def Field.stuck (E : Env) : Field → Bool
  | .plain g => isNative g || panics (fromReflected E g)
  | .embedded _ => true

/-- `Freeze`: struct.go:136-147.  `false`: it panics, but the struct is frozen then. -/
def freeze (E : Env) (s : SV) : SV × Bool :=
  if s.frozen then (s, true)
  else ({ s with frozen := true, addressable := false }, s.fields.all fun f => !Field.stuck E f.2)

/-- `Remove` and `RemoveAll`: struct.go:283-289, they panic. -/
def remove (s : SV) (_ : Val) : Option Unit := none
def removeAll (s : SV) (_ : List Val) : Option Unit := none

end SV

/-! ## Maps -/

/-- Keys and values of `hashMap` -/
instance : KeyOps Val := ⟨hash, eq, id⟩
instance : ValOps Val := ⟨eq, fun v => match v with | .nil => true | _ => false, id, id⟩

/-- All that were read, or why there is one that was not -/
def allRead : List (Val × Except NoVal Val) → Except NoVal (List (Val × Val))
  | [] => .ok []
  | (k, r) :: es => r.bind fun v => (allRead es).map ((k, v) :: ·)

/-- A `dgo.Map`: a `hashMap` by its entries (for `Put`, `Remove` and `Get` of a `hashMap` see C01, whose specification is used here), or a
struct. -/
inductive AnyMap where
  | map (es : List (Val × Val)) (frozen : Bool)
  | struct (s : SV)

namespace SV

/-- `toHashMap`: struct.go:333-339. -/
def toMap (E : Env) (s : SV) : Except NoVal (List (Val × Val)) := (allRead (s.entries E)).map fun es => Spec.insertAll [] es

/-- `With`: struct.go:309-314. -/
def withEntry (E : Env) (s : SV) (k v : Val) : Except NoVal AnyMap := (s.toMap E).map fun es => .map (Spec.insert es k v) s.frozen

/-- `Without`: struct.go:316-324. -/
def without (E : Env) (s : SV) (k : Val) : Except NoVal AnyMap :=
  match s.get E k with
  | none => .ok (.struct s)
  | some r => if panics r then .error .panic else (s.toMap E).map fun es => .map (Spec.erase es k) s.frozen

/-- `WithoutAll`: struct.go:326-331. -/
def withoutAll (E : Env) (s : SV) (ks : List Val) : Except NoVal AnyMap := (s.toMap E).map fun es => .map (Spec.eraseAll es ks) s.frozen

/-- `Map`: struct.go:228-235. -/
def mapValues (E : Env) (s : SV) (f : Val → Val → Val) : Except NoVal AnyMap :=
  (s.toMap E).map fun es => .map (es.map fun e => (e.1, f e.1 e.2)) s.frozen

/-- `Merge` with a map that is not this one: struct.go:237-245. -/
def merge (E : Env) (s : SV) (as : List (Val × Val)) (frozen : Bool) : Except NoVal AnyMap :=
  if as.isEmpty then .ok (.struct s) else (s.toMap E).map fun es => .map (Spec.insertAll es as) (s.frozen && frozen)

/-- `deepHashCode`: struct.go:121-134. -/
def hashCode (E : Env) (s : SV) : Except NoVal (BitVec 64) := (allRead (s.entries E)).map fun es => fold31 (sortInts (entryHashes es))

end SV

/-! ## Equality -/

/-- What `mapEqual` asks a `dgo.Map` -/
structure View where
  len : Nat
  entries : List (Val × Except NoVal Val)
  get : Val → Option (Except NoVal Val)

def AnyMap.view (E : Env) : AnyMap → View
  | .map es _ => ⟨es.length, es.map fun e => (e.1, .ok e.2), fun k => (es.find? fun e => eq k e.1).map fun e => .ok e.2⟩
  | .struct s => ⟨s.len, s.entries E, s.get E⟩

/-- The loop in internal/map.go:473.  A value is not equal to the Go `nil`: compare.go:116-118. -/
def sameEntries (get : Val → Option (Except NoVal Val)) : List (Val × Except NoVal Val) → Except NoVal Bool
  | [] => .ok true
  | (k, r) :: es =>
    match get k with
    | none => if panics r then .error .panic else .ok false
    | some w => r.bind fun v => w.bind fun w => if eq v w then sameEntries get es else .ok false

/-- `Equals` of two maps: `mapEqual`, internal/map.go:471-476, called by map.go:467-469 and struct.go:113-115.  That a map is equal to itself
without looking is not seen here. -/
def mapEqual (E : Env) (a b : AnyMap) : Except NoVal Bool :=
  if (a.view E).len = (b.view E).len then sameEntries (b.view E).get (a.view E).entries else .ok false

end Verif.Reflect
