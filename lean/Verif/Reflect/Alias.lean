import Mathlib.Logic.Function.Basic
/-!
# What structs share with Go variables

The structs of internal/struct.go as references to storage.  A Go program has struct variables and slices; it has the pointers and slices that
it made and those that it was given, and writes through them at any time.

Simplifications, for the whole file:
* a field holds a scalar (all that is copied by an assignment: numbers, booleans, strings, times; here an integer), a slice of scalars (not
  `[]byte`) or, if its type is an interface, a `dgo.Array` of scalars.  Slices share their elements from the first one on.
* Go does not check the types of what is assigned to a field.  So there are more programs here than Go has.
* a step that panics, or that the program cannot do, changes nothing.
-/
set_option autoImplicit false
set_option linter.unusedVariables false
namespace Verif.Reflect.Alias

/-- What is in a field -/
inductive FV where
  | scalar (x : Int)
  /-- the address of the elements -/
  | slice (a : Nat)
  /-- a reference to a `dgo.Array` -/
  | dgo (d : Nat)
  deriving DecidableEq

/-- `structVal`: internal/struct.go:14-19. -/
structure Obj where
  /-- where the fields are: `rs` -/
  var : Nat
  frozen : Bool
  /-- `rs.CanAddr()` -/
  addressable : Bool

/-- The memory.  Addresses below the counters are in use. -/
structure St where
  vars : Nat → List FV
  nv : Nat
  arrs : Nat → List Int
  na : Nat
  /-- the elements of a `dgo.Array` and if it is frozen -/
  dgos : Nat → List Int × Bool
  nd : Nat
  objs : Nat → Obj
  no : Nat
  /-- The Go program has a pointer to the variable. -/
  ptrs : Nat → Bool
  /-- The Go program has the slice. -/
  slices : Nat → Bool

def St.init : St := ⟨fun _ => [], 0, fun _ => [], 0, fun _ => ([], false), 0, fun _ => ⟨0, false, false⟩, 0, fun _ => false, fun _ => false⟩

open Function (update)

/-- A new variable -/
def St.newVar (m : St) (fs : List FV) : St := { m with vars := update m.vars m.nv fs, nv := m.nv + 1 }
def St.newArr (m : St) (xs : List Int) : St := { m with arrs := update m.arrs m.na xs, na := m.na + 1 }
def St.newDgo (m : St) (xs : List Int) (frozen : Bool) : St := { m with dgos := update m.dgos m.nd (xs, frozen), nd := m.nd + 1 }
def St.newObj (m : St) (o : Obj) : St := { m with objs := update m.objs m.no o, no := m.no + 1 }

/-- Steps -/
inductive Op where
  /-- Go: a slice -/
  | goSlice (xs : List Int)
  /-- Go: a struct variable -/
  | goVar (fs : List FV)
  /-- Go: an assignment to a field -/
  | goSet (v i : Nat) (f : FV)
  /-- Go: a field that holds a slice is read -/
  | goRead (v i : Nat)
  /-- Go: an assignment to an element of a slice -/
  | goWrite (a i : Nat) (x : Int)
  /-- a new `dgo.Array`, `Set` and `Freeze` of it -/
  | dgoNew (xs : List Int)
  | dgoSet (d i : Nat) (x : Int)
  | dgoFreeze (d : Nat)
  /-- `vf.Map(&x)` -/
  | ofPtr (v : Nat)
  /-- `vf.Map(x)` -/
  | ofValue (v : Nat)
  /-- the methods of the struct; a field is given by its position -/
  | put (o i : Nat) (x : Int)
  | putArray (o i d : Nat)
  | freeze (o : Nat)
  | frozenCopy (o : Nat)
  | copy (o : Nat) (frozen : Bool)
  | thawedCopy (o : Nat)
  | goStruct (o : Nat)
  /-- `vf.FromValue(o, &p)` with a pointer `p` to a struct -/
  | toPtr (o : Nat)
  /-- `vf.FromValue(o, &x)` with a struct `x` -/
  | toVar (o v : Nat)

/-- Can the Go program have such a value? -/
def St.has (m : St) : FV → Bool
  | .scalar _ => true
  | .slice a => m.slices a
  | .dgo d => decide (d < m.nd)

/-- The loop of `Freeze`, struct.go:141-145.  A Go slice becomes an array that is frozen already (value.go:107-108): nothing happens to the
slice. -/
def freezeFields (m : St) : List FV → St
  | [] => m
  | .dgo d :: fs => freezeFields { m with dgos := update m.dgos d ((m.dgos d).1, true) } fs
  | _ :: fs => freezeFields m fs

/-- The loop of `FrozenCopy`, struct.go:162-168.  A Go slice becomes an array that is frozen already: the slice stays. -/
def frozenFields (m : St) : List FV → St × List FV
  | [] => (m, [])
  | .dgo d :: fs =>
    if (m.dgos d).2 then let r := frozenFields m fs; (r.1, .dgo d :: r.2)
    else let r := frozenFields (m.newDgo (m.dgos d).1 true) fs; (r.1, .dgo m.nd :: r.2)
  | f :: fs => let r := frozenFields m fs; (r.1, f :: r.2)

/-- The loop of `ThawedCopy`, struct.go:177-183.  What `ReflectTo` puts in a slice is new: array.go:1188-1193; arrays: array.go:1079-1081. -/
def thawedFields (m : St) : List FV → St × List FV
  | [] => (m, [])
  | .dgo d :: fs => let r := thawedFields (m.newDgo (m.dgos d).1 false) fs; (r.1, .dgo m.nd :: r.2)
  | .slice a :: fs => let r := thawedFields (m.newArr (m.arrs a)) fs; (r.1, .slice m.na :: r.2)
  | f :: fs => let r := thawedFields m fs; (r.1, f :: r.2)

/-- The fields of a struct -/
def St.fields (m : St) (o : Nat) : List FV := m.vars (m.objs o).var

/-- The variable `v` becomes known to the Go program. -/
def St.expose (m : St) (v : Nat) : St := { m with ptrs := update m.ptrs v true }

def St.setVar (m : St) (v : Nat) (fs : List FV) : St := { m with vars := update m.vars v fs }

def step (m : St) : Op → St
  | .goSlice xs => let m' := m.newArr xs; { m' with slices := update m'.slices m.na true }
  | .goVar fs => if fs.all m.has then (m.newVar fs).expose m.nv else m
  | .goSet v i f => if m.ptrs v && m.has f then m.setVar v ((m.vars v).set i f) else m
  | .goRead v i =>
    match (m.vars v)[i]? with
    | some (.slice a) => if m.ptrs v then { m with slices := update m.slices a true } else m
    | _ => m
  | .goWrite a i x => if m.slices a then { m with arrs := update m.arrs a ((m.arrs a).set i x) } else m
  | .dgoNew xs => m.newDgo xs false
  | .dgoSet d i x => if (m.dgos d).2 || !decide (d < m.nd) then m else { m with dgos := update m.dgos d ((m.dgos d).1.set i x, false) }
  | .dgoFreeze d => if d < m.nd then { m with dgos := update m.dgos d ((m.dgos d).1, true) } else m
  /- `FromReflectedStruct`: map.go:328-330 -/
  | .ofPtr v => if m.ptrs v then m.newObj ⟨v, false, true⟩ else m
  /- the struct is copied when it is made an `interface{}` -/
  | .ofValue v => if m.ptrs v then (m.newVar (m.vars v)).newObj ⟨m.nv, false, false⟩ else m
  /- `Put`: struct.go:247-261.  With a field of the wrong kind `ReflectTo` panics. -/
  | .put o i x =>
    if o < m.no && !(m.objs o).frozen && (m.objs o).addressable then
      match (m.fields o)[i]? with
      | some (.scalar _) => m.setVar (m.objs o).var ((m.fields o).set i (.scalar x))
      | _ => m
    else m
  | .putArray o i d =>
    if o < m.no && d < m.nd && !(m.objs o).frozen && (m.objs o).addressable then
      match (m.fields o)[i]? with
      | some (.slice _) => (m.newArr (m.dgos d).1).setVar (m.objs o).var ((m.fields o).set i (.slice m.na))
      | some (.dgo _) => m.setVar (m.objs o).var ((m.fields o).set i (.dgo d))
      | _ => m
    else m
  /- struct.go:136-147: `v.rs.Interface()` is a copy of the struct -/
  | .freeze o =>
    if o < m.no && !(m.objs o).frozen then
      let m' := m.newVar (m.fields o)
      freezeFields { m' with objs := update m'.objs o ⟨m.nv, true, false⟩ } (m.fields o)
    else m
  /- struct.go:153-170 -/
  | .frozenCopy o =>
    if o < m.no && !(m.objs o).frozen then
      let r := frozenFields m (m.fields o)
      (r.1.newVar r.2).newObj ⟨r.1.nv, true, true⟩
    else m
  /- struct.go:76-87 -/
  | .copy o frozen =>
    if o < m.no then
      if frozen then
        if (m.objs o).frozen then m
        else let r := frozenFields m (m.fields o); (r.1.newVar r.2).newObj ⟨r.1.nv, true, true⟩
      else (m.newVar (m.fields o)).newObj ⟨m.nv, false, true⟩
    else m
  /- struct.go:172-185 -/
  | .thawedCopy o =>
    if o < m.no then
      let r := thawedFields m (m.fields o)
      (r.1.newVar r.2).newObj ⟨r.1.nv, false, true⟩
    else m
  /- struct.go:109-111 -/
  | .goStruct o => if o < m.no && (m.objs o).addressable then m.expose (m.objs o).var else m
  /- `ReflectTo`: struct.go:267-281 -/
  | .toPtr o =>
    if o < m.no then
      if (m.objs o).frozen then (m.newVar (m.fields o)).expose m.nv
      else if (m.objs o).addressable then m.expose (m.objs o).var else m
    else m
  | .toVar o v => if o < m.no && m.ptrs v then m.setVar v (m.fields o) else m

def run (m : St) : List Op → St
  | [] => m
  | o :: os => run (step m o) os

/-! ## What is seen -/

/-- The value of a field, as `Get` returns it -/
inductive Seen where
  | int (x : Int)
  | list (xs : List Int)
  deriving DecidableEq

def look (m : St) : FV → Seen
  | .scalar x => .int x
  | .slice a => .list (m.arrs a)
  | .dgo d => .list (m.dgos d).1

/-- The values of the fields of a struct variable -/
def values (m : St) (v : Nat) : List Seen := (m.vars v).map (look m)

/-- `Values()` of a struct -/
def view (m : St) (o : Nat) : List Seen := values m (m.objs o).var

/-- What a program can reach -/
def Reachable (m : St) : Prop := ∃ os, m = run .init os

end Verif.Reflect.Alias
