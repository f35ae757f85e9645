import Verif.Types.Model
/-!
# Struct map types: construction, Validate and ValidateVerbose
-/
set_option autoImplicit false
namespace Verif.Types
open Verif.Value

/-- `StructMapType`: internal/mapstruct.go:30-74, for entries with exact keys.  `none` is the panic of `createExactMap`: a
value type that counts as exact but has no exact value (`nilType`).  `Put` of an equal key replaces the value in place. -/
def structMapType (o : Oid) (additional : Bool) (fs : List (Val × Bool × Ty)) : Option Ty :=
  if !additional && fs.all (fun f => f.2.1 && f.2.2.isExact) then
    match exactValues (fs.map (·.2.2)) with
    | none => none
    | some vs => some (.exactD o (.map (putAll [] ((fs.map (·.1)).zip vs))))
  else some (.struct o additional fs)
where
  put : List (Val × Val) → Val → Val → List (Val × Val)
    | [], k, v => [(k, v)]
    | e :: es, k, v => if eq k e.1 then (e.1, v) :: es else e :: put es k v
  putAll : List (Val × Val) → List (Val × Val) → List (Val × Val)
    | es, [] => es
    | es, (k, v) :: r => putAll (put es k v) r

/-- The entries that `Each` of a `dgo.StructMapType` yields, each with the exact value of its key type, whether it is required
and its type: internal/mapstruct.go:207-214 (`structType`) and map.go:1211-1215
(`exactMapType`), as far as the caller takes the exact value of the keys.  `none`:
not a struct map type, or a panic: the type of a key that is nil or sensitive is not a `dgo.ExactType`. -/
def Ty.structEntries : Ty → Option (List (Val × Bool × Ty))
  | .struct _ _ fs => some fs
  | .exactD o (.map es) => if es.all fun e => keyHasExact e.1 then some (entriesOf o es) else none
  | _ => none
where
  keyHasExact : Val → Bool
    | .nil | .sens _ => false
    | _ => true
  entriesOf (o : Oid) : List (Val × Val) → List (Val × Bool × Ty)
    | [] => []
    | (k, v) :: r => (k, true, typeOf (.part o r.length) v) :: entriesOf o r

/-- Does `t.Get(k)` find an entry?  internal/mapstruct.go:272-282, map.go:1230-1239. -/
def hasEntry (fs : List (Val × Bool × Ty)) (k : Val) : Bool := fs.any fun f => eq f.1 k

/-- What an error that `validate` reports says; the key. -/
inductive Err where
  /-- `value is not a Map` -/
  | notMap
  /-- `... is not an instance of type ...` -/
  | notInstance (k : Val)
  /-- `missing required ...` -/
  | missing (k : Val)
  /-- `unknown ...` -/
  | unknown (k : Val)

/-- The first loop of `validate`, over the declared entries: internal/mapstruct.go:379-389. -/
def validateEntries (E : Env) (es : List (Val × Val)) : List (Val × Bool × Ty) → List Err
  | [] => []
  | (k, rq, t) :: r =>
    (match mapGet es k with
     | some v => if instanceOf E t v then [] else [.notInstance k]
     | none => if rq then [.missing k] else []) ++ validateEntries E es r

/-- The second loop of `validate`, over the keys of the map: internal/mapstruct.go:390-394. -/
def validateKeys (fs : List (Val × Bool × Ty)) : List (Val × Val) → List Err
  | [] => []
  | (k, _) :: r => (if hasEntry fs k then [] else [.unknown k]) ++ validateKeys fs r

/-- Is it a `dgo.StructMapType`? -/
def Ty.isStructMap : Ty → Bool
  | .struct _ _ _ | .exactD _ (.map _) => true
  | _ => false

/-- `Validate`: internal/mapstruct.go:369-396, map.go:1279-1281.  `none` is a panic, or no `dgo.StructMapType`. -/
def validate (E : Env) (t : Ty) (v : Val) : Option (List Err) :=
  match v with
  | .map es => t.structEntries.map fun fs => validateEntries E es fs ++ validateKeys fs es
  | _ => if t.isStructMap then some [.notMap] else none

/-- The loops of `validateVerbose`, which write a report and keep the verdict in `ok`: internal/mapstruct.go:406-439. -/
def verboseEntries (E : Env) (es : List (Val × Val)) : Bool → List (Val × Bool × Ty) → Bool
  | ok, [] => ok
  | ok, (k, rq, t) :: r =>
    match mapGet es k with
    | some v => if instanceOf E t v then verboseEntries E es ok r else verboseEntries E es false r
    | none => if rq then verboseEntries E es false r else verboseEntries E es ok r

def verboseKeys (fs : List (Val × Bool × Ty)) : Bool → List (Val × Val) → Bool
  | ok, [] => ok
  | ok, (k, _) :: r => if hasEntry fs k then verboseKeys fs ok r else verboseKeys fs false r

/-- `ValidateVerbose`: internal/mapstruct.go:398-441; the verdict only. -/
def validateVerbose (E : Env) (t : Ty) (v : Val) : Option Bool :=
  match v with
  | .map es => t.structEntries.map fun fs => verboseKeys fs (verboseEntries E es true fs) es
  | _ => if t.isStructMap then some false else none

end Verif.Types
