import Verif.Types.Struct
/-!
# Struct map types made from a map: `StructMapTypeFromMap`
-/
set_option autoImplicit false
set_option linter.unusedVariables false
namespace Verif.Types
open Verif.Value

/-- What can be in the map that the type is made from: data that is not a map, a type, or a map.  (A type in an array and other values that
are neither are left out: they are refused like data.) -/
inductive SArg where
  | data (v : Val)
  | type (t : Ty)
  | map (es : List (Val × SArg))

/-- `Get` of a map with a string as the key: internal/map.go:508-542. -/
def argGet (es : List (Val × SArg)) (k : Str) : Option SArg := (es.find? fun e => eq (.str k) e.1).map (·.2)

def typeKey : Str := [116, 121, 112, 101]
def requiredKey : Str := [114, 101, 113, 117, 105, 114, 101, 100]

/-- What `Parse` does with a text: it panics (`none`) or returns a value or a type. -/
abbrev Parse := Str → Option (Val ⊕ Ty)

/-- Instance of `dgo|type`: internal/string.go:109-130 (`defaultDgoStringType`) and meta.go:64-74 (`type`, which has all types as instances). -/
def SArg.isType (P : Parse) : SArg → Bool
  | .data (.str s) => decide (0 < s.length) && (P s).isSome
  | .type _ => true
  | _ => false

def SArg.isBool : SArg → Bool
  | .data (.bool _) => true
  | _ => false

/-- Instance of `dgo|type|{type:dgo|type,required?:bool,...}` -/
def SArg.isDecl (P : Parse) : SArg → Bool
  | .map es =>
    (match argGet es typeKey with
     | some a => a.isType P
     | none => false) &&
    (match argGet es requiredKey with
     | some a => a.isBool
     | none => true)
  | a => a.isType P

/-- `StructFromMapType().Instance`: internal/mapstruct.go:80-85, the type `map[string](dgo|type|{type:dgo|type,required?:bool,...})`. -/
def isStructMap (P : Parse) (m : List (Val × SArg)) : Bool :=
  m.all fun e =>
    (match e.1 with
     | .str _ => true
     | _ => false) && e.2.isDecl P

/-- `asType`: internal/mapstruct.go:98-112; `none` is a panic of `Parse`, or of `Type()` of a Go nil (which the caller has ruled out). -/
def asType (P : Parse) (o : Oid) : Option SArg → Option Ty
  | some (.type t) => some t
  | some (.data (.str s)) =>
    match P s with
    | some (.inr t) => some t
    | some (.inl v) => some (typeOf o v)
    | none => none
  | some (.data v) => some (typeOf o v)
  | _ => none

/-- One step of the loop over the entries: internal/mapstruct.go:115-128. -/
def fieldOf (P : Parse) (o : Oid) : Val × SArg → Option (Val × Bool × Ty)
  | (k, .map es) =>
    (asType P o (argGet es typeKey)).bind fun t =>
      match argGet es requiredKey with
      | none => some (k, true, t)
      | some (.data (.bool b)) => some (k, b, t)
      | some _ => none
  | (k, a) => (asType P o (some a)).map fun t => (k, true, t)

/-- all entries; `o` is the identity of the new type, and `Oid.part` names the types of the values that are made on the way. -/
def fieldsOf (P : Parse) (o : Oid) : List (Val × SArg) → Option (List (Val × Bool × Ty))
  | [] => some []
  | e :: es => (fieldOf P (.part o es.length) e).bind fun f => (fieldsOf P o es).map (f :: ·)

/-- `StructMapTypeFromMap`: internal/mapstruct.go:88-149; `none` is a panic.  The end of the function is the same code as that of
`StructMapType`; its keys are strings, whose types are exact. -/
def structMapTypeFromMap (P : Parse) (o : Oid) (additional : Bool) (m : List (Val × SArg)) : Option Ty :=
  if !isStructMap P m then none else (fieldsOf P o m).bind (structMapType o additional)

end Verif.Types
