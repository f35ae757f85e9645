import Verif.Stream.Model
/-!
# Streaming of values of named types

A model besides the one of Stream/Model.lean: values are trees, so there is no sharing and no de-duplication, but there are the values of
named types.  Binaries, times and alias maps are in Stream/Model.lean only.
-/
set_option autoImplicit false
namespace Verif.Stream.Named
open Verif.Value (Str)

/-- A value.  `host p arg` is a value of the user the type of which is the named type `p` and in which the extractor of that type finds
`arg`.  A type is its text. -/
inductive Data where
  | atom (a : Atom)
  | arr (es : List Data)
  | map (es : List (Data × Data))
  | sens (v : Data)
  | typ (text : Str)
  | host (p : Nat) (arg : Data)

/-- The named types and what decoding needs besides the dialect -/
structure World where
  dialect : Dialect
  /-- `Name`: internal/named.go:155-157 -/
  name : Nat → Str
  /-- `tf.Named`: internal/named.go:87-92 -/
  named : Str → Option Nat
  /-- `New`: internal/named.go:129-131; `none` is a panic -/
  make : Nat → Data → Option Data
  /-- `ParseType`; `none` is a panic -/
  parseType : Str → Option Data

/-- The calls of a consumer: streamer/consumer.go:10-49. -/
inductive Ev where
  | add (d : Data)
  | ref (n : BitVec 64)
  | arr (es : List Ev)
  | map (es : List Ev)

/-- `StringKeys`: internal/map.go:788-795. -/
def stringKeys (es : List (Data × Data)) : Bool := es.all fun e => match e.1 with | .atom (.str _) => true | _ => false

/-- `value.Len() == 1` and an integer at the reference key: streamer.go:256-261. -/
def verbatim (d : Dialect) : List (Data × Data) → Option (BitVec 64)
  | [(.atom (.str k), .atom (.int i))] => if k = d.refKey then some i else none
  | _ => none

def str (s : Str) : Ev := .add (.atom (.str s))

/-- A map with the type and the value: streamer.go:130-138, 281-292, 301-307 -/
def tagged (d : Dialect) (name : Str) (v : Ev) : Ev := .map [str d.typeKey, str name, str d.valueKey, v]

mutual
/-- `emitData`: streamer.go:88-121, with `emitArray` (206-214), `emitMap` (254-294), `emitSensitive` (296-309), `emitType` (178-194,
without an alias map) and `emitNamed` (123-141).  `complex` is `CanDoComplexKeys`, `rich` is the option; `none` is a panic. -/
def emit (W : World) (complex rich : Bool) : Data → Option Ev
  | .atom a => some (.add (.atom a))
  | .arr es => (emitAll W complex rich es).map .arr
  | .map es =>
    if complex || stringKeys es then
      match verbatim W.dialect es with
      | some i => some (.ref i)
      | none => (emitEntries W complex rich es).map .map
    else if rich then (emitEntries W complex rich es).map fun x => tagged W.dialect W.dialect.map (.arr x)
    else none
  | .sens v => if rich then (emit W complex rich v).map (tagged W.dialect W.dialect.sensitive) else none
  | .typ text => some (.map [str W.dialect.typeKey, str text])
  | .host p (.map es) =>
    if rich then (emitRaw W complex rich es).map fun x => .map (str W.dialect.typeKey :: str (W.name p) :: x) else none
  | .host p v => if rich then (emit W complex rich v).map (tagged W.dialect (W.name p)) else none
def emitAll (W : World) (complex rich : Bool) : List Data → Option (List Ev)
  | [] => some []
  | d :: ds =>
    match emit W complex rich d, emitAll W complex rich ds with
    | some e, some es => some (e :: es)
    | _, _ => none
/-- The entries of a map: streamer.go:264-271 and 286-289. -/
def emitEntries (W : World) (complex rich : Bool) : List (Data × Data) → Option (List Ev)
  | [] => some []
  | (k, v) :: r =>
    match emit W complex rich k, emit W complex rich v, emitEntries W complex rich r with
    | some e, some e', some es => some (e :: e' :: es)
    | _, _, _ => none
/-- The entries of a map that is the argument of a named type; keys are added as they are: streamer.go:131-134. -/
def emitRaw (W : World) (complex rich : Bool) : List (Data × Data) → Option (List Ev)
  | [] => some []
  | (k, v) :: r =>
    match emit W complex rich v, emitRaw W complex rich r with
    | some e, some es => some (.add k :: e :: es)
    | _, _ => none
end

/-! ## The decoder -/

/-- Are two keys equal?  (The model compares atoms only.  Other keys never come twice, as they were the keys of one map.) -/
def sameKey : Data → Data → Bool
  | .atom a, .atom b => a == b
  | _, _ => false

/-- `Put`: internal/map.go:655-675. -/
def put (k v : Data) : List (Data × Data) → List (Data × Data)
  | [] => [(k, v)]
  | (k', v') :: r => if sameKey k' k then (k', v) :: r else (k', v') :: put k v r

/-- The entries of `ToMap`: internal/array.go:1308-1341. -/
def toPairs : List Data → List (Data × Data)
  | [] => []
  | [k] => [(k, .atom .nil)]
  | k :: v :: r => (k, v) :: toPairs r

/-- `PutAll` to a new map: internal/map.go:640-675. -/
def putAll (es : List (Data × Data)) : List (Data × Data) := es.foldl (fun m e => put e.1 e.2 m) []

/-- `Get` with a string -/
def getStr (k : Str) : List (Data × Data) → Option Data
  | [] => none
  | (k', v) :: r => if sameKey k' (.atom (.str k)) then some v else getStr k r

/-- `Without` a string: internal/map.go:815-825. -/
def without (k : Str) (es : List (Data × Data)) : List (Data × Data) := es.filter fun e => !sameKey e.1 (.atom (.str k))

/-- `decode`: decoder.go:43-86, without binaries, times and aliases.  `m` are the entries of the map. -/
def decode (W : World) (ts : Str) (m : List (Data × Data)) : Option Data :=
  if m.length = 1 then W.parseType ts
  else
    let mv := (getStr W.dialect.valueKey m).getD (.map (without W.dialect.typeKey m))
    if ts = W.dialect.map then
      match mv with
      | .arr ds => some (.map (toPairs ds))
      | _ => none
    else if ts = W.dialect.sensitive then some (.sens mv)
    else if ts = W.dialect.binary ∨ ts = W.dialect.time ∨ ts = W.dialect.alias then none
    else
      match W.named ts with
      | none => none
      | some p => W.make p mv

mutual
/-- The calls of a `dataDecoder`: basiccollector.go:34-65, decoder.go:34-41; the value that is added.  A reference (`AddRef`) is resolved
in Stream/Model.lean; here it is `none`. -/
def collect (W : World) : Ev → Option Data
  | .add d => some d
  | .ref _ => none
  | .arr es => (collectAll W es).map .arr
  | .map es =>
    match collectAll W es with
    | none => none
    | some ds =>
      match getStr W.dialect.typeKey (putAll (toPairs ds)) with
      | some (.atom (.str ts)) => decode W ts (putAll (toPairs ds))
      | _ => some (.map (putAll (toPairs ds)))
def collectAll (W : World) : List Ev → Option (List Data)
  | [] => some []
  | e :: es =>
    match collect W e, collectAll W es with
    | some d, some ds => some (d :: ds)
    | _, _ => none
end

end Verif.Stream.Named
