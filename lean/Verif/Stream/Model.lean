import Verif.Binary.Model
import Verif.Text.Quote
/-!
# Streaming of values: the streamer, the collector, the decoder, JSON

Simplifications, for the whole file:
* the lengths that `AddArray` and `AddMap` are told are hints about capacity and left out.
* a consumer calls the function that it is given (`doer`) exactly once, between the start and the end of the array or map.  So the calls
  that a consumer gets form a tree, `Ev`.
* a type is its text (`typ`); values of named types are in Stream/Named; functions, errors and native values are not modelled.
* `time.Time` is the instant, its text is a parameter.
* recursion depth is bounded by fuel, `deep` means that it does not suffice.  (In Go: stack overflow.)
-/
set_option autoImplicit false
namespace Verif.Stream
open Verif.Value (Str)

inductive Out (α : Type) where
  | ok (a : α)
  | panic
  | deep
  deriving DecidableEq

/-- A value that is compared by content and not subject to de-duplication, or (a string) by content -/
inductive Atom where
  | nil
  | bool (b : Bool)
  | int (i : BitVec 64)
  | float (f : BitVec 64)
  | str (s : Str)
  deriving DecidableEq

inductive Ref where
  | atom (a : Atom)
  | obj (p : Nat)
  deriving DecidableEq

/-- An object.  The entries of a map in iteration order. -/
inductive Obj where
  | arr (es : List Ref)
  | map (es : List (Ref × Ref))
  | sens (v : Ref)
  | bin (bs : List UInt8)
  | time (t : Int)
  | typ (text : Str)
  deriving DecidableEq

/-- The object at an address -/
abbrev Heap := Nat → Option Obj

/-- The calls of a consumer: streamer/consumer.go:10-49. -/
inductive Ev where
  | add (a : Atom)
  | addBin (bs : List UInt8)
  | addTime (t : Int)
  | ref (n : Int)
  | arr (es : List Ev)
  | map (es : List Ev)

/-- The keys and names of a dialect: streamer/dialect.go:11-39. -/
structure Dialect where
  typeKey : Str
  valueKey : Str
  refKey : Str
  alias : Str
  binary : Str
  map : Str
  sensitive : Str
  time : Str

/-- The text of an ASCII literal -/
def txt (s : String) : Str := s.toList.map fun c => UInt8.ofNat c.toNat

/-- `dgoDialect`: dialect.go:50-57. -/
def dgoDialect : Dialect :=
  { typeKey := txt "__type", valueKey := txt "__value", refKey := txt "__ref", alias := txt "alias", binary := txt "binary",
    map := txt "map", sensitive := txt "sensitive", time := txt "time" }

/-- `pcoreDialect`: streamer/pcore/pcoredialect.go:19-26. -/
def pcoreDialect : Dialect :=
  { typeKey := txt "__ptype", valueKey := txt "__pvalue", refKey := txt "__pref", alias := txt "Alias", binary := txt "Binary",
    map := txt "Hash", sensitive := txt "Sensitive", time := txt "Timestamp" }

/-- What a consumer can do -/
structure Consumer where
  binary : Bool
  time : Bool
  complexKeys : Bool
  threshold : Nat

/-- `BasicCollector`: streamer/basiccollector.go:67-85. -/
def basicConsumer : Consumer := { binary := true, time := true, complexKeys := true, threshold := 0 }
/-- `dataCollector`: streamer/datacollector.go:15-25. -/
def dataConsumer : Consumer := { binary := false, time := false, complexKeys := false, threshold := 0 }
/-- `jsonEncoder`: streamer/json.go:184-198. -/
def jsonConsumer : Consumer := { binary := false, time := false, complexKeys := false, threshold := 20 }

/-- `Options` and the alias map: streamer.go:28-45.  `names` is `GetName`.  `timeText` is `String` of a `dgo.Time`. -/
structure Options where
  dedup : Nat
  dialect : Dialect
  rich : Bool
  names : Option (Str → Option Str)
  timeText : Int → Str

/-! ## The streamer -/

/-- A key of `context.values`: a Go string or an object -/
inductive Key where
  | str (s : Str)
  | obj (p : Nat)
  deriving DecidableEq

/-- `context`: streamer.go:47-53.  The level of de-duplication is a parameter of the functions: what changes it changes it back. -/
structure St where
  values : List (Key × Nat)
  refIndex : Nat

/-- `refIndex++`, several times -/
def St.inc (s : St) (n : Nat) : St := { s with refIndex := s.refIndex + n }

def lookup (k : Key) : List (Key × Nat) → Option Nat
  | [] => none
  | (k', n) :: r => if k = k' then some n else lookup k r

/-- `process`: streamer.go:147-159. -/
def process (level : Nat) (s : St) (k : Key) (doer : St → Out (St × Ev)) : Out (St × Ev) :=
  if level = 0 then doer s
  else
    match lookup k s.values with
    | some n => .ok (s, .ref n)
    | none => doer { s with values := (k, s.refIndex) :: s.values }

/-- `emitString`: streamer.go:166-176. -/
def emitString (c : Consumer) (level : Nat) (s : St) (str : Str) : Out (St × Ev) :=
  if str.length ≥ c.threshold then process level s (.str str) fun s => .ok (s.inc 1, .add (.str str))
  else .ok (s.inc 1, .add (.str str))

/-- Elements one after the other -/
def emitAll (emit : St → Ref → Out (St × Ev)) : St → List Ref → Out (St × List Ev)
  | s, [] => .ok (s, [])
  | s, r :: rs =>
    match emit s r with
    | .panic => .panic
    | .deep => .deep
    | .ok (s, e) =>
      match emitAll emit s rs with
      | .panic => .panic
      | .deep => .deep
      | .ok (s, es) => .ok (s, e :: es)

/-- Entries one after the other: a key, a value, … -/
def emitEntries (key val : St → Ref → Out (St × Ev)) : St → List (Ref × Ref) → Out (St × List Ev)
  | s, [] => .ok (s, [])
  | s, (k, v) :: rs =>
    match key s k with
    | .panic => .panic
    | .deep => .deep
    | .ok (s, e) =>
      match val s v with
      | .panic => .panic
      | .deep => .deep
      | .ok (s, e') =>
        match emitEntries key val s rs with
        | .panic => .panic
        | .deep => .deep
        | .ok (s, es) => .ok (s, e :: e' :: es)

def Out.map {α β : Type} (f : α → β) : Out α → Out β
  | .ok a => .ok (f a)
  | .panic => .panic
  | .deep => .deep

/-- `StringKeys`: internal/map.go:788-795. -/
def stringKeys (es : List (Ref × Ref)) : Bool := es.all fun e => match e.1 with | .atom (.str _) => true | _ => false

/-- `value.Len() == 1` and an integer at the reference key: streamer.go:256-261. -/
def verbatim (d : Dialect) : List (Ref × Ref) → Option (BitVec 64)
  | [(.atom (.str k), .atom (.int i))] => if k = d.refKey then some i else none
  | _ => none

/-- A map with the type and the value: streamer.go:224-230, 243-249, 281-292, 301-307 -/
def tagged (d : Dialect) (name : Str) (v : Ev) : Ev :=
  .map [.add (.str d.typeKey), .add (.str name), .add (.str d.valueKey), v]

/-- `emitData`: streamer.go:88-121, with `emitArray` (206-214), `emitMap` (254-294), `emitSensitive` (296-309), `emitBinary` (235-252),
`emitTime` (216-233) and `emitType` (178-194).  The array of an alias is a new object; that it is remembered has no effect. -/
def emit (o : Options) (c : Consumer) (h : Heap) : Nat → Nat → St → Ref → Out (St × Ev)
  | _, level, s, .atom (.str str) => emitString c level s str
  | _, _, s, .atom a => .ok (s.inc 1, .add a)
  | 0, _, _, .obj _ => .deep
  | n + 1, level, s, .obj p =>
    match h p with
    | none => .panic
    | some (.arr es) =>
      process level s (.obj p) fun s => (emitAll (emit o c h n level) (s.inc 1) es).map fun x => (x.1, .arr x.2)
    | some (.map es) =>
      if c.complexKeys || stringKeys es then
        match verbatim o.dialect es with
        | some i => .ok (s, .ref i.toInt)
        | none =>
          process level s (.obj p) fun s =>
            (emitEntries (emit o c h n (if level = 1 then 0 else level)) (emit o c h n level) (s.inc 1) es).map fun x => (x.1, .map x.2)
      else if !o.rich then .panic
      else
        process level s (.obj p) fun s =>
          (emitEntries (emit o c h n 0) (emit o c h n level) (s.inc 5) es).map fun x => (x.1, tagged o.dialect o.dialect.map (.arr x.2))
    | some (.sens v) =>
      process level s (.obj p) fun s =>
        if !o.rich then .panic
        else (emit o c h n level (s.inc 4) v).map fun x => (x.1, tagged o.dialect o.dialect.sensitive x.2)
    | some (.bin bs) =>
      process level s (.obj p) fun s =>
        if c.binary then .ok (s.inc 1, .addBin bs)
        else if !o.rich then .panic
        else (emitString c level (s.inc 4) (Binary.text bs)).map fun x => (x.1, tagged o.dialect o.dialect.binary x.2)
    | some (.time t) =>
      process level s (.obj p) fun s =>
        if c.time then .ok (s.inc 1, .addTime t)
        else if !o.rich then .panic
        else (emitString c level (s.inc 4) (o.timeText t)).map fun x => (x.1, tagged o.dialect o.dialect.time x.2)
    | some (.typ text) =>
      process level s (.obj p) fun s =>
        match o.names with
        | none => .ok (s.inc 3, .map [.add (.str o.dialect.typeKey), .add (.str text)])
        | some names =>
          match names text with
          | none => .ok (s.inc 2, .map [.add (.str o.dialect.typeKey)])
          | some name =>
            (emitAll (fun s r => match r with
                | .atom (.str x) => emitString c level s x
                | _ => .panic) (s.inc 5) [.atom (.str name), .atom (.str text)]).map fun x =>
              (x.1, tagged o.dialect o.dialect.alias (.arr x.2))

/-- The level that is used: streamer.go:74-77. -/
def level (o : Options) (c : Consumer) : Nat := if o.dedup ≥ 2 ∧ c.complexKeys = false then 1 else o.dedup

/-- `Stream`: streamer.go:73-79. -/
def stream (o : Options) (c : Consumer) (h : Heap) (fuel : Nat) (r : Ref) : Out Ev :=
  (emit o c h fuel (level o c) { values := [], refIndex := 0 } r).map (·.2)

/-! ## The collector -/

/-- `BasicCollector`: basiccollector.go:9-16.  `cells` are the objects that have been made; one that is still being filled is `none`.
(Nothing looks into it before it is filled, except `replaceInstance` if the value contains itself.)  The stack is the stack of calls. -/
structure Coll where
  cells : List (Option Obj)
  values : List Ref

def Coll.heap (c : Coll) : Heap := fun p => (c.cells[p]?).join

/-- A new object -/
def Coll.new (c : Coll) (o : Option Obj) : Coll := { c with cells := c.cells ++ [o] }

/-- `Values.Add` -/
def Coll.push (c : Coll) (r : Ref) : Coll := { c with values := c.values ++ [r] }

/-- An object is filled. -/
def Coll.fill (c : Coll) (p : Nat) (o : Obj) : Coll := { c with cells := c.cells.set p (some o) }

/-- The entries of `ToMap`: internal/array.go:1308-1341.  (The key of an entry is a frozen copy; equal to it.  Repeated keys, which no map
has, would be left out later by `PutAll`.) -/
def toPairs : List Ref → List (Ref × Ref)
  | [] => []
  | [k] => [(k, .atom .nil)]
  | k :: v :: r => (k, v) :: toPairs r

/-- What decoding needs besides the dialect: `ParseType`, which yields a type, and `time.Parse`; `none` is a panic. -/
structure Decoder where
  dialect : Dialect
  parseType : Str → Option Str
  parseTime : Str → Option Int

/-- `Get` with a string -/
def getStr (k : Str) : List (Ref × Ref) → Option Ref
  | [] => none
  | (k', v) :: r => if k' = .atom (.str k) then some v else getStr k r

/-- The elements of a list, replaced one after the other; whether one was replaced. -/
def replaceAll (f : List (Option Obj) → Ref → Out (List (Option Obj) × Ref × Bool)) :
    List (Option Obj) → List Ref → Out (List (Option Obj) × List Ref × Bool)
  | h, [] => .ok (h, [], false)
  | h, r :: rs =>
    match f h r with
    | .panic => .panic
    | .deep => .deep
    | .ok (h, r, b) =>
      match replaceAll f h rs with
      | .panic => .panic
      | .deep => .deep
      | .ok (h, rs, b') => .ok (h, r :: rs, b || b')

/-- `replaceInstance`: streamer/decoder.go:88-117.  (Elements are written back when all have been looked at.) -/
def replace (orig repl : Nat) : Nat → List (Option Obj) → Ref → Out (List (Option Obj) × Ref × Bool)
  | _, h, .atom a => .ok (h, .atom a, false)
  | 0, _, .obj _ => .deep
  | n + 1, h, .obj q =>
    if q = orig then .ok (h, .obj repl, true)
    else
      match (h[q]?).join with
      -- not modelled: the object is being filled
      | none => .deep
      | some (.map es) =>
        match replaceAll (replace orig repl n) h (es.map (·.2)) with
        | .panic => .panic
        | .deep => .deep
        | .ok (h, vs, b) => .ok (if b then h.set q (some (.map (es.zipWith (fun e v => (e.1, v)) vs))) else h, .obj q, b)
      | some (.arr es) =>
        match replaceAll (replace orig repl n) h es with
        | .panic => .panic
        | .deep => .deep
        | .ok (h, vs, b) => .ok (if b then h.set q (some (.arr vs)) else h, .obj q, b)
      | some (.sens v) =>
        match replace orig repl n h v with
        | .panic => .panic
        | .deep => .deep
        | .ok (h, v, b) => if b then .ok (h ++ [some (.sens v)], .obj h.length, true) else .ok (h, .obj q, false)
      | some _ => .ok (h, .obj q, false)

/-- A new object that is the result -/
def Coll.result (c : Coll) (o : Obj) : Out (Coll × Ref) := .ok (c.new (some o), .obj c.cells.length)

/-- `decode`: decoder.go:43-86.  `p` is the map and `es` its entries.  (Types by their names,
lines 78-83, are not modelled.) -/
def decode (D : Decoder) (fuel : Nat) (c : Coll) (p : Nat) (es : List (Ref × Ref)) (ts : Str) : Out (Coll × Ref) :=
  if es.length = 1 then
    match D.parseType ts with
    | some t => c.result (.typ t)
    | none => .panic
  else
    let (c, mv) := match getStr D.dialect.valueKey es with
      | some v => (c, v)
      | none => (c.new (some (.map (es.filter fun e => decide (e.1 ≠ Ref.atom (.str D.dialect.typeKey))))), .obj c.cells.length)
    if ts = D.dialect.map then
      match mv with
      | .obj q =>
        match c.heap q with
        | some (.arr rs) =>
          let nm := c.cells.length
          let c := c.new (some (.map (toPairs rs)))
          match replace p nm fuel c.cells (.obj nm) with
          | .panic => .panic
          | .deep => .deep
          | .ok (h, _, _) => .ok ({ c with cells := h }, .obj nm)
        | _ => .panic
      | _ => .panic
    else if ts = D.dialect.sensitive then c.result (.sens mv)
    else if ts = D.dialect.binary then
      match mv with
      | .atom (.str s) =>
        match Binary.fromEncoded .B s with
        | some bs => c.result (.bin bs)
        | none => .panic
      | _ => .panic
    else if ts = D.dialect.time then
      match mv with
      | .atom (.str s) =>
        match D.parseTime s with
        | some t => c.result (.time t)
        | none => .panic
      | _ => .panic
    else if ts = D.dialect.alias then
      match mv with
      | .obj q =>
        match c.heap q with
        | some (.arr (_ :: .atom (.str s) :: _)) =>
          match D.parseType s with
          | some t => c.result (.typ t)
          | none => .panic
        | _ => .panic
      | _ => .panic
    else .panic

mutual
/-- The calls of a `BasicCollector` (basiccollector.go:34-65) or, with a decoder, of a `dataDecoder` (decoder.go:34-41); the value that is
added to the array at the top of the stack. -/
def collect (D : Option Decoder) (fuel : Nat) (c : Coll) : Ev → Out (Coll × Ref)
  | .add a => .ok (c.push (.atom a), .atom a)
  | .addBin bs => .ok ((c.new (some (.bin bs))).push (.obj c.cells.length), .obj c.cells.length)
  | .addTime t => .ok ((c.new (some (.time t))).push (.obj c.cells.length), .obj c.cells.length)
  | .ref n =>
    match (if n < 0 then none else c.values[n.toNat]?) with
    | none => .panic
    | some r => .ok (c, r)
  | .arr es =>
    let p := c.cells.length
    match collectAll D fuel ((c.new none).push (.obj p)) es with
    | .panic => .panic
    | .deep => .deep
    | .ok (c, rs) => .ok (c.fill p (.arr rs), .obj p)
  | .map es =>
    let p := c.cells.length
    match collectAll D fuel ((c.new none).push (.obj p)) es with
    | .panic => .panic
    | .deep => .deep
    | .ok (c, rs) =>
      let c := c.fill p (.map (toPairs rs))
      match D with
      | none => .ok (c, .obj p)
      | some D =>
        match getStr D.dialect.typeKey (toPairs rs) with
        | some (.atom (.str ts)) => decode D fuel c p (toPairs rs) ts
        | _ => .ok (c, .obj p)
def collectAll (D : Option Decoder) (fuel : Nat) (c : Coll) : List Ev → Out (Coll × List Ref)
  | [] => .ok (c, [])
  | e :: es =>
    match collect D fuel c e with
    | .panic => .panic
    | .deep => .deep
    | .ok (c, r) =>
      match collectAll D fuel c es with
      | .panic => .panic
      | .deep => .deep
      | .ok (c, rs) => .ok (c, r :: rs)
end

/-- A new collector: basiccollector.go:26-30. -/
def Coll.empty : Coll := { cells := [], values := [] }

/-- A value is streamed to a new collector (`dec` is none) or a new decoder; the objects that were made, and the value. -/
def transfer (o : Options) (k : Consumer) (D : Option Decoder) (h : Heap) (fuel : Nat) (r : Ref) : Out (Heap × Ref) :=
  match stream o k h fuel r with
  | .panic => .panic
  | .deep => .deep
  | .ok e => (collect D fuel Coll.empty e).map fun x => (x.1.heap, x.2)

end Verif.Stream
