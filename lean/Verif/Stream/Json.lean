import Verif.Stream.Model
import Verif.Text.Utf8
/-!
# JSON: the encoder and the decoder of streamer/json.go

JSON texts are lists of tokens; the bytes of a token are those that `encoding/json` reads and writes.
-/
set_option autoImplicit false
namespace Verif.Stream
open Verif.Value (Str runeLen)

inductive JTok where
  | lbrack
  | rbrack
  | lbrace
  | rbrace
  | comma
  | colon
  /-- the string literal of a string -/
  | str (s : Str)
  | num (text : Str)
  | bool (b : Bool)
  | null
  deriving DecidableEq

/-- The string that `json.Marshal` writes a literal of: what is not UTF-8 is replaced. -/
def repair (s : Str) : Str :=
  match s with
  | [] => []
  | b :: r => Text.encode (Text.decode (b :: r)) ++ repair ((b :: r).drop (runeLen (b :: r)))
termination_by s.length
decreasing_by
  have := Text.runeLen_cons b r
  simp only [List.length_drop, List.length_cons]
  omega

/-- Numbers: the text that `json.Marshal` writes for a float (`none`: an error), and `Float64` of `json.Number`. -/
structure JEnv where
  floatText : BitVec 64 → Option Str
  parseFloat : Str → BitVec 64

/-- The states of the encoder: json.go:13-19. -/
inductive JState where
  | firstInArray
  | firstInObject
  | afterElement
  | afterValue
  | afterKey
  deriving DecidableEq

/-- `write`: json.go:222-239.  `none`: panic. -/
def jwrite (E : JEnv) : Atom → Option JTok
  | .nil => some .null
  | .bool b => some (.bool b)
  | .int i => some (.num (Text.formatInt i.toInt))
  | .float f => (E.floatText f).map .num
  | .str s => some (.str (repair s))

/-- `delimit`: json.go:200-220. -/
def delimit (st : JState) (doer : JState → Option (List JTok × JState)) : Option (List JTok × JState) :=
  match st with
  | .firstInArray => (doer st).map fun x => (x.1, .afterElement)
  | .firstInObject => (doer st).map fun x => (x.1, .afterKey)
  | .afterKey => (doer st).map fun x => (.colon :: x.1, .afterValue)
  | .afterValue => (doer st).map fun x => (.comma :: x.1, .afterKey)
  | .afterElement => (doer st).map fun x => (.comma :: x.1, x.2)

mutual
/-- The calls of the encoder: `AddArray` (json.go:152-160), `AddMap` (162-170), `Add` (172-176) and `AddRef` (178-182), whose key is always that
of the dgo dialect.  A binary or a time, which the streamer does not pass on, is written as `null`. -/
def jenc (E : JEnv) (st : JState) : Ev → Option (List JTok × JState)
  | .add a => delimit st fun st => (jwrite E a).map fun t => ([t], st)
  | .addBin _ => delimit st fun st => some ([.null], st)
  | .addTime _ => delimit st fun st => some ([.null], st)
  | .ref n => delimit st fun st => some ([.lbrace, .str dgoDialect.refKey, .colon, .num (Text.formatInt n), .rbrace], st)
  | .arr es => delimit st fun _ => (jencAll E .firstInArray es).map fun x => ([.lbrack] ++ x.1 ++ [.rbrack], .afterElement)
  | .map es => delimit st fun _ => (jencAll E .firstInObject es).map fun x => ([.lbrace] ++ x.1 ++ [.rbrace], .afterElement)
def jencAll (E : JEnv) (st : JState) : List Ev → Option (List JTok × JState)
  | [] => some ([], st)
  | e :: es =>
    match jenc E st e with
    | none => none
    | some x =>
      match jencAll E x.2 es with
      | none => none
      | some y => some (x.1 ++ y.1, y.2)
end

/-- `MarshalJSON`: json.go:22-30, with any options. -/
def marshal (o : Options) (E : JEnv) (h : Heap) (fuel : Nat) (r : Ref) : Out (List JTok) :=
  match stream o jsonConsumer h fuel r with
  | .panic => .panic
  | .deep => .deep
  | .ok e =>
    match jenc E .firstInArray e with
    | none => .panic
    | some x => .ok x.1

/-- `Int64` of `json.Number`: `strconv.ParseInt(s, 10, 64)`; `none`: an error. -/
def int64 (s : Str) : Option Int :=
  match s with
  | [] => none
  | 45 :: c :: t => (Text.parseDigits 10 0 (c :: t)).bind fun n => if n ≤ 2 ^ 63 then some (-(n : Int)) else none
  | 43 :: c :: t => (Text.parseDigits 10 0 (c :: t)).bind fun n => if n < 2 ^ 63 then some (n : Int) else none
  | _ => (Text.parseDigits 10 0 s).bind fun n => if n < 2 ^ 63 then some (n : Int) else none

/-- `decodeArray`, `decodeMap`: json.go:114-122. -/
def jloop (elem : List JTok → Out (List JTok × Option Ev)) : Nat → List JTok → Out (List JTok × List Ev)
  | 0, _ => .deep
  | n + 1, ts =>
    match elem ts with
    | .panic => .panic
    | .deep => .deep
    | .ok (ts, none) => .ok (ts, [])
    | .ok (ts, some e) =>
      match jloop elem n ts with
      | .panic => .panic
      | .deep => .deep
      | .ok (ts, es) => .ok (ts, e :: es)

/-- `decodeElem` and `decodeCollection`: json.go:67-112.  The tokens are those of `json.Decoder.Token`, which has no commas and colons.  What
the consumer gets is the result. -/
def jelem (E : JEnv) (refKey : Str) : Nat → Option JTok → List JTok → Out (List JTok × Option Ev)
  | 0, _, _ => .deep
  | _ + 1, _, [] => .panic
  | n + 1, stop, t :: ts =>
    if some t = stop then .ok (ts, none)
    else
      match t with
      | .lbrace =>
        match ts with
        | [] => .panic
        | k :: ts' =>
          if k ≠ .str refKey then (jloop (jelem E refKey n (some .rbrace)) n ts).map fun x => (x.1, some (.map x.2))
          else
            match ts' with
            | .num x :: ts'' =>
              match int64 x with
              | some i =>
                match ts'' with
                | .rbrace :: rest => .ok (rest, some (.ref i))
                | _ => .panic
              | none => .panic
            | _ => .panic
      | .lbrack => (jloop (jelem E refKey n (some .rbrack)) n ts).map fun x => (x.1, some (.arr x.2))
      | .rbrack => (jloop (jelem E refKey n (some .rbrack)) n ts).map fun x => (x.1, some (.arr x.2))
      | .rbrace => (jloop (jelem E refKey n (some .rbrack)) n ts).map fun x => (x.1, some (.arr x.2))
      | .str s => .ok (ts, some (.add (.str s)))
      | .num x =>
        match int64 x with
        | some i => .ok (ts, some (.add (.int (BitVec.ofInt 64 i))))
        | none => .ok (ts, some (.add (.float (E.parseFloat x))))
      | .bool b => .ok (ts, some (.add (.bool b)))
      | .null => .ok (ts, some (.add .nil))
      | .comma => .panic
      | .colon => .panic

/-- What `json.Decoder.Token` yields for a well formed text -/
def strip (ts : List JTok) : List JTok := ts.filter fun t => t ≠ .comma ∧ t ≠ .colon

/-- `UnmarshalJSON`: json.go:35-52, of a well formed text. -/
def unmarshal (D : Decoder) (E : JEnv) (fuel : Nat) (ts : List JTok) : Out (Heap × Ref) :=
  match jelem E D.dialect.refKey fuel none (strip ts) with
  | .panic => .panic
  | .deep => .deep
  | .ok (_, none) => .panic
  | .ok (_, some e) => (collect (some D) fuel Coll.empty e).map fun x => (x.1.heap, x.2)

end Verif.Stream
