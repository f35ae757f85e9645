import Verif.Stream.Json
/-!
# JSON: the bytes that streamer/json.go writes and reads

`encoding/json` is written down from its documentation and source: `json.Marshal` of strings and integers, and `json.Decoder.Token` with
`UseNumber`.  The text of a float is a parameter, as in Stream/Json.lean.
-/
set_option autoImplicit false
namespace Verif.Stream
open Verif.Value (Str runeLen)
open Verif.Text (encode runeError)

/-! ## Writing -/

/-- A hexadecimal digit, in lower case -/
def hexDigit (n : Nat) : UInt8 := UInt8.ofNat (if n < 10 then 48 + n else 87 + n)

/-- What `json.Marshal` writes for the first character of a string, given that it has one.  `bf`: are there short escapes for backspace and
form feed?  (That depends on the version of Go.) -/
def quoteRune (bf : Bool) (s : Str) : Str :=
  match s with
  | [] => []
  | b :: _ =>
    if b.toNat < 0x80 then
      if b = 34 ∨ b = 92 then [92, b]
      else if b = 10 then [92, 110]
      else if b = 13 then [92, 114]
      else if b = 9 then [92, 116]
      else if bf = true ∧ b = 8 then [92, 98]
      else if bf = true ∧ b = 12 then [92, 102]
      else if b.toNat < 0x20 ∨ b = 38 ∨ b = 60 ∨ b = 62 then [92, 117, 48, 48, hexDigit (b.toNat / 16), hexDigit (b.toNat % 16)]
      else [b]
    else if Text.decode s = runeError ∧ runeLen s = 1 then [92, 117, 102, 102, 102, 100]
    else if Text.decode s = 0x2028 ∨ Text.decode s = 0x2029 then [92, 117, 50, 48, 50, hexDigit (Text.decode s % 16)]
    else s.take (runeLen s)

/-- What stands between the quotes -/
def quoteBody (bf : Bool) (s : Str) : Str :=
  match s with
  | [] => []
  | b :: r => quoteRune bf (b :: r) ++ quoteBody bf ((b :: r).drop (runeLen (b :: r)))
termination_by s.length
decreasing_by
  have := Text.runeLen_cons b r
  simp only [List.length_drop, List.length_cons]
  omega

/-- `json.Marshal` of a string -/
def quoteJson (bf : Bool) (s : Str) : Str := [34] ++ quoteBody bf s ++ [34]

/-- `write`: json.go:222-239.  `none`: panic. -/
def bwrite (E : JEnv) (bf : Bool) : Atom → Option Str
  | .nil => some [110, 117, 108, 108]
  | .bool true => some [116, 114, 117, 101]
  | .bool false => some [102, 97, 108, 115, 101]
  | .int i => some (Text.formatInt i.toInt)
  | .float f => E.floatText f
  | .str s => some (quoteJson bf s)

/-- `delimit`: json.go:200-220. -/
def bdelimit (st : JState) (doer : JState → Option (Str × JState)) : Option (Str × JState) :=
  match st with
  | .firstInArray => (doer st).map fun x => (x.1, .afterElement)
  | .firstInObject => (doer st).map fun x => (x.1, .afterKey)
  | .afterKey => (doer st).map fun x => ([58] ++ x.1, .afterValue)
  | .afterValue => (doer st).map fun x => ([44] ++ x.1, .afterKey)
  | .afterElement => (doer st).map fun x => ([44] ++ x.1, x.2)

mutual
/-- The calls of the encoder: `AddArray` (json.go:152-160), `AddMap` (162-170), `Add` (172-176) and `AddRef` (178-182); as `jenc`, but with
the bytes. -/
def benc (E : JEnv) (bf : Bool) (st : JState) : Ev → Option (Str × JState)
  | .add a => bdelimit st fun st => (bwrite E bf a).map fun t => (t, st)
  | .addBin _ => bdelimit st fun st => some ([110, 117, 108, 108], st)
  | .addTime _ => bdelimit st fun st => some ([110, 117, 108, 108], st)
  | .ref n => bdelimit st fun st => some ([123, 34] ++ dgoDialect.refKey ++ [34, 58] ++ Text.formatInt n ++ [125], st)
  | .arr es => bdelimit st fun _ => (bencAll E bf .firstInArray es).map fun x => ([91] ++ x.1 ++ [93], .afterElement)
  | .map es => bdelimit st fun _ => (bencAll E bf .firstInObject es).map fun x => ([123] ++ x.1 ++ [125], .afterElement)
def bencAll (E : JEnv) (bf : Bool) (st : JState) : List Ev → Option (Str × JState)
  | [] => some ([], st)
  | e :: es =>
    match benc E bf st e with
    | none => none
    | some x =>
      match bencAll E bf x.2 es with
      | none => none
      | some y => some (x.1 ++ y.1, y.2)
end

/-- `MarshalJSON`: json.go:22-30, with any options. -/
def marshalBytes (o : Options) (E : JEnv) (bf : Bool) (h : Heap) (fuel : Nat) (r : Ref) : Out Str :=
  match stream o jsonConsumer h fuel r with
  | .panic => .panic
  | .deep => .deep
  | .ok e =>
    match benc E bf .firstInArray e with
    | none => .panic
    | some x => .ok x.1

/-! ## Reading -/

def hexVal (b : UInt8) : Option Nat :=
  let n := b.toNat
  if 48 ≤ n ∧ n ≤ 57 then some (n - 48)
  else if 97 ≤ n ∧ n ≤ 102 then some (n - 87)
  else if 65 ≤ n ∧ n ≤ 70 then some (n - 55)
  else none

/-- `getu4` of encoding/json: four hexadecimal digits -/
def hex4 (a b c d : UInt8) : Option Nat :=
  match hexVal a, hexVal b, hexVal c, hexVal d with
  | some a, some b, some c, some d => some (a * 4096 + b * 256 + c * 16 + d)
  | _, _, _, _ => none

/-- Short escapes -/
def shortEscape (b : UInt8) : Option UInt8 :=
  if b = 34 ∨ b = 92 ∨ b = 47 then some b
  else if b = 98 then some 8
  else if b = 102 then some 12
  else if b = 110 then some 10
  else if b = 114 then some 13
  else if b = 116 then some 9
  else none

/-- The low half of a pair of surrogates at the start of a text: its code, and the rest -/
def lowSurrogate : Str → Option (Nat × Str)
  | 92 :: 117 :: a :: b :: c :: d :: r =>
    match hex4 a b c d with
    | some u => if 0xDC00 ≤ u ∧ u < 0xE000 then some (u, r) else none
    | none => none
  | _ => none

/-- A string literal after its first quote: the string, and what follows the literal.  What is not UTF-8 is replaced, and so are surrogates that
do not come in pairs. -/
def unquote : Nat → Str → Option (Str × Str)
  | 0, _ => none
  | _ + 1, [] => none
  | n + 1, b :: r =>
    if b = 34 then some ([], r)
    else if b = 92 then
      match r with
      | [] => none
      | e :: r' =>
        if e = 117 then
          match r' with
          | x :: y :: z :: w :: r'' =>
            match hex4 x y z w with
            | none => none
            | some u =>
              if 0xD800 ≤ u ∧ u < 0xDC00 then
                match lowSurrogate r'' with
                | some (v, r3) => (unquote n r3).map fun q => (encode (0x10000 + (u - 0xD800) * 1024 + (v - 0xDC00)) ++ q.1, q.2)
                | none => (unquote n r'').map fun q => (encode runeError ++ q.1, q.2)
              else (unquote n r'').map fun q => (encode u ++ q.1, q.2)
          | _ => none
        else
          match shortEscape e with
          | none => none
          | some c => (unquote n r').map fun q => (c :: q.1, q.2)
    else if b.toNat < 0x20 then none
    else (unquote n ((b :: r).drop (runeLen (b :: r)))).map fun q => (encode (Text.decode (b :: r)) ++ q.1, q.2)

def isDigit (b : UInt8) : Bool := 48 ≤ b.toNat && b.toNat ≤ 57

/-- Digits, at least one -/
def digits1 (s : Str) : Option (Str × Str) :=
  match s.takeWhile isDigit with
  | [] => none
  | ds => some (ds, s.dropWhile isDigit)

/-- The integral part of a number: after `0` it ends. -/
def intPart : Str → Option (Str × Str)
  | 48 :: r => some ([48], r)
  | s => digits1 s

/-- A fraction, if there is one; `none`: an error -/
def fracPart : Str → Option (Str × Str)
  | 46 :: r => (digits1 r).map fun x => (46 :: x.1, x.2)
  | s => some ([], s)

/-- An exponent, if there is one -/
def expPart : Str → Option (Str × Str)
  | [] => some ([], [])
  | e :: r =>
    if e = 101 ∨ e = 69 then
      match r with
      | [] => none
      | g :: r' => if g = 43 ∨ g = 45 then (digits1 r').map fun x => (e :: g :: x.1, x.2) else (digits1 r).map fun x => (e :: x.1, x.2)
    else some ([], e :: r)

/-- A number without its sign -/
def unsignedPart (s : Str) : Option (Str × Str) :=
  match intPart s with
  | none => none
  | some (i, r) =>
    match fracPart r with
    | none => none
    | some (f, r) =>
      match expPart r with
      | none => none
      | some (e, r) => some (i ++ f ++ e, r)

/-- A number, and what follows it -/
def number : Str → Option (Str × Str)
  | 45 :: r => (unsignedPart r).map fun x => (45 :: x.1, x.2)
  | s => unsignedPart s

def isSpace (b : UInt8) : Bool := b = 32 || b = 9 || b = 10 || b = 13

/-- One token (commas and colons too), after blanks.  `none`: the end, or an error -/
def lexTok (s : Str) : Option (JTok × Str) :=
  match s.dropWhile isSpace with
  | [] => none
  | 91 :: r => some (.lbrack, r)
  | 93 :: r => some (.rbrack, r)
  | 123 :: r => some (.lbrace, r)
  | 125 :: r => some (.rbrace, r)
  | 44 :: r => some (.comma, r)
  | 58 :: r => some (.colon, r)
  | 34 :: r => (unquote (r.length + 1) r).map fun q => (.str q.1, q.2)
  | 116 :: 114 :: 117 :: 101 :: r => some (.bool true, r)
  | 102 :: 97 :: 108 :: 115 :: 101 :: r => some (.bool false, r)
  | 110 :: 117 :: 108 :: 108 :: r => some (.null, r)
  | s => (number s).map fun q => (.num q.1, q.2)

/-- The states of `json.Decoder`: `tokenTopValue` and so on -/
inductive TState where
  | topValue
  | arrayStart
  | arrayValue
  | arrayComma
  | objectStart
  | objectKey
  | objectColon
  | objectValue
  | objectComma
  deriving DecidableEq

/-- `tokenValueAllowed` -/
def TState.value : TState → Bool
  | .topValue | .arrayStart | .arrayValue | .objectValue => true
  | _ => false

/-- `tokenValueEnd` -/
def TState.after : TState → TState
  | .arrayStart | .arrayValue => .arrayComma
  | .objectValue => .objectComma
  | s => s

/-- What `Token` of `json.Decoder` makes of a token: the next state and stack; `none`: an error -/
def tokStep (m : TState) (stk : List TState) : JTok → Option (TState × List TState)
  | .lbrack => if m.value then some (.arrayStart, m :: stk) else none
  | .lbrace => if m.value then some (.objectStart, m :: stk) else none
  | .rbrack =>
    if m = .arrayStart ∨ m = .arrayComma then
      match stk with
      | [] => none
      | m' :: stk => some (m'.after, stk)
    else none
  | .rbrace =>
    if m = .objectStart ∨ m = .objectComma then
      match stk with
      | [] => none
      | m' :: stk => some (m'.after, stk)
    else none
  | .colon => if m = .objectColon then some (.objectValue, stk) else none
  | .comma => if m = .arrayComma then some (.arrayValue, stk) else if m = .objectComma then some (.objectKey, stk) else none
  | .str _ => if m = .objectStart ∨ m = .objectKey then some (.objectColon, stk) else if m.value then some (m.after, stk) else none
  | _ => if m.value then some (m.after, stk) else none

/-- What `Token` of `json.Decoder` yields, call by call, up to the end or the first error -/
def tokenStream : Nat → TState → List TState → Str → List JTok
  | 0, _, _, _ => []
  | n + 1, m, stk, s =>
    match lexTok s with
    | none => []
    | some (t, r) =>
      match tokStep m stk t with
      | none => []
      | some (m', stk') => if t = .comma ∨ t = .colon then tokenStream n m' stk' r else t :: tokenStream n m' stk' r

/-- `UnmarshalJSON`: json.go:35-52. -/
def unmarshalBytes (D : Decoder) (E : JEnv) (fuel : Nat) (s : Str) : Out (Heap × Ref) :=
  match jelem E D.dialect.refKey fuel none (tokenStream (s.length + 1) .topValue [] s) with
  | .panic => .panic
  | .deep => .deep
  | .ok (_, none) => .panic
  | .ok (_, some e) => (collect (some D) fuel Coll.empty e).map fun x => (x.1.heap, x.2)

end Verif.Stream
