import Verif.Text.Quote
/-!
# The indenter, and printing of values

Simplifications, for the whole file:
* values that are not `dgo.Indentable` and cannot contain values (booleans, numbers, binaries, times, regular expressions, types,
  functions, errors, native values) are `Atom.other` with the text that their `String` returns.
* a type that is an element of an array or map is such a value; printing of types is the subject of Text/Printer.lean.
* recursion depth is bounded by fuel, `none` means that it does not suffice.  (In Go: stack overflow.)
-/
set_option autoImplicit false
namespace Verif.Print
open Verif.Value (Str runeLen)
open Verif.Text (decode encode quote runeLen_cons)

/-! ## The indenter: util/indenter.go -/

/-- Indenters that share a buffer: the one that `NewIndenter` returned is number 0, those that `Indent` returned follow.  `levels`
has the level of each one. -/
structure Ind where
  unit : Str
  buf : Str
  levels : List Nat

/-- `NewIndenter`: indenter.go:36-38. -/
def Ind.new (unit : Str) : Ind := { unit := unit, buf := [], levels := [0] }

/-- The characters of a text one after the other, as `ReadRune` of `bytes.Buffer` returns them: U+FFFD for a byte that is not part of a
well formed character -/
def chars (s : Str) : List Nat :=
  match s with
  | [] => []
  | b :: t => decode (b :: t) :: chars ((b :: t).drop (runeLen (b :: t)))
termination_by s.length
decreasing_by
  simp only [List.length_drop]
  have := runeLen_cons b t
  simp at *; omega

/-- The loop of `String`: indenter.go:54-73.  `wb` has the blanks that have been read last. -/
def stringLoop (wb : Str) : List Nat → Str
  | [] => []
  | r :: cs =>
    if r = 32 ∨ r = 9 then stringLoop (wb ++ [UInt8.ofNat r]) cs
    else if r = 10 then encode r ++ stringLoop [] cs
    else wb ++ encode r ++ stringLoop [] cs

/-- What `NewLine` writes at a level: indenter.go:149-156. -/
def newLineText (unit : Str) (level : Nat) : Str :=
  if unit.length > 0 then [10] ++ (List.replicate level unit).flatten else []

/-- What `AppendIndented` writes: indenter.go:104-119. -/
def indentedText (nl : Str) (s : Str) : Str :=
  match s with
  | [] => []
  | b :: t => if b = 10 then nl ++ indentedText nl t else b :: indentedText nl t

inductive Call where
  | append (s : Str)
  | appendRune (r : Nat)
  | appendIndented (s : Str)
  | indent
  | newLine
  | reset
  | string
  deriving DecidableEq

/-- A call of a method of indenter number `i`; the second part is what `String` returns.  (A call of an indenter that is not there
does nothing.) -/
def Ind.call (d : Ind) (i : Nat) (c : Call) : Ind × Option Str :=
  match d.levels[i]? with
  | none => (d, none)
  | some level =>
    match c with
    -- indenter.go:87-89, and 79-81, 75-77, 121-129, 131-133, 145-147 for the other kinds of text
    | .append s => ({ d with buf := d.buf ++ s }, none)
    -- indenter.go:83-85
    | .appendRune r => ({ d with buf := d.buf ++ encode r }, none)
    | .appendIndented s => ({ d with buf := d.buf ++ indentedText (newLineText d.unit level) s }, none)
    -- indenter.go:135-139
    | .indent => ({ d with levels := d.levels ++ [level + 1] }, none)
    | .newLine => ({ d with buf := d.buf ++ newLineText d.unit level }, none)
    -- indenter.go:48-50
    | .reset => ({ d with buf := [] }, none)
    -- indenter.go:52-73; the buffer has been read to its end
    | .string => ({ d with buf := [] }, some (stringLoop [] (chars d.buf)))

/-- Calls one after the other, and what each `String` returned -/
def Ind.calls (d : Ind) : List (Nat × Call) → Ind × List Str
  | [] => (d, [])
  | (i, c) :: cs =>
    let r := d.call i c
    let rs := r.1.calls cs
    (rs.1, r.2.toList ++ rs.2)

/-! ## Values -/

/-- A value that cannot contain values -/
inductive Atom where
  /-- internal/nil.go -/
  | nil
  /-- internal/string.go -/
  | str (s : Str)
  /-- any other value that is not `Indentable`, with the text that its method `String` returns -/
  | other (text : Str)
  deriving DecidableEq

inductive Ref where
  | atom (a : Atom)
  | obj (p : Nat)
  deriving DecidableEq

/-- An object that contains values -/
inductive Obj where
  /-- internal/array.go:15-18 -/
  | arr (es : List Ref)
  /-- internal/map.go:54-60: the entries, which are objects, in iteration order.  (A struct value, internal/struct.go:14-17, is printed
  in the same way.) -/
  | map (es : List Nat)
  /-- internal/map.go:36-51; `node`: it is a `*hashNode`, not a `*mapEntry` -/
  | entry (node : Bool) (k v : Ref)
  /-- internal/sensitive.go:10-12 -/
  | sens (v : Ref)
  deriving DecidableEq

abbrev Heap := List Obj

/-- The text of an ASCII literal -/
def txt (s : String) : Str := s.toList.map fun c => UInt8.ofNat c.toNat

/-- `TypeIdentifier.String` of the type of the value: dgo/typeidentifier.go:148-192. -/
def kindName : Obj → Str
  | .arr _ => txt "slice"
  | .map _ => txt "map"
  | .entry .. => txt "map entry"
  | .sens _ => txt "sensitive"

/-- "sensitive [value redacted]": internal/sensitive.go:161-163. -/
def redacted : Str := txt "sensitive [value redacted]"

/-- "<recursive self reference to " and ">": util/erpindenter.go:47-53. -/
def recursion (o : Obj) : Str := txt "<recursive self reference to " ++ kindName o ++ [62]

/-- What is written: a text, or a new line at a level -/
inductive Piece where
  | text (s : Str)
  | newLine (level : Nat)
  deriving DecidableEq

/-- Elements with a comma and a new line before each one: array.go:881-887 and map.go:402-411. -/
def separated (level : Nat) : Bool → List (List Piece) → List Piece
  | _, [] => []
  | first, ps :: r => (if first then [] else [.text [44]]) ++ [.newLine level] ++ ps ++ separated level false r

/-- The results if all are there -/
def allSome {α : Type} : List (Option α) → Option (List α)
  | [] => some []
  | none :: _ => none
  | some a :: r => (allSome r).map (a :: ·)

/-- `AppendTo` of arrays, maps and entries: internal/array.go:877-890, map.go:84-91 and 395-414, struct.go:21-23.  `value` is
`AppendValue` at a level; `indenting` is `Indenting()`. -/
def appendTo (indenting : Bool) (value : Nat → Ref → Option (List Piece)) (level : Nat) : Obj → Option (List Piece)
  | .arr es =>
    (allSome (es.map (value (level + 1)))).map fun ps =>
      [.text [123]] ++ separated (level + 1) true ps ++ [.newLine level, .text [125]]
  | .map es =>
    (allSome (es.map fun e => value (level + 1) (.obj e))).map fun ps =>
      [.text [123]] ++ separated (level + 1) true ps ++ [.newLine level, .text [125]]
  | .entry _ k v =>
    match value level k, value level v with
    | some a, some b => some (a ++ [.text [58]] ++ (if indenting then [.text [32]] else []) ++ b)
    | _, _ => none
  -- not `Indentable`
  | .sens _ => some [.text redacted]

/-- `AppendValue` of an `erpIndenter`: util/erpindenter.go:41-64, and of the `indenter` within: indenter.go:91-102.  `isPrint` is
`strconv.IsPrint`; `seen` has the objects that are being printed.  A reference to no object is not possible in Go. -/
def appendValue (isPrint : Nat → Bool) (indenting : Bool) (h : Heap) : Nat → List Nat → Nat → Ref → Option (List Piece)
  | _, _, _, .atom .nil => some [.text [110, 105, 108]]
  | _, _, _, .atom (.str s) => some [.text (quote isPrint s)]
  | _, _, _, .atom (.other s) => some [.text s]
  | 0, _, _, .obj _ => none
  | n + 1, seen, level, .obj p =>
    match h[p]? with
    | none => none
    | some o =>
      match o with
      | .sens _ => some [.text redacted]
      | o =>
        if seen.contains p then some [.text (recursion o)]
        else appendTo indenting (appendValue isPrint indenting h n (seen ++ [p])) level o

/-- What is seen at first: the value that is printed.  The entry of a map, a `*hashNode`, is seen as the `*mapEntry` that it has
embedded, which is another object: its method `String` (map.go:163-165) is that of `*mapEntry`. -/
def firstSeen (p : Nat) : Obj → List Nat
  | .entry true _ _ => []
  | _ => [p]

/-- What `ToStringERP` (erpindenter.go:14-19) and `ToIndentedStringERP` (lines 23-28) write for an array, map or entry -/
def pieces (isPrint : Nat → Bool) (indenting : Bool) (h : Heap) (fuel p : Nat) : Option (List Piece) :=
  match h[p]? with
  | none => none
  | some o => appendTo indenting (appendValue isPrint indenting h fuel (firstSeen p o)) 0 o

/-- The text of the pieces -/
def Piece.render (unit : Str) : Piece → Str
  | .text s => s
  | .newLine level => newLineText unit level

/-- `ToStringERP` with `unit` empty, `ToIndentedStringERP` with two blanks; also `String` of arrays, maps and entries
(internal/array.go:1304-1306, map.go:163-165 and 784-786) and of sensitive values (sensitive.go:161-163). -/
def toStringERP (isPrint : Nat → Bool) (unit : Str) (h : Heap) (fuel p : Nat) : Option Str :=
  (pieces isPrint (unit.length > 0) h fuel p).map fun ps => stringLoop [] (chars (ps.flatMap (Piece.render unit)))

end Verif.Print
