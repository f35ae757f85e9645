import Verif.Stream.Model
/-!
# Specification: the value of a reference, as a tree, and its encoding
-/
set_option autoImplicit false
namespace Verif.Stream
open Verif.Value (Str)

/-- A finite value -/
inductive T where
  | nil
  | bool (b : Bool)
  | int (i : BitVec 64)
  | float (f : BitVec 64)
  | str (s : Str)
  | bin (bs : List UInt8)
  | time (t : Int)
  | typ (text : Str)
  | sens (v : T)
  | arr (es : List T)
  | map (es : List (T × T))

def T.ofAtom : Atom → T
  | .nil => .nil
  | .bool b => .bool b
  | .int i => .int i
  | .float f => .float f
  | .str s => .str s

def denAll (f : Ref → Option T) : List Ref → Option (List T)
  | [] => some []
  | r :: rs =>
    match f r, denAll f rs with
    | some t, some ts => some (t :: ts)
    | _, _ => none

def denEntries (f : Ref → Option T) : List (Ref × Ref) → Option (List (T × T))
  | [] => some []
  | (k, v) :: rs =>
    match f k, f v, denEntries f rs with
    | some t, some t', some ts => some ((t, t') :: ts)
    | _, _, _ => none

/-- The value of a reference, looking at most `n` objects deep -/
def den (h : Heap) : Nat → Ref → Option T
  | _, .atom a => some (.ofAtom a)
  | 0, .obj _ => none
  | n + 1, .obj p =>
    match h p with
    | none => none
    | some (.arr es) => (denAll (den h n) es).map .arr
    | some (.map es) => (denEntries (den h n) es).map .map
    | some (.sens v) => (den h n v).map .sens
    | some (.bin bs) => some (.bin bs)
    | some (.time t) => some (.time t)
    | some (.typ x) => some (.typ x)

/-- The reference is the finite value `t`. -/
def Is (h : Heap) (r : Ref) (t : T) : Prop := ∃ n, den h n r = some t

def T.isStr : T → Bool
  | .str _ => true
  | _ => false

/-- A map with a type and a value -/
def T.tagged (d : Dialect) (name : Str) (v : T) : T := .map [(.str d.typeKey, .str name), (.str d.valueKey, v)]

mutual
/-- How a value is represented for a consumer: what the consumer cannot do is a map with a type and a value. -/
def enc (o : Options) (k : Consumer) : T → T
  | .arr es => .arr (encAll o k es)
  | .map es =>
    if k.complexKeys || es.all (·.1.isStr) then .map (encEntries o k es)
    else T.tagged o.dialect o.dialect.map (.arr (encFlat o k es))
  | .sens v => T.tagged o.dialect o.dialect.sensitive (enc o k v)
  | .bin bs => if k.binary then .bin bs else T.tagged o.dialect o.dialect.binary (.str (Binary.text bs))
  | .time t => if k.time then .time t else T.tagged o.dialect o.dialect.time (.str (o.timeText t))
  | .typ x =>
    match o.names with
    | none => .map [(.str o.dialect.typeKey, .str x)]
    | some names => T.tagged o.dialect o.dialect.alias (.arr [.str ((names x).getD []), .str x])
  | t => t
def encAll (o : Options) (k : Consumer) : List T → List T
  | [] => []
  | t :: ts => enc o k t :: encAll o k ts
def encEntries (o : Options) (k : Consumer) : List (T × T) → List (T × T)
  | [] => []
  | (t, t') :: ts => (enc o k t, enc o k t') :: encEntries o k ts
def encFlat (o : Options) (k : Consumer) : List (T × T) → List T
  | [] => []
  | (t, t') :: ts => enc o k t :: enc o k t' :: encFlat o k ts
end

/-- A map that the consumer gets as a map -/
def plainMap (k : Consumer) (es : List (Ref × Ref)) : Bool := k.complexKeys || stringKeys es

/-- A value that the consumer gets as a map with its type -/
def isRich (k : Consumer) : Obj → Bool
  | .arr _ => false
  | .map es => !plainMap k es
  | .sens _ => true
  | .bin _ => !k.binary
  | .time _ => !k.time
  | .typ _ => true

/-- What an object refers to -/
def slots : Obj → List Ref
  | .arr es => es
  | .map es => es.flatMap fun e => [e.1, e.2]
  | .sens v => [v]
  | _ => []

/-- Every object of the selected kind is referred to from one place at most, the root from none. -/
structure OnePlace (sel : Obj → Bool) (h : Heap) (root : Ref) : Prop where
  once : ∀ p o w x, h p = some o → sel o = true → h w = some x → (slots x).count (.obj p) ≤ 1
  same : ∀ p o w x w' x', h p = some o → sel o = true → h w = some x → h w' = some x' → Ref.obj p ∈ slots x → Ref.obj p ∈ slots x' → w = w'
  root : ∀ p o w x, h p = some o → sel o = true → h w = some x → root = .obj p → Ref.obj p ∉ slots x

/-- What can be streamed with the options -/
structure Streamable (o : Options) (k : Consumer) (h : Heap) : Prop where
  /-- No map looks like a reference. -/
  noRef : ∀ p es, h p = some (.map es) → plainMap k es = true → verbatim o.dialect es = none
  /-- Without `RichData` only data and types -/
  rich : o.rich = true ∨ ∀ p x, h p = some x → isRich k x = true → ∃ text, x = .typ text
  /-- With an alias map types have names. -/
  named : ∀ p x names, h p = some (.typ x) → o.names = some names → names x ≠ none

/-- What the decoder `D` of the same dialect reads back -/
structure Decodable (o : Options) (k : Consumer) (D : Decoder) (h : Heap) : Prop where
  dialect : D.dialect = o.dialect
  /-- No map has a string at the key of the type. -/
  noType : ∀ p es v s, h p = some (.map es) → plainMap k es = true → (Ref.atom (.str o.dialect.typeKey), v) ∈ es → v ≠ .atom (.str s)
  time : ∀ p t, h p = some (.time t) → D.parseTime (o.timeText t) = some t
  typ : ∀ p x, h p = some (.typ x) → D.parseType x = some x

/-- The entries of a tagged map -/
def tagEntries (d : Dialect) (name : Str) (r : Ref) : List (Ref × Ref) := [(.atom (.str d.typeKey), .atom (.str name)), (.atom (.str d.valueKey), r)]

/-! ## Graphs -/

def AllRel (S : Ref → Ref → Prop) : List Ref → List Ref → Prop
  | [], [] => True
  | a :: as, b :: bs => S a b ∧ AllRel S as bs
  | _, _ => False

def EntriesRel (S : Ref → Ref → Prop) : List (Ref × Ref) → List (Ref × Ref) → Prop
  | [], [] => True
  | a :: as, b :: bs => S a.1 b.1 ∧ S a.2 b.2 ∧ EntriesRel S as bs
  | _, _ => False

/-- The keys and values of a map in one list -/
def flatten {α : Type} (es : List (α × α)) : List α := es.flatMap fun e => [e.1, e.2]

/-- `r` is a map with the type `name` and a value with the property `Q`. -/
def Tagged (d : Dialect) (hb : Heap) (r : Ref) (name : Str) (Q : Ref → Prop) : Prop :=
  ∃ q v, r = .obj q ∧ hb q = some (.map (tagEntries d name v)) ∧ Q v

/-- `r` is what a consumer gets for the object `x`, if `S` says what it gets for the parts of `x`. -/
def Encodes (o : Options) (k : Consumer) (S : Ref → Ref → Prop) (hb : Heap) (x : Obj) (r : Ref) : Prop :=
  match x with
  | .arr es => ∃ q rs, r = .obj q ∧ hb q = some (.arr rs) ∧ AllRel S es rs
  | .map es =>
    if plainMap k es then ∃ q es', r = .obj q ∧ hb q = some (.map es') ∧ EntriesRel S es es'
    else Tagged o.dialect hb r o.dialect.map fun v => ∃ q rs, v = .obj q ∧ hb q = some (.arr rs) ∧ AllRel S (flatten es) rs
  | .sens v => Tagged o.dialect hb r o.dialect.sensitive (S v)
  | .bin bs =>
    if k.binary then ∃ q, r = .obj q ∧ hb q = some (.bin bs)
    else Tagged o.dialect hb r o.dialect.binary fun v => v = .atom (.str (Binary.text bs))
  | .time t =>
    if k.time then ∃ q, r = .obj q ∧ hb q = some (.time t)
    else Tagged o.dialect hb r o.dialect.time fun v => v = .atom (.str (o.timeText t))
  | .typ x =>
    match o.names with
    | none => ∃ q, r = .obj q ∧ hb q = some (.map [(.atom (.str o.dialect.typeKey), .atom (.str x))])
    | some names => ∃ name, names x = some name ∧ Tagged o.dialect hb r o.dialect.alias fun v =>
        ∃ q, v = .obj q ∧ hb q = some (.arr [.atom (.str name), .atom (.str x)])

/-- Atoms correspond to themselves, objects as `R` says. -/
def Rel (R : Nat → Ref → Prop) : Ref → Ref → Prop
  | .atom a, r => r = .atom a
  | .obj p, r => R p r

/-- `R` relates the objects of a graph with what a consumer got for them. -/
def Represents (o : Options) (k : Consumer) (ha hb : Heap) (R : Nat → Ref → Prop) : Prop :=
  ∀ p r, R p r → ∃ x, ha p = some x ∧ Encodes o k (Rel R) hb x r

/-- The names of a dialect differ. -/
structure Dialect.Sound (d : Dialect) : Prop where
  keys : d.typeKey ≠ d.valueKey
  sens : d.sensitive ≠ d.map
  bin : d.binary ≠ d.map ∧ d.binary ≠ d.sensitive
  time : d.time ≠ d.map ∧ d.time ≠ d.sensitive ∧ d.time ≠ d.binary
  alias : d.alias ≠ d.map ∧ d.alias ≠ d.sensitive ∧ d.alias ≠ d.binary ∧ d.alias ≠ d.time

theorem dgoDialect_sound : dgoDialect.Sound := ⟨by decide, by decide, by decide, by decide, by decide⟩
theorem pcoreDialect_sound : pcoreDialect.Sound := ⟨by decide, by decide, by decide, by decide, by decide⟩

end Verif.Stream
