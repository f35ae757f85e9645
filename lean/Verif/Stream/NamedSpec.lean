import Verif.Stream.Named
/-!
# Specification: values that are transferred as they are
-/
set_option autoImplicit false
namespace Verif.Stream.Named
open Verif.Value (Str)

/-- The keys and names of a dialect are different. -/
structure Proper (d : Dialect) : Prop where
  keys : d.typeKey ≠ d.valueKey
  sens : d.sensitive ≠ d.map

/-- No two keys are equal. -/
def Distinct (es : List (Data × Data)) : Prop := es.Pairwise fun a b => sameKey a.1 b.1 = false

/-- The text is no key. -/
def NoKey (k : Str) (es : List (Data × Data)) : Prop := ∀ e ∈ es, e.1 ≠ .atom (.str k)

/-- The name of a type is no name of the dialect, it is registered, and the constructor makes a value of the argument that the extractor
finds in it. -/
structure Registered (W : World) (p : Nat) (arg : Data) : Prop where
  named : W.named (W.name p) = some p
  make : W.make p arg = some (.host p arg)
  name : W.name p ∉ [W.dialect.map, W.dialect.sensitive, W.dialect.binary, W.dialect.time, W.dialect.alias]

mutual
/-- No map looks like the representation of something else, and the argument of a named type is no empty map and no map with the keys
of the dialect. -/
def Good (W : World) : Data → Prop
  | .atom _ => True
  | .arr es => GoodAll W es
  | .map es => GoodEntries W es ∧ Distinct es ∧ NoKey W.dialect.typeKey es ∧ NoKey W.dialect.refKey es
  | .sens v => Good W v
  | .typ text => W.parseType text = some (.typ text)
  | .host p (.map es) => Registered W p (.map es) ∧ GoodValues W es ∧ Distinct es ∧ es ≠ [] ∧ NoKey W.dialect.typeKey es ∧ NoKey W.dialect.valueKey es
  | .host p v => Registered W p v ∧ Good W v
def GoodAll (W : World) : List Data → Prop
  | [] => True
  | d :: ds => Good W d ∧ GoodAll W ds
def GoodEntries (W : World) : List (Data × Data) → Prop
  | [] => True
  | (k, v) :: r => Good W k ∧ Good W v ∧ GoodEntries W r
def GoodValues (W : World) : List (Data × Data) → Prop
  | [] => True
  | (_, v) :: r => Good W v ∧ GoodValues W r
end

mutual
/-- In every map that a consumer is told the keys are strings. -/
def StringKeyed : Ev → Prop
  | .add _ | .ref _ => True
  | .arr es => StringKeyedAll es
  | .map es => StringKeyedMap es
def StringKeyedAll : List Ev → Prop
  | [] => True
  | e :: es => StringKeyed e ∧ StringKeyedAll es
def StringKeyedMap : List Ev → Prop
  | [] => True
  | [_] => False
  | k :: v :: es => (∃ s, k = .add (.atom (.str s))) ∧ StringKeyed v ∧ StringKeyedMap es
end

mutual
/-- Every map that is the argument of a named type has strings as keys. -/
def StringArgs : Data → Prop
  | .atom _ | .typ _ => True
  | .arr es => StringArgsAll es
  | .map es => StringArgsEntries es
  | .sens v => StringArgs v
  | .host _ (.map es) => stringKeys es = true ∧ StringArgsEntries es
  | .host _ v => StringArgs v
def StringArgsAll : List Data → Prop
  | [] => True
  | d :: ds => StringArgs d ∧ StringArgsAll ds
def StringArgsEntries : List (Data × Data) → Prop
  | [] => True
  | (k, v) :: r => StringArgs k ∧ StringArgs v ∧ StringArgsEntries r
end

/-- The map has a key that isn't a string. -/
def OddKey (es : List (Data × Data)) : Prop := ∃ e ∈ es, ∀ s, e.1 ≠ .atom (.str s)

mutual
/-- Atoms, arrays and maps, where a map has strings as keys unless the consumer can do others, and where no map looks like a reference. -/
def Direct (complex : Bool) (ref : Str) : Data → Prop
  | .atom _ => True
  | .arr es => DirectAll complex ref es
  | .map es => (complex = true ∨ ¬ OddKey es) ∧ NoKey ref es ∧ DirectEntries complex ref es
  | _ => False
def DirectAll (complex : Bool) (ref : Str) : List Data → Prop
  | [] => True
  | d :: ds => Direct complex ref d ∧ DirectAll complex ref ds
def DirectEntries (complex : Bool) (ref : Str) : List (Data × Data) → Prop
  | [] => True
  | (k, v) :: r => Direct complex ref k ∧ Direct complex ref v ∧ DirectEntries complex ref r
end

mutual
/-- The value as it is. -/
def told : Data → Ev
  | .arr es => .arr (toldAll es)
  | .map es => .map (toldEntries es)
  | d => .add d
def toldAll : List Data → List Ev
  | [] => []
  | d :: ds => told d :: toldAll ds
def toldEntries : List (Data × Data) → List Ev
  | [] => []
  | (k, v) :: r => told k :: told v :: toldEntries r
end

mutual
/-- A sensitive value, a value of a named type or, if the consumer can do strings only, a map with another key is in it. -/
def NeedsRich (complex : Bool) : Data → Prop
  | .atom _ | .typ _ => False
  | .arr es => NeedsRichAll complex es
  | .map es => (complex = false ∧ OddKey es) ∨ NeedsRichEntries complex es
  | .sens _ | .host _ _ => True
def NeedsRichAll (complex : Bool) : List Data → Prop
  | [] => False
  | d :: ds => NeedsRich complex d ∨ NeedsRichAll complex ds
def NeedsRichEntries (complex : Bool) : List (Data × Data) → Prop
  | [] => False
  | (k, v) :: r => NeedsRich complex k ∨ NeedsRich complex v ∨ NeedsRichEntries complex r
end

end Verif.Stream.Named
