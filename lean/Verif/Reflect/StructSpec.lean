import Verif.Reflect.Struct
/-!
# What a struct shows as a map
-/
set_option autoImplicit false
set_option linter.unusedVariables false
namespace Verif.Reflect
open Verif.Value

/-- The fields of the struct, none of them embedded, have these values. -/
structure Shows (E : Env) (s : SV) (es : List (Str × Val)) : Prop where
  fields : List.Forall₂ (fun f e => f.1 = e.1 ∧ ∃ g, f.2 = .plain g ∧ fromReflected E g = .ok e.2) s.fields es
  distinct : (es.map (·.1)).Nodup

/-- The entries of the map -/
def asMap (es : List (Str × Val)) : List (Val × Val) := es.map fun e => (.str e.1, e.2)

/-- The type of the field of that name -/
def HasType (s : SV) (n : Str) (t : GT) : Prop := ∃ g, (n, Field.plain g) ∈ s.fields ∧ g.type = t

/-- A field of the type can hold the value. -/
def CanHold (E : Env) (t : GT) (v : Val) : Prop := (∃ g, reflectTo E v t = some g) ∧ Survives E t v ∧ WF v

/-! ## Programs -/

/-- Calls -/
inductive SOp where
  | len
  | keys
  | entries
  | get (k : Val)
  | containsKey (k : Val)
  | put (k v : Val)
  | putAll (es : List (Val × Val))
  | remove (k : Val)
  | removeAll (ks : List Val)
  | freeze

/-- What the caller sees -/
inductive SOut where
  | panic
  | unit
  | nat (n : Nat)
  | bool (b : Bool)
  | vals (vs : List Val)
  | entries (es : List (Val × Except NoVal Val))
  | val (r : Option (Except NoVal Val))

/-- A call on a struct -/
def SV.step (E : Env) (s : SV) : SOp → SV × SOut
  | .len => (s, .nat s.len)
  | .keys => (s, .vals s.keys)
  | .entries => (s, .entries (s.entries E))
  | .get k => (s, .val (s.get E k))
  | .containsKey k => (s, .bool (s.containsKey k))
  | .put k v =>
    match s.put E k v with
    | some (s', o) => (s', .val (some o))
    | none => (s, .panic)
  | .putAll es => let r := s.putAll E es; (r.1, if r.2 then .unit else .panic)
  | .remove k =>
    match s.remove k with
    | some _ => (s, .unit)
    | none => (s, .panic)
  | .removeAll ks =>
    match s.removeAll ks with
    | some _ => (s, .unit)
    | none => (s, .panic)
  | .freeze => let r := s.freeze E; (r.1, if r.2 then .unit else .panic)

def SV.run (E : Env) (s : SV) : List SOp → SV × List SOut
  | [] => (s, [])
  | o :: os => let r := s.step E o; let q := SV.run E r.1 os; (q.1, r.2 :: q.2)

/-- A record: names with values, the names are fixed -/
structure Rec where
  es : List (Str × Val)
  frozen : Bool

namespace Rec

/-- The value of a name -/
def value (r : Rec) (k : Val) : Option Val :=
  match k with
  | .str n => r.es.lookup n
  | _ => none

/-- `none` if it is frozen or has no such name -/
def put (r : Rec) (k v : Val) : Option (Rec × Val) :=
  if r.frozen then none
  else
    match k with
    | .str n => (r.es.lookup n).map fun old => ({ r with es := r.es.map fun e => if e.1 = n then (n, v) else e }, old)
    | _ => none

def putAll (r : Rec) : List (Val × Val) → Rec × Bool
  | [] => (r, true)
  | (k, v) :: es =>
    match r.put k v with
    | some (r', _) => putAll r' es
    | none => (r, false)

def step (r : Rec) : SOp → Rec × SOut
  | .len => (r, .nat r.es.length)
  | .keys => (r, .vals (r.es.map fun e => .str e.1))
  | .entries => (r, .entries (r.es.map fun e => (.str e.1, .ok e.2)))
  | .get k => (r, .val ((r.value k).map .ok))
  | .containsKey k => (r, .bool (r.value k).isSome)
  | .put k v =>
    match r.put k v with
    | some (r', o) => (r', .val (some (.ok o)))
    | none => (r, .panic)
  | .putAll es => let q := r.putAll es; (q.1, if q.2 then .unit else .panic)
  | .remove _ | .removeAll _ => (r, .panic)
  | .freeze => ({ r with frozen := true }, .unit)

def run (r : Rec) : List SOp → Rec × List SOut
  | [] => (r, [])
  | o :: os => let q := r.step o; let p := run q.1 os; (p.1, q.2 :: p.2)

end Rec

/-- What is put in a field is something that it can hold. -/
def Fits (E : Env) (s : SV) : SOp → Prop
  | .put k v => ∀ n t, k = .str n → HasType s n t → CanHold E t v
  | .putAll es => ∀ e ∈ es, ∀ n t, e.1 = .str n → HasType s n t → CanHold E t e.2
  | _ => True

end Verif.Reflect
