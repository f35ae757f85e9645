import Verif.Text.RoundProps
import Verif.Types.AssignProps
/-!
# C106: types of types, and strings that are texts of the language
-/
set_option autoImplicit false
namespace Verif.Text
open Verif.Value (Str Val F64)
open Verif.Types (Ty Oid maxInt assignable)

/-- `Type()` of a type: internal/meta.go:25-30 for a `metaType`, and `&metaType{t}` for the others (e.g. internal/integer.go, any.go, map.go). -/
def typeType : Ty → Ty
  | .metaT _ => .metaMeta
  | .metaMeta => .metaMeta
  | t => .metaT t

/-- `metaType.Instance` for a type: internal/meta.go:63-73.  `none` is the `metaType` without a type. -/
def metaInstance (E : Types.Env) : Option Ty → Ty → Bool
  | none, .metaT _ => true
  | none, .metaMeta => true
  | none, _ => false
  | some t, u => assignable E t u

/-- the type that is made of what `metaInstance` and `metaNew` take -/
def metaOf : Option Ty → Ty
  | none => .metaMeta
  | some t => .metaT t

/-- What is given to `New` -/
inductive MArg where
  | type (t : Ty)
  | text (s : Str)
  /-- any other value that isn't `dgo.Arguments` -/
  | other

/-- How it is given: as such, or as `dgo.Arguments` -/
inductive MArgs where
  | one (a : MArg)
  | args (as : List MArg)

inductive MErr where
  /-- the wrong number of arguments: internal/arguments.go, `AssertSize` -/
  | size (n : Nat)
  /-- a panic of the parser -/
  | parse (e : PErr)
  /-- `illegalArgument` -/
  | argument
  /-- `IllegalAssignment` -/
  | assignment (t : Ty)

/-- The part of `metaType.New` after the arguments: internal/meta.go:81-98.  A text for a value stands for the type of that value. -/
def metaNewOne (E : Types.Env) (P : PEnv) (m : Option Ty) (a : MArg) : Except MErr Ty :=
  let checked (t : Ty) : Except MErr Ty := if metaInstance E m t then .ok t else .error (.assignment t)
  match a with
  | .type t => checked t
  | .text s =>
    match parse P s with
    | .error e => .error (.parse e)
    | .ok (.ty t) => checked t
    | .ok (.val v) => checked (Types.typeOf O v)
  | .other => .error .argument

/-- `metaType.New`: internal/meta.go:75-99. -/
def metaNew (E : Types.Env) (P : PEnv) (m : Option Ty) : MArgs → Except MErr Ty
  | .one a => metaNewOne E P m a
  | .args [a] => metaNewOne E P m a
  | .args as => .error (.size as.length)

/-- `defaultDgoStringType.Instance`: internal/string.go:107-128.  Texts with names of types, with functions or with aliases are outside of
the model of the parser. -/
def dgoInstance (P : PEnv) (s : Str) : Bool :=
  if s.length > 0 then
    match parse P s with
    | .ok _ => true
    | .error _ => false
  else false

/-! ## Specification -/

/-- the argument describes the type: it is the type, or it is a text that is read as the type, or as a value that has the type -/
inductive Describes (P : PEnv) : MArgs → Ty → Prop where
  | type (t : Ty) : Describes P (.one (.type t)) t
  | text {s : Str} {t : Ty} : parseType P s = .ok t → Describes P (.one (.text s)) t
  | args {a : MArg} {t : Ty} : Describes P (.one a) t → Describes P (.args [a]) t

/-! ## Lemmas -/

theorem parse_nil (P : PEnv) : parse P [] = .error (.syntax ⟨[], tEnd⟩) := by
  have h1 : nextToken [] = .ok (⟨[], tEnd⟩, []) := rfl
  unfold parse
  rw [runes_nil, tokens_end h1 rfl]
  rfl

theorem metaNewOne_iff (E : Types.Env) (P : PEnv) (m : Option Ty) (a : MArg) (t : Ty) :
    metaNewOne E P m a = .ok t ↔ Describes P (.one a) t ∧ metaInstance E m t = true := by
  cases a with
  | type u =>
    simp only [metaNewOne]
    constructor
    · intro h
      split at h
      · cases h; exact ⟨.type _, by assumption⟩
      · cases h
    · rintro ⟨h, hi⟩
      cases h
      rw [if_pos hi]
  | text s =>
    simp only [metaNewOne]
    constructor
    · intro h
      cases hp : parse P s with
      | error e => rw [hp] at h; cases h
      | ok v =>
        rw [hp] at h
        cases v <;> simp only at h <;> split at h <;> cases h
        · exact ⟨.text (by unfold parseType; rw [hp]; rfl), by assumption⟩
        · exact ⟨.text (by unfold parseType; rw [hp]; rfl), by assumption⟩
    · rintro ⟨h, hi⟩
      cases h with
      | text h =>
        unfold parseType at h
        cases hp : parse P s with
        | error e => rw [hp] at h; cases h
        | ok v =>
          rw [hp] at h
          cases v <;> cases h <;> simp only [PV.asType] at hi ⊢ <;> rw [if_pos hi]
  | other =>
    constructor
    · intro h; cases h
    · rintro ⟨h, _⟩; cases h

end Verif.Text
