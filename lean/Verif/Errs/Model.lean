import Verif.Types.Hash
/-!
# Errors as values

`internal/error.go` and `internal/typeerror.go`.

Simplifications, for the whole file:
* what the texts of types, of values in exact types and of numbers are is given (`Texts`); the text of types is in Verif/Text/Printer.lean.
* a Go error is an object with a message and, maybe, an error that its method `Unwrap` returns; it has no methods `Is` or `As`.
-/
set_option autoImplicit false
namespace Verif.Errs
open Verif.Value (Str strHash)
open Verif.Types (Ty tyHash)

/-- A Go error: which object it is, what `Error` and what `Unwrap` return -/
inductive GoErr where
  | mk (id : Nat) (msg : Str) (inner : Option GoErr)

def GoErr.id : GoErr → Nat
  | .mk i _ _ => i
def GoErr.msg : GoErr → Str
  | .mk _ m _ => m
def GoErr.inner : GoErr → Option GoErr
  | .mk _ _ e => e

/-- The texts in messages -/
structure Texts where
  /-- what typeerror.go:54-61 makes of the actual type -/
  what : Ty → Str
  /-- `TypeString` -/
  type : Ty → Str
  num : BitVec 64 → Str

/-- The errors of dgo -/
inductive DErr where
  /-- `errw`: error.go:11-13; the variable that has the Go error -/
  | errw (c : Nat)
  /-- `mapKeyError`, `typeError` and `sizeError`: typeerror.go:11-24.  The key is a type: typeerror.go:114-116. -/
  | key (t k : Ty)
  | type (expected actual : Ty)
  | size (t : Ty) (n : BitVec 64)

/-- The content of the variables in the `errw`s -/
abbrev Mem := Nat → GoErr

def ascii (s : String) : Str := s.toUTF8.toList

/-- `Error`: error.go:91-93 and typeerror.go:33-35, 52-64, 85-88. -/
def message (T : Texts) (M : Mem) : DErr → Str
  | .errw c => (M c).msg
  | .key t k => ascii "key " ++ T.type k ++ ascii " cannot added to type " ++ T.type t
  | .type e a => T.what a ++ ascii " cannot be assigned to a variable of type " ++ T.type e
  | .size t n => ascii "size constraint violation on type " ++ T.type t ++ ascii " when attempting resize to " ++ T.num n

/-- Something that implements `error`: an error of dgo or of Go -/
inductive AnyErr where
  | dgo (e : DErr)
  | go (e : GoErr)

def AnyErr.message (T : Texts) (M : Mem) : AnyErr → Str
  | .dgo e => Errs.message T M e
  | .go e => e.msg

/-- `Equals`: error.go:77-85 and typeerror.go:26-31, 45-50, 78-83. -/
def equals (T : Texts) (M : Mem) (a : DErr) (b : AnyErr) : Bool :=
  match a with
  | .errw c => (M c).msg == b.message T M
  | .key t k => match b with
    | .dgo (.key t' k') => t.equals t' && k.equals k'
    | _ => false
  | .type e x => match b with
    | .dgo (.type e' x') => e.equals e' && x.equals x'
    | _ => false
  | .size t n => match b with
    | .dgo (.size t' n') => t.equals t' && n == n'
    | _ => false

/-- `HashCode`: error.go:87-89 and typeerror.go:37-39, 66-68, 90-92. -/
def hash (M : Mem) : DErr → BitVec 64
  | .errw c => strHash (M c).msg
  | .key t k => tyHash t * 31 + tyHash k
  | .type e a => tyHash e * 31 + tyHash a
  | .size t n => tyHash t * 7 + n

/-- The error type and exact error types: error.go:15-20; the latter has the `errw` that it was made of. -/
inductive ETy where
  | any
  | exact (c : Nat)

/-- `Type`: error.go:118-122 and typeerror.go:41-43, 74-76, 98-100. -/
def typeOf : DErr → ETy
  | .errw c => .exact c
  | _ => .any

/-- `Instance` of an error: error.go:47-50 and exact.go:30-32. -/
def instanceOf (T : Texts) (M : Mem) : ETy → AnyErr → Bool
  | .any, _ => true
  | .exact c, e => equals T M (.errw c) e

/-- `Assignable`, of error types: error.go:39-45 and exact.go:15-24. -/
def assignable (T : Texts) (M : Mem) : ETy → ETy → Bool
  | .any, _ => true
  | .exact _, .any => false
  | .exact c, .exact d => equals T M (.errw c) (.dgo (.errw d))

/-- `FromValue` into a variable of type `error`: error.go:95-101. -/
def toError (M : Mem) (c : Nat) : GoErr := M c

/-- `FromValue` into a variable of type `*error`: error.go:96-97.  The variable it points to is that of the `errw`. -/
def toPointer (c : Nat) : Nat := c

/-- An assignment to the variable that a pointer points to -/
def store (M : Mem) (p : Nat) (e : GoErr) : Mem := fun c => if c = p then e else M c

/-- `errors.Is(e, target)` of Go's library, for an error of Go -/
def isGo : GoErr → Nat → Bool
  | .mk i _ none, t => i == t
  | .mk i _ (some e), t => i == t || isGo e t

/-- `errors.Is(e, target)` for an `errw`, which itself isn't the target; `Unwrap`: error.go:107-116. -/
def isErrw (M : Mem) (c : Nat) (t : Nat) : Bool :=
  match (M c).inner with
  | some e => isGo e t
  | none => false

end Verif.Errs
