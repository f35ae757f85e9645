import Verif.Errs.Model
/-!
# C101: errors as values
-/
set_option autoImplicit false
namespace Verif.Errs
open Verif.Value (Str strHash)
open Verif.Types (Ty tyHash)

namespace Ex
/-- Texts as dgo makes them, for the types that are used in the examples -/
def texts : Texts where
  what _ := ascii "a value of type string"
  type
    | .intT => ascii "int"
    | _ => ascii "string"
  num _ := ascii "3"
/-- `io.EOF`, wrapped in another error -/
def eof : GoErr := .mk 7 (ascii "EOF") none
def wrapped : GoErr := .mk 8 (ascii "reading: EOF") (some eof)
def mem : Mem
  | 0 => .mk 1 (ascii "a value of type string cannot be assigned to a variable of type int") none
  | 1 => wrapped
  | 2 => .mk 9 (ascii "EOF") none
  | _ => eof
end Ex

/-- The errors that `vf.Value` makes of Go errors -/
def IsErrw (e : DErr) : Prop := ∃ c, e = .errw c

/-- **C101, equality.**  An error made of a Go error is equal to exactly the errors with the same message; so among them this is an equivalence, and those
that are equal have the same hash code. -/
theorem C101_equal (T : Texts) (M : Mem) (a : DErr) (ha : IsErrw a) :
    (∀ b, equals T M a b = true ↔ message T M a = b.message T M) ∧ (∀ b, IsErrw b → equals T M a (.dgo b) = true → hash M a = hash M b) := by
  obtain ⟨c, rfl⟩ := ha
  refine ⟨fun b => by simp [equals, message], ?_⟩
  rintro _ ⟨d, rfl⟩ h
  simp only [equals, AnyErr.message, message, beq_iff_eq] at h
  simp only [hash, h]

example : equals Ex.texts Ex.mem (.errw 2) (.go Ex.eof) = true ∧ equals Ex.texts Ex.mem (.errw 2) (.dgo (.errw 3)) = true ∧
    equals Ex.texts Ex.mem (.errw 2) (.dgo (.errw 1)) = false := by decide +kernel

/-- The types in an error -/
def DErr.types : DErr → List Ty
  | .errw _ => []
  | .key t k => [t, k]
  | .type e x => [e, x]
  | .size t _ => [t]

/-- **C101, errors of dgo.**  The errors that dgo itself returns are equal to those of the same kind, whose types, keys and sizes are equal.  They have the same
hash code, unless there are types in them that are equal and don't.  Missing: that this is symmetric for errors of different kinds, see
`C101_symmetric_violated`. -/
theorem C101_dgo_partial (T : Texts) (M : Mem) (a b : DErr) (ha : ¬ IsErrw a) :
    (equals T M a (.dgo b) = true ↔
      (∃ t k t' k', a = .key t k ∧ b = .key t' k' ∧ t.equals t' = true ∧ k.equals k' = true) ∨
      (∃ t k t' k', a = .type t k ∧ b = .type t' k' ∧ t.equals t' = true ∧ k.equals k' = true) ∨
      (∃ t n t', a = .size t n ∧ b = .size t' n ∧ t.equals t' = true)) ∧
    ((∀ t ∈ a.types, ∀ u ∈ b.types, t.equals u = true → tyHash t = tyHash u) → equals T M a (.dgo b) = true → hash M a = hash M b) ∧
    (∀ e, equals T M a (.go e) = false) := by
  have key : equals T M a (.dgo b) = true ↔
      (∃ t k t' k', a = .key t k ∧ b = .key t' k' ∧ t.equals t' = true ∧ k.equals k' = true) ∨
      (∃ t k t' k', a = .type t k ∧ b = .type t' k' ∧ t.equals t' = true ∧ k.equals k' = true) ∨
      (∃ t n t', a = .size t n ∧ b = .size t' n ∧ t.equals t' = true) := by
    constructor
    · intro h
      cases a with
      | errw c => exact absurd ⟨c, rfl⟩ ha
      | key t k => cases b <;> simp only [equals, Bool.and_eq_true, Bool.false_eq_true] at h; exact .inl ⟨_, _, _, _, rfl, rfl, h⟩
      | type t k => cases b <;> simp only [equals, Bool.and_eq_true, Bool.false_eq_true] at h; exact .inr (.inl ⟨_, _, _, _, rfl, rfl, h⟩)
      | size t n =>
        cases b <;> simp only [equals, Bool.and_eq_true, Bool.false_eq_true, beq_iff_eq] at h
        obtain ⟨h, rfl⟩ := h
        exact .inr (.inr ⟨_, _, _, rfl, rfl, h⟩)
    · rintro (⟨t, k, t', k', rfl, rfl, h, h'⟩ | ⟨t, k, t', k', rfl, rfl, h, h'⟩ | ⟨t, n, t', rfl, rfl, h⟩)
      · simp [equals, h, h']
      · simp [equals, h, h']
      · simp [equals, h]
  refine ⟨key, fun hh h => ?_, fun e => ?_⟩
  · rcases key.1 h with ⟨t, k, t', k', rfl, rfl, h1, h2⟩ | ⟨t, k, t', k', rfl, rfl, h1, h2⟩ | ⟨t, n, t', rfl, rfl, h1⟩
    · simp only [hash, hh t (by simp [DErr.types]) t' (by simp [DErr.types]) h1, hh k (by simp [DErr.types]) k' (by simp [DErr.types]) h2]
    · simp only [hash, hh t (by simp [DErr.types]) t' (by simp [DErr.types]) h1, hh k (by simp [DErr.types]) k' (by simp [DErr.types]) h2]
    · simp only [hash, hh t (by simp [DErr.types]) t' (by simp [DErr.types]) h1]
  · cases a with
    | errw c => exact absurd ⟨c, rfl⟩ ha
    | _ => rfl

example : equals Ex.texts Ex.mem (.type .intT .strT) (.dgo (.type .intT .strT)) = true ∧
    equals Ex.texts Ex.mem (.type .intT .strT) (.dgo (.key .intT .strT)) = false := by decide +kernel
example : ∀ t ∈ (DErr.type .intT .strT).types, ∀ u ∈ (DErr.type .intT .strT).types, t.equals u = true → tyHash t = tyHash u := by decide +kernel

/-- **C101, violated.**  An error made of a Go error is equal to an error of dgo with the same message, but not the other way round, and their hash codes differ. -/
theorem C101_symmetric_violated : ∃ (T : Texts) (M : Mem) (a b : DErr), equals T M a (.dgo b) = true ∧ equals T M b (.dgo a) = false ∧ hash M a ≠ hash M b :=
  ⟨Ex.texts, Ex.mem, .errw 0, .type .intT .strT, by decide +kernel⟩

/-- **C101, messages.**  The message of an error of dgo has the text of each type that the error is about in it, and the size. -/
theorem C101_messages (T : Texts) (M : Mem) (t k : Ty) (n : BitVec 64) :
    (T.type k <:+: message T M (.key t k) ∧ T.type t <:+: message T M (.key t k)) ∧
    (T.what k <:+: message T M (.type t k) ∧ T.type t <:+: message T M (.type t k)) ∧
    (T.num n <:+: message T M (.size t n) ∧ T.type t <:+: message T M (.size t n)) := by
  refine ⟨⟨⟨ascii "key ", ascii " cannot added to type " ++ T.type t, ?_⟩, ⟨ascii "key " ++ T.type k ++ ascii " cannot added to type ", [], ?_⟩⟩,
    ⟨⟨[], ascii " cannot be assigned to a variable of type " ++ T.type t, ?_⟩, ⟨T.what k ++ ascii " cannot be assigned to a variable of type ", [], ?_⟩⟩,
    ⟨ascii "size constraint violation on type " ++ T.type t ++ ascii " when attempting resize to ", [], ?_⟩,
    ⟨ascii "size constraint violation on type ", ascii " when attempting resize to " ++ T.num n, ?_⟩⟩ <;>
    simp only [message, List.append_assoc, List.append_nil, List.nil_append]

example : message ⟨fun _ => [], fun _ => ascii "[2]int", fun _ => ascii "3"⟩ (fun _ => Ex.eof) (.size .intT 3) =
    ascii "size constraint violation on type [2]int when attempting resize to 3" := by decide +kernel

/-- **C101, types.**  The error type accepts all errors; the type of an error made of a Go error accepts exactly those with the same message; each error
is an instance of its type, and what is assignable to a type has no instances that the type doesn't have. -/
theorem C101_types (T : Texts) (M : Mem) :
    (∀ e, instanceOf T M .any e = true) ∧ (∀ c e, instanceOf T M (typeOf (.errw c)) e = true ↔ e.message T M = message T M (.errw c)) ∧
    (∀ a, instanceOf T M (typeOf a) (.dgo a) = true) ∧
    (∀ t u e, assignable T M t u = true → instanceOf T M u e = true → instanceOf T M t e = true) := by
  refine ⟨fun e => rfl, fun c e => ?_, fun a => ?_, fun t u e h h' => ?_⟩
  · simp only [typeOf, instanceOf, equals, message, beq_iff_eq]
    exact eq_comm
  · cases a <;> simp [typeOf, instanceOf, equals, AnyErr.message, message]
  · cases t <;> cases u <;> simp_all [assignable, instanceOf, equals, AnyErr.message, message]

example : assignable Ex.texts Ex.mem (.exact 2) (.exact 3) = true ∧ assignable Ex.texts Ex.mem (.exact 2) (.exact 1) = false ∧
    instanceOf Ex.texts Ex.mem (.exact 0) (.dgo (.type .intT .strT)) = true := by decide +kernel

/-- The errors that unwrapping leads to, from an error -/
inductive Chain : GoErr → GoErr → Prop
  | here (e : GoErr) : Chain e e
  | next {e x t : GoErr} (h : e.inner = some x) (hx : Chain x t) : Chain e t

theorem isGo_iff : ∀ (e : GoErr) (t : Nat), isGo e t = true ↔ ∃ x, Chain e x ∧ x.id = t
  | .mk i m none, t => by
    simp only [isGo, beq_iff_eq]
    constructor
    · rintro rfl; exact ⟨_, .here _, rfl⟩
    · rintro ⟨x, h, rfl⟩
      cases h with
      | here => rfl
      | next h => cases h
  | .mk i m (some e), t => by
    simp only [isGo, Bool.or_eq_true, beq_iff_eq]
    rw [isGo_iff e t]
    constructor
    · rintro (rfl | ⟨x, h, rfl⟩)
      · exact ⟨_, .here _, rfl⟩
      · exact ⟨x, .next rfl h, rfl⟩
    · rintro ⟨x, h, rfl⟩
      cases h with
      | here => exact .inl rfl
      | next h hx => cases h; exact .inr ⟨x, hx, rfl⟩

/-- **C101, back.**  `FromValue` into a variable of type `error` gives the Go error that the value was made of, and `errors.Is` finds in the value what the Go
error wraps.  Missing: the Go error itself, see `C101_is_violated`. -/
theorem C101_is_partial (M : Mem) (c : Nat) :
    toError M c = M c ∧ ∀ t, isErrw M c t = true ↔ ∃ e x, (M c).inner = some e ∧ Chain e x ∧ x.id = t := by
  refine ⟨rfl, fun t => ?_⟩
  rw [isErrw]
  cases h : (M c).inner with
  | none => simp
  | some e => simp [isGo_iff]

example : isErrw Ex.mem 1 7 = true ∧ isGo Ex.wrapped 8 = true := by decide +kernel

/-- **C101, violated.**  `errors.Is` doesn't find in the value the Go error that it was made of. -/
theorem C101_is_violated : ∃ (M : Mem) (c : Nat), isGo (M c) (M c).id = true ∧ isErrw M c (M c).id = false := ⟨Ex.mem, 1, by decide +kernel⟩

/-- **C101, violated.**  After `FromValue` into a variable of type `*error`, an assignment through the pointer changes the value: its message, and so its hash code and
what it is equal to. -/
theorem C101_pointer_violated : ∃ (T : Texts) (M : Mem) (c : Nat) (e : GoErr), let M' := store M (toPointer c) e
    message T M' (.errw c) ≠ message T M (.errw c) ∧ hash M' (.errw c) ≠ hash M (.errw c) ∧
      equals T M (.errw c) (.go (M c)) = true ∧ equals T M' (.errw c) (.go (M c)) = false :=
  ⟨Ex.texts, Ex.mem, 1, Ex.eof, by decide +kernel⟩

end Verif.Errs
