import Verif.Text.Meta
/-!
# C106: types of types, and strings that are texts of the language
-/
set_option autoImplicit false
namespace Verif.Text
open Verif.Value (Str Val F64)
open Verif.Types (Ty Oid maxInt assignable)

/-- Every type is an instance of its own type, and the chain ends: the type of the type of a type is the same for all, and it is
assignable from itself.

Partial: not so a type with a range of floats that has a NaN for a bound. -/
theorem C106_own_partial (E : Types.Env) {t : Ty} (hok : t.Ok) (hn : Types.NoNaN t) :
    (∃ m, typeType t = metaOf m ∧ metaInstance E m t = true) ∧ typeType (typeType t) = .metaMeta ∧
      typeType .metaMeta = .metaMeta ∧ metaInstance E none .metaMeta = true := by
  refine ⟨?_, ?_, rfl, rfl⟩
  · cases t
    case metaT => exact ⟨none, rfl, rfl⟩
    case metaMeta => exact ⟨none, rfl, rfl⟩
    all_goals exact ⟨some _, rfl, Types.C27_reflexive_partial (E := E) hok hn⟩
  · cases t <;> rfl

example : Ty.Ok (.intRange 0 5 true) ∧ Types.NoNaN (.intRange 0 5 true) ∧ typeType (.intRange 0 5 true) = .metaT (.intRange 0 5 true) :=
  ⟨trivial, by rw [Types.NoNaN, Types.every_iff]; simp [Types.parts], rfl⟩

/-- `New` of the type of types that `T` is assignable from: it returns a type exactly if the argument describes it and it is an instance.
So what it returns is always an instance, and nothing that is described and is an instance is refused. -/
theorem C106_new_iff (E : Types.Env) (P : PEnv) (m : Option Ty) (a : MArgs) (t : Ty) :
    metaNew E P m a = .ok t ↔ Describes P a t ∧ metaInstance E m t = true := by
  cases a with
  | one a => exact metaNewOne_iff E P m a t
  | args as =>
    match as with
    | [a] =>
      rw [metaNew, metaNewOne_iff]
      constructor
      · rintro ⟨h, hi⟩; exact ⟨.args h, hi⟩
      · rintro ⟨h, hi⟩
        cases h with
        | args h => exact ⟨h, hi⟩
    | [] =>
      constructor
      · intro h; cases h
      · rintro ⟨h, _⟩; cases h
    | a :: b :: r =>
      constructor
      · intro h; cases h
      · rintro ⟨h, _⟩; cases h

/-- An argument describes one type at most. -/
theorem C106_describes_one (P : PEnv) (a : MArgs) (t u : Ty) (ht : Describes P a t) (hu : Describes P a u) : t = u := by
  induction ht generalizing u with
  | type t => cases hu; rfl
  | text h =>
    cases hu with
    | text h' => rw [h] at h'; exact Except.ok.inj h'
  | args _ ih =>
    cases hu with
    | args h => exact ih u h

/-- `int`, as a type, as text, and as text of a value -/
example (E : Types.Env) (P : PEnv) : metaNew E P (some .any) (.args [.type .intT]) = .ok .intT ∧
    metaNew E P (some .any) (.args []) = .error (.size 0) ∧ metaNew E P (some .any) (.one .other) = .error .argument := by
  refine ⟨?_, rfl, rfl⟩
  rw [C106_new_iff]
  exact ⟨.args (.type _), by rw [metaInstance]; rfl⟩

/-- A type is made again from its text by `New` of any type of types that accepts it, and is refused by the others.

Partial: for the types that are read back (`RtTy`, C35). -/
theorem C106_text_partial {S : SEnv} {P : PEnv} (E : Types.Env) (hp : ∀ c < 32, S.isPrint c = false) {t : Ty} (h : RtTy S P t) (m : Option Ty) :
    (metaInstance E m (strip t) = true → metaNew E P m (.one (.text (typeString S t))) = .ok (strip t)) ∧
    (metaInstance E m (strip t) = false → metaNew E P m (.one (.text (typeString S t))) = .error (.assignment (strip t))) := by
  have hr := C35_partial hp h
  constructor
  · intro hi
    rw [C106_new_iff]
    exact ⟨.text hr, hi⟩
  · intro hi
    unfold parseType at hr
    simp only [metaNew, metaNewOne]
    cases hq : parse P (typeString S t) with
    | error e => rw [hq] at hr; cases hr
    | ok v =>
      rw [hq] at hr
      have hr := Except.ok.inj hr
      cases v with
      | val v => simp only [PV.asType] at hr; simp only [hr, hi]; rfl
      | ty u => simp only [PV.asType] at hr; simp only [hr, hi]; rfl

example (P : PEnv) : RtTy asciiEnv P exampleTy := exampleTy_ok P

/-- A string is an instance of the type `dgo` exactly if the parser reads it; the empty string is not. -/
theorem C106_dgo_iff (P : PEnv) (s : Str) : dgoInstance P s = true ↔ ∃ v, parse P s = .ok v := by
  unfold dgoInstance
  cases s with
  | nil =>
    rw [if_neg (by simp), parse_nil]
    simp
  | cons c r =>
    rw [if_pos (by simp)]
    cases parse P (c :: r) <;> simp

/-- The texts of types are instances of the type `dgo`; they are not empty.

Partial: for the types that are read back (`RtTy`, C35). -/
theorem C106_dgo_text_partial {S : SEnv} {P : PEnv} (hp : ∀ c < 32, S.isPrint c = false) {t : Ty} (h : RtTy S P t) :
    dgoInstance P (typeString S t) = true ∧ typeString S t ≠ [] := by
  have hr := C35_partial hp h
  unfold parseType at hr
  have h1 : dgoInstance P (typeString S t) = true := by
    rw [C106_dgo_iff]
    cases hq : parse P (typeString S t) with
    | error e => rw [hq] at hr; cases hr
    | ok v => exact ⟨v, rfl⟩
  refine ⟨h1, fun he => ?_⟩
  rw [he, C106_dgo_iff, parse_nil] at h1
  obtain ⟨v, hv⟩ := h1
  cases hv

example (P : PEnv) : dgoInstance P (typeString asciiEnv exampleTy) = true ∧ dgoInstance P [] = false :=
  ⟨(C106_dgo_text_partial asciiEnv_ctrl (exampleTy_ok P)).1, rfl⟩

/-- What else one would expect does not hold:
* `int` is an instance of the type of all types, `type[any]`, but that isn't assignable from the type of `int`;
* a type of types can be assignable from another and not accept an instance of it. -/
theorem C106_violated :
    (∃ t u : Ty, metaInstance Types.Ex.E0 (some t) u = true ∧ typeType u = .metaT u ∧ assignable Types.Ex.E0 (.metaT t) (typeType u) = false) ∧
    ∃ t u v : Ty, assignable Types.Ex.E0 (.metaT t) (.metaT u) = true ∧ metaInstance Types.Ex.E0 (some u) v = true ∧
      metaInstance Types.Ex.E0 (some t) v = false := by
  exact ⟨⟨.any, .intT, by decide +kernel, rfl, by decide +kernel⟩,
    .allOf (.user 0) [.intT, Types.Ex.r15], .allOf (.user 1) [Types.Ex.r15, .intT], .allOf (.user 1) [Types.Ex.r15, .intT],
    by decide +kernel, by decide +kernel, by decide +kernel⟩

end Verif.Text
