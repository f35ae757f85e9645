import Mathlib.Logic.Relation
/-!
# Programs that run concurrently, as transition systems

The concurrent parts of the code are modelled as state machines: a state holds the shared variables, the locks and where each
call is, and a step is one action of one call.  A call is a number; a goroutine that makes several calls one after the other
shows up as several numbers, and a call that is made from within another one (from a finder, for instance) as a number of its
own.  A property holds of all schedules when it holds of every state that the steps reach.
-/
set_option autoImplicit false
namespace Verif.Conc

/-- Set the state of call `i`. -/
def upd {α : Type} (f : Nat → α) (i : Nat) (x : α) : Nat → α := fun j => if j = i then x else f j

@[simp] theorem upd_same {α : Type} (f : Nat → α) (i : Nat) (x : α) : upd f i x i = x := by simp [upd]
theorem upd_other {α : Type} (f : Nat → α) {i j : Nat} (x : α) (h : j ≠ i) : upd f i x j = f j := by simp [upd, h]

/-- `Get` of a map from names (maps are modelled and verified in `Verif.HMap`; this is what C01 says of `Get`). -/
def look {K V : Type} [DecidableEq K] (k : K) : List (K × V) → Option V
  | [] => none
  | (k', v) :: r => if k = k' then some v else look k r

/-- `Put`: replaces the value of a key in place or adds the key last (C01, C02). -/
def put {K V : Type} [DecidableEq K] (k : K) (v : V) : List (K × V) → List (K × V)
  | [] => [(k, v)]
  | (k', v') :: r => if k = k' then (k', v) :: r else (k', v') :: put k v r

theorem look_put {K V : Type} [DecidableEq K] (k k' : K) (v : V) (m : List (K × V)) :
    look k' (put k v m) = if k' = k then some v else look k' m := by
  induction m with
  | nil => simp only [put, look]
  | cons e m ih =>
    obtain ⟨k1, v1⟩ := e
    unfold put
    by_cases h : k = k1
    · subst h
      rw [if_pos rfl]
      by_cases h' : k' = k <;> simp [look, h']
    · rw [if_neg h]
      unfold look
      rw [ih]
      by_cases h1 : k' = k1
      · subst h1; simp [Ne.symm h]
      · simp [h1]

/-- Induction over the steps from a reachable state on. -/
theorem steps_inv {S : Type} {R : S → S → Prop} {P : S → Prop} (hstep : ∀ s s', P s → R s s' → P s') {s s' : S} (h : P s)
    (hs : Relation.ReflTransGen R s s') : P s' := by
  induction hs with
  | refl => exact h
  | tail _ hr ih => exact hstep _ _ ih hr

/-- (for the examples) -/
theorem stay {S : Type} {R : S → S → Prop} {s s' : S} (_ : Relation.ReflTransGen R s s') : Relation.ReflTransGen R s' s' := .refl

end Verif.Conc
