/-!
# Execution results

A Go call on mutable state either returns normally, panics, or does not return.  `Res` keeps the three apart and keeps
the state that is left behind by a panic, so that "panics and changes nothing" can be stated.
-/
namespace Verif

inductive Res (σ α : Type) where
  | ok (a : α) (s : σ)
  | panic (s : σ)
  | diverge
  deriving Repr, DecidableEq

/-- The result and the state, if the call returned. -/
def Res.final {σ α : Type} : Res σ α → Option (α × σ)
  | .ok a s => some (a, s)
  | _ => none

/-- A computation on a state `σ`. -/
def M (σ α : Type) := σ → Res σ α

namespace M
variable {σ α β : Type}

@[inline] def pure (a : α) : M σ α := fun s => .ok a s

@[inline] def bind (m : M σ α) (f : α → M σ β) : M σ β := fun s =>
  match m s with
  | .ok a s' => f a s'
  | .panic s' => .panic s'
  | .diverge => .diverge

instance : Monad (M σ) where
  pure := pure
  bind := bind

/-- `panic(..)` -/
def throw : M σ α := fun s => .panic s
/-- A loop whose fuel is exhausted: in the code, a loop that does not end. -/
def loop : M σ α := fun _ => .diverge
def get : M σ σ := fun s => .ok s s
def modify (f : σ → σ) : M σ Unit := fun s => .ok () (f s)

@[simp] theorem pure_run (a : α) (s : σ) : (Pure.pure a : M σ α) s = .ok a s := rfl
@[simp] theorem throw_run (s : σ) : (throw : M σ α) s = .panic s := rfl
@[simp] theorem loop_run (s : σ) : (loop : M σ α) s = .diverge := rfl
@[simp] theorem get_run (s : σ) : (get : M σ σ) s = .ok s s := rfl
@[simp] theorem modify_run (f : σ → σ) (s : σ) : (modify f) s = .ok () (f s) := rfl

theorem bind_run (m : M σ α) (f : α → M σ β) (s : σ) :
    (m >>= f) s = match m s with
      | .ok a s' => f a s'
      | .panic s' => .panic s'
      | .diverge => .diverge := rfl

theorem bind_ok {m : M σ α} {f : α → M σ β} {s s' : σ} {a : α} (h : m s = .ok a s') :
    (m >>= f) s = f a s' := by
  rw [bind_run, h]

theorem bind_panic {m : M σ α} {f : α → M σ β} {s s' : σ} (h : m s = .panic s') :
    (m >>= f) s = .panic s' := by
  rw [bind_run, h]

@[simp] theorem pure_bind_run (a : α) (f : α → M σ β) (s : σ) : ((Pure.pure a : M σ α) >>= f) s = f a s := rfl
@[simp] theorem get_bind_run (f : σ → M σ β) (s : σ) : ((get : M σ σ) >>= f) s = f s s := rfl
@[simp] theorem modify_bind_run (g : σ → σ) (f : Unit → M σ β) (s : σ) :
    ((modify g : M σ Unit) >>= f) s = f () (g s) := rfl

end M
end Verif
