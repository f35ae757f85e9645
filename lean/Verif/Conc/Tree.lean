import Verif.Conc.Basic
import Verif.Value.Model
/-!
# Trees of loaders: Load, and loaders with a parent
-/
set_option autoImplicit false
namespace Verif.Conc.Tree
open Verif.Value (Val Str)

/-- Loaders without a parent (`mapLoader` and `loader`), by identity.  What they answer does not change once it has been given
(C43, C44), so it is taken to be a function here: `get` is `Get` and `ns` is `Namespace` for a name that is not empty. -/
structure Env where
  get : Nat → Str → Option Val
  ns : Nat → Str → Option Nat
  name : Nat → Str
  parentNs : Nat → Option Nat

/-- A loader.  `child own parent` is a `childLoader`: loader/loader.go:34-37. -/
inductive L where
  | base (i : Nat)
  | child (own parent : L)

/-- `Get`: `childLoader.Get`, loader.go:327-333. -/
def get (E : Env) : L → Str → Option Val
  | .base i, k => E.get i k
  | .child own parent, k =>
    match get E parent k with
    | some v => some v
    | none => get E own k

/-- `Namespace`: loader.go:143-148, 249-252 and `childLoader.Namespace`, 343-357. -/
def namespace' (E : Env) : L → Str → Option L
  | .base i, n => if n = [] then some (.base i) else (E.ns i n).map .base
  | .child own parent, n =>
    if n = [] then some (.child own parent)
    else
      let pv := namespace' E parent n
      let v := namespace' E own n
      match v, pv with
      | none, pv => pv
      | some v, none => some v
      | some v, some pv => some (.child v pv)

/-- `strings.Split(name, "/")` -/
def split : Str → List Str
  | [] => [[]]
  | c :: r =>
    if c = 47 then [] :: split r
    else
      match split r with
      | [] => [[c]]
      | p :: ps => (c :: p) :: ps

/-- The loop of `load`: loader.go:46-56. -/
def walk (E : Env) : L → List Str → Option Val
  | _, [] => none  -- not reached: `split` gives at least one part
  | l, [k] => get E l k
  | l, p :: ps =>
    match namespace' E l p with
    | none => none
    | some l' => walk E l' ps

/-- `Load`: loader.go:46-56. -/
def load (E : Env) (l : L) (name : Str) : Option Val := walk E l (split name)

/-- `loaderWithParent`, which `NewChild` calls (loader.go:150-152, 371-373): the new loader has identity `i`. -/
def newChild (parent : L) (i : Nat) : L := .child (.base i) parent

theorem split_ne_nil (s : Str) : split s ≠ [] := by
  cases s with
  | nil => simp [split]
  | cons c r =>
    unfold split
    split
    · simp
    · split <;> simp

theorem get_child (E : Env) (own parent : L) (k : Str) : get E (.child own parent) k = (get E parent k).or (get E own k) := by
  rw [get]; cases get E parent k <;> rfl

theorem walk_child (E : Env) : ∀ (ps : List Str) (own parent : L),
    walk E (.child own parent) ps = (walk E parent ps).or (walk E own ps)
  | [], _, _ => rfl
  | [k], own, parent => get_child E own parent k
  | p :: q :: ps, own, parent => by
    have ns0 : ∀ l : L, namespace' E l [] = some l := by intro l; cases l <;> simp [namespace']
    unfold walk
    by_cases hp : p = []
    · subst hp
      simp only [ns0]
      exact walk_child E (q :: ps) own parent
    · rw [namespace', if_neg hp]
      cases hv : namespace' E own p <;> cases hpv : namespace' E parent p <;> simp only [Option.or_none, Option.none_or]
      exact walk_child E (q :: ps) _ _

theorem split_plain : ∀ {s : Str}, 47 ∉ s → split s = [s]
  | [], _ => rfl
  | c :: r, h => by
    have h : c ≠ 47 ∧ 47 ∉ r := by simpa [eq_comm] using h
    unfold split
    rw [if_neg h.1, split_plain h.2]

theorem split_slash : ∀ {a : Str} (r : Str), 47 ∉ a → split (a ++ 47 :: r) = a :: split r
  | [], r, _ => by simp [split]
  | c :: a, r, h => by
    have h : c ≠ 47 ∧ 47 ∉ a := by simpa [eq_comm] using h
    rw [List.cons_append, split, if_neg h.1, split_slash r h.2]

end Verif.Conc.Tree
