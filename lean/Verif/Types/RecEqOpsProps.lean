import Verif.Types.RecEqOps
import Verif.Types.RecEqProps
/-!
# C82: Equals of types with operands
-/
set_option autoImplicit false
set_option linter.unusedVariables false
set_option linter.unusedSimpArgs false
namespace Verif.Types.RecEq
open Verif.Value

/-! ### Examples of types -/

theorem Matched.mem {S : Nat → Nat → Prop} {ts us : List Nat} (h : Matched S ts us) {t : Nat} (ht : t ∈ ts) : ∃ u ∈ us, S t u := by
  obtain ⟨vs, hp, hf⟩ := h
  have : ∃ u ∈ vs, S t u := by
    clear hp
    induction hf with
    | nil => cases ht
    | cons h1 t1 ih =>
      cases ht with
      | head => exact ⟨_, .head _, h1⟩
      | tail _ ht => obtain ⟨u, hu, h⟩ := ih ht; exact ⟨u, .tail _ hu, h⟩
  obtain ⟨u, hu, h⟩ := this
  exact ⟨u, hp.mem_iff.2 hu, h⟩

namespace Ex

/-- What holds for a type and is handed on to the types that are mentioned holds for all that can be reached. -/
theorem reach_of {T : Types} {P : Nat → Prop} (h : ∀ t x, T[t]? = some x → P t → ∀ u ∈ x.refs, P u) {a b : Nat} (hr : Reach T Node.refs a b) : P a → P b := by
  induction hr with
  | here => exact id
  | step h1 h2 _ ih => exact fun ha => ih (h _ _ h1 ha _ h2)

/-- Types that mention earlier types only do not contain themselves. -/
theorem tree_of {T : Types} (h : ∀ (t : Nat) (x : Node), T[t]? = some x → ∀ u ∈ x.refs, u < t) {a : Nat} : ¬ ContainsItself T a := by
  rintro ⟨u, w, x, _, h2, h3, h4⟩
  have hw := h u x h2 w h3
  have := reach_of (P := fun v => v ≤ w) (fun t x ht hle v hv => Nat.le_trans (Nat.le_of_lt (h t x ht v hv)) hle) h4 (Nat.le_refl _)
  omega

/-- `int`, `string`, `float`; `a=[](int|string)`, `b=[](string|int)`, `c=[](string|float)` -/
def ops : Types := [.leaf .intT, .leaf .strT, .leaf .floatT, .anyOf [0, 1], .arr 3 0 maxInt, .anyOf [1, 0], .arr 5 0 maxInt, .anyOf [1, 2], .arr 7 0 maxInt]

/-- `int`, `string`; `u=[](string|int)`, `a=int|[](string|u)`, `b=int|u` -/
def shared : Types :=
  [.leaf .intT, .leaf .strT, .anyOf [1, 0], .arr 2 0 maxInt, .anyOf [1, 3], .arr 4 0 maxInt, .anyOf [0, 5], .anyOf [0, 3]]

theorem ops_closed : Closed ops := closed_of (by decide) (by simp [ops, Node.keys, Plain])
theorem shared_closed : Closed shared := closed_of (by decide) (by simp [shared, Node.keys, Plain])

theorem early_of {T : Types} (h : ∀ (t : Nat) (ht : t < T.length), ∀ u ∈ (T[t]).refs, u < t) : ∀ (t : Nat) (x : Node), T[t]? = some x → ∀ u ∈ x.refs, u < t := by
  intro t x hx
  obtain ⟨ht, rfl⟩ := List.getElem?_eq_some_iff.1 hx
  exact h t ht

theorem ops_early : ∀ (t : Nat) (x : Node), ops[t]? = some x → ∀ u ∈ x.refs, u < t := early_of (by decide)
theorem shared_early : ∀ (t : Nat) (x : Node), shared[t]? = some x → ∀ u ∈ x.refs, u < t := early_of (by decide)

theorem ops_apart : Apart ops 4 6 := by
  intro c x h1 h2 hx
  have hP : ∀ (t : Nat) (x : Node), ops[t]? = some x → (t ≤ 4 : Prop) → ∀ u ∈ x.refs, u ≤ 4 := fun t x ht hle u hu => by have := ops_early t x ht u hu; omega
  have hQ : ∀ (t : Nat) (x : Node), ops[t]? = some x → (t ≤ 1 ∨ t = 5 ∨ t = 6 : Prop) → ∀ u ∈ x.refs, u ≤ 1 ∨ u = 5 ∨ u = 6 := by
    intro t x ht h u hu
    rcases h with h | rfl | rfl
    · have := ops_early t x ht u hu; omega
    · cases ht; simp [Node.refs] at hu; omega
    · cases ht; simp [Node.refs] at hu; omega
  have h3 : c ≤ 4 := reach_of hP h1 (Nat.le_refl _)
  have h4 : c ≤ 1 ∨ c = 5 ∨ c = 6 := reach_of hQ h2 (.inr (.inr rfl))
  have : c = 0 ∨ c = 1 := by omega
  rcases this with rfl | rfl <;> cases hx <;> rfl

end Ex

/-! ### C82 -/

/-- **C82, types with operands.**  Two types that do not contain themselves, and of which no part that has parts is in both, are equal exactly
if nothing tells them apart when they are written out, but for the order of operands: the operands of `anyOf`, `oneOf` and `allOf` are compared
in any order, one to one, all else in order.  Missing: types that contain themselves (theorems `C82_cut_violated`, `C82_both_violated` and
`C82_operands_violated`) and types that share a part (theorem `C82_shared_violated`). -/
theorem C82_operands_partial {T : Types} (hT : Closed T) {a b : Nat} (ha : a < T.length) (hb : b < T.length) (h1 : ¬ ContainsItself T a)
    (h2 : ¬ ContainsItself T b) (h3 : Apart T a b) : EqReturns T a b true ↔ Alike T a b := by
  have hc : Clear2 T [] a b := ⟨h1, h2, h3, fun s hs => (by cases hs), fun s hs => (by cases hs)⟩
  constructor
  · rintro ⟨n, hn⟩
    exact (eq_alike hT n none a b hc true (hn n (Nat.le_refl n))).1 rfl
  · intro h
    obtain ⟨r, n, hn⟩ := C82_equals_returns hT ha hb (.inl fun ⟨u, w, h3, h4, h5⟩ => h1 ⟨u, w, _, h3, h4, .head _, h5⟩)
    cases (eq_alike hT n none a b hc r (hn n (Nat.le_refl n))).2 h
    exact ⟨n, hn⟩

/-- `[](int|string)` and `[](string|int)` -/
example : EqReturns Ex.ops 4 6 true ∧ Alike Ex.ops 4 6 :=
  have h : EqReturns Ex.ops 4 6 true := eqReturns (n := 9) (by decide +kernel)
  ⟨h, (C82_operands_partial Ex.ops_closed (by decide) (by decide) (Ex.tree_of Ex.ops_early) (Ex.tree_of Ex.ops_early) Ex.ops_apart).1 h⟩

/-- **C82, Equals is an equivalence there.**  What `Equals` is said to decide in theorem `C82_operands_partial` is reflexive, symmetric and
transitive; so for types that do not contain themselves and are apart, it makes no difference which is the receiver. -/
theorem C82_alike_equivalence {T : Types} (hT : Closed T) :
    (∀ a, a < T.length → Alike T a a) ∧ (∀ a b, Alike T a b → Alike T b a) ∧ ∀ a b c, Alike T a b → Alike T b c → Alike T a c :=
  ⟨fun a ha => .refl hT (List.getElem?_eq_getElem ha), fun a b h => h.symm hT, fun a b c h h' => h.trans hT h'⟩

example : Alike Ex.ops 6 4 ∧ ¬ Alike Ex.ops 4 8 := by
  refine ⟨(C82_alike_equivalence Ex.ops_closed).2.1 _ _ ⟨fun c d => (c = 4 ∧ d = 6) ∨ (c = 3 ∧ d = 5) ∨ (c = d ∧ c < 2), .inl ⟨rfl, rfl⟩, ?_⟩, fun h => ?_⟩
  · rintro c d (⟨rfl, rfl⟩ | ⟨rfl, rfl⟩ | ⟨rfl, h⟩)
    · exact ⟨_, _, rfl, rfl, .arr (.inr (.inl ⟨rfl, rfl⟩))⟩
    · exact ⟨_, _, rfl, rfl, .anyOf ⟨[0, 1], .swap _ _ _, .cons (.inr (.inr ⟨rfl, by decide⟩)) (.cons (.inr (.inr ⟨rfl, by decide⟩)) .nil)⟩⟩
    · match c, h with
      | 0, _ => exact ⟨_, _, rfl, rfl, .leaf (by decide +kernel)⟩
      | 1, _ => exact ⟨_, _, rfl, rfl, .leaf (by decide +kernel)⟩
  · obtain ⟨x, y, hx, hy, h⟩ := h.unfold
    cases hx; cases hy; cases h with | arr h =>
    obtain ⟨x, y, hx, hy, h⟩ := h.unfold
    cases hx; cases hy; cases h with | anyOf h =>
    obtain ⟨u, hu, h⟩ := h.mem (t := 0) (by decide)
    obtain ⟨x, y, hx, hy, h⟩ := h.unfold
    have : u = 1 ∨ u = 2 := by simpa using hu
    rcases this with rfl | rfl <;> cases hx <;> cases hy <;> cases h with | leaf h => exact absurd h (by decide +kernel)

/-- **C82, violated.**  Types that do not contain themselves but share a part need not be the same, nor alike, to be equal: of
`u=[](string|int)`, `a=int|[](string|u)` and `b=int|u`, as the parser makes them of the aliases, `a` is equal to `b`.  `u` is an operand of `b`, so
it is a receiver and taken to be seen, and within `a` it is then equal to anything. -/
theorem C82_shared_violated : ∃ T a b, Closed T ∧ ¬ ContainsItself T a ∧ ¬ ContainsItself T b ∧ EqReturns T a b true ∧ ¬ Alike T a b := by
  refine ⟨Ex.shared, 6, 7, Ex.shared_closed, Ex.tree_of Ex.shared_early, Ex.tree_of Ex.shared_early, eqReturns (n := 9) (by decide +kernel), fun h => ?_⟩
  obtain ⟨x, y, hx, hy, h⟩ := h.unfold
  cases hx; cases hy; cases h with | anyOf h =>
  obtain ⟨u, hu, h⟩ := h.mem (t := 5) (by decide)
  obtain ⟨x, y, hx, hy, h⟩ := h.unfold
  have : u = 0 ∨ u = 3 := by simpa using hu
  rcases this with rfl | rfl
  · cases hx; cases hy; cases h
  · cases hx; cases hy; cases h with | arr h =>
    obtain ⟨x, y, hx, hy, h⟩ := h.unfold
    cases hx; cases hy; cases h with | anyOf h =>
    obtain ⟨u, hu, h⟩ := h.mem (t := 3) (by decide)
    obtain ⟨x, y, hx, hy, h⟩ := h.unfold
    have : u = 1 ∨ u = 0 := by simpa using hu
    rcases this with rfl | rfl <;> cases hx <;> cases hy <;> cases h

end Verif.Types.RecEq
