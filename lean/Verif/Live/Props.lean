import Verif.Live.CopyLemmas
/-!
# C112: the type of an array follows the array
-/
set_option autoImplicit false
namespace Verif.Live

namespace Ex
/-- `a := MutableValues(1, 2)`, `f := Values(3)`, `t := Values(a.Type())` -/
def h₀ : Heap := [⟨false, [.atom 1, .atom 2]⟩, ⟨true, [.atom 3]⟩, ⟨true, [.type 0]⟩]

example : run 5 [] [.values false [.atom 1, .atom 2], .values true [.atom 3], .values true [.type 0]] = some h₀ := by decide +kernel

theorem a₀ : Has h₀ (.obj 0) (.arr [.atom 1, .atom 2]) := .obj (o := ⟨false, [.atom 1, .atom 2]⟩) rfl (.cons (.atom _) (.cons (.atom _) .nil))
theorem f₀ : Has h₀ (.obj 1) (.arr [.atom 3]) := .obj (o := ⟨true, [.atom 3]⟩) rfl (.cons (.atom _) .nil)
theorem f_solid : Solid h₀ (.type 1) := .type rfl fun e he => by simp only [List.mem_singleton] at he; subst he; exact .atom _

instance : HMap.ValOps Nat := ⟨fun a b => a == b, fun _ => false, id, id⟩

/-- A new map, and `Put(k, 7)` while the heap is `h` -/
def put (h : Heap) (k : Ref) : HMap.World Ref Nat :=
  letI := keyOps h 9
  match (do let m ← HMap.mapWithCapacity 0; HMap.put m k 7 : M (HMap.World Ref Nat) (Option Nat)) ⟨[], []⟩ with
  | .ok _ w => w
  | _ => ⟨[], []⟩

/-- `Get(k)` while the heap is `h` -/
def get (h : Heap) (w : HMap.World Ref Nat) (k : Ref) : Option Nat :=
  letI := keyOps h 9
  match HMap.mget 0 k w with
  | .ok v _ => v
  | _ => none
end Ex

/-- **C112.** At every moment, `Instance` of the type of an array is true for exactly the values with the contents that the array has at that moment,
whenever `Type()` was called: the heap `h` is any moment. -/
theorem C112_follows {h : Heap} {p : Nat} {t u : Tree} {x : Ref} (hp : Has h (.obj p) t) (hx : Has h x u) :
    ∃ n₀, ∀ n ≥ n₀, ∃ b, instanceOf h n p x = some b ∧ (b = true ↔ t = u) :=
  equals_of hp x u hx

example : run 5 Ex.h₀ [.add 0 (.atom 3), .remove 0 0, .remove 0 0] = some [⟨false, [.atom 3]⟩, ⟨true, [.atom 3]⟩, ⟨true, [.type 0]⟩] ∧
    instanceOf Ex.h₀ 9 0 (.obj 1) = some false ∧ instanceOf [⟨false, [.atom 3]⟩, ⟨true, [.atom 3]⟩, ⟨true, [.type 0]⟩] 9 0 (.obj 1) = some true := by
  decide +kernel

/-- **C112.** The types of two arrays are equal if and only if the contents of the arrays are. -/
theorem C112_equal {h : Heap} {p q : Nat} {t u : Tree} (hp : Has h (.obj p) t) (hq : Has h (.obj q) u) :
    ∃ n₀, ∀ n ≥ n₀, ∃ b, equals h n (.type p) (.type q) = some b ∧ (b = true ↔ t = u) := by
  obtain ⟨n₀, hn⟩ := equals_of hp _ _ hq
  refine ⟨n₀ + 1, fun n hh => ?_⟩
  obtain ⟨k, rfl⟩ : ∃ k, n = k + 1 := ⟨n - 1, by omega⟩
  simpa only [equals] using hn k (by omega)

example : equals Ex.h₀ 9 (.type 0) (.type 1) = some false := by decide +kernel

/-- **C112.** If everything that can be reached from two values, types included, is frozen, then nothing that a program does changes what they contain,
their hash codes, and whether they are equal; in particular what the type of such an array answers about such values. -/
theorem C112_frozen_partial {fuel : Nat} {h h' : Heap} {ops : List Op} (hr : run fuel h ops = some h') {r s : Ref} (h1 : Solid h r) (h2 : Solid h s) (n : Nat) :
    Solid h' r ∧ (∀ t, Has h r t → Has h' r t) ∧ hashCode h' n r = hashCode h n r ∧ equals h' n r s = equals h n r s :=
  have hk := run_keeps hr
  ⟨h1.keeps hk, fun _ ht => h1.has hk ht, solid_hash hk n h1, solid_equals hk n h1 h2⟩

example : ∃ h', run 5 Ex.h₀ [.add 0 (.obj 1), .add 1 (.atom 4), .freeze 0] = some h' ∧ Solid Ex.h₀ (.type 1) ∧ hashCode h' 9 (.type 1) = hashCode Ex.h₀ 9 (.type 1) :=
  ⟨_, rfl, Ex.f_solid, by decide +kernel⟩

/-- **C112.** A frozen copy of an array in which there are no types of mutable arrays, and the type of the copy, never change: `a.FrozenCopy().Type()` is
the type of the values with the present contents of `a` for good. -/
theorem C112_copy {fuel n : Nat} {h h₁ h' : Heap} {ops : List Op} {r c : Ref} {t : Tree} (hs : SolidTypes h r) (ht : Has h r t)
    (hc : copy true n r h = some (c, h₁)) (hr : run fuel h₁ ops = some h') : Solid h' c ∧ Has h' c t := by
  obtain ⟨a, b⟩ := copy_solid n r h (c, h₁) hc hs
  have hk := run_keeps hr
  exact ⟨a.keeps hk, a.has hk (b t ht)⟩

example : SolidTypes Ex.h₀ (.obj 0) ∧ Has Ex.h₀ (.obj 0) (.arr [.atom 1, .atom 2]) ∧
    ∃ h₁, copy true 5 (.obj 0) Ex.h₀ = some (.obj 3, h₁) ∧ ∃ h', run 5 h₁ [.set 0 0 (.atom 9), .remove 0 1, .set 3 0 (.atom 9)] = some h' :=
  ⟨.mutable rfl fun e he => by
    simp only [List.mem_cons, List.not_mem_nil, or_false] at he
    rcases he with rfl | rfl <;> exact .atom _, Ex.a₀, _, rfl, _, rfl⟩

/-- **C112.** The type of a mutable array loses what it accepted: after `Add` no value with the contents that the array had is accepted. -/
theorem C112_changes {fuel : Nat} {h h' : Heap} {p : Nat} {x c : Ref} {ts ts' : List Tree} (hp : Has h (.obj p) (.arr ts))
    (hr : exec fuel h (.add p x) = some (.unit, h')) (hp' : Has h' (.obj p) (.arr ts')) (hc : Has h' c (.arr ts)) :
    ∃ n₀, ∀ n ≥ n₀, instanceOf h' n p c = some false := by
  have hne : (Tree.arr ts') ≠ .arr ts := by
    intro e
    cases e
    cases hp with
    | obj e1 h1 =>
      rename_i o
      cases hp' with
      | obj e2 h2 =>
        rename_i o'
        simp only [exec, change, e1] at hr
        split at hr
        · cases hr
        · simp only [Option.some.injEq, Prod.mk.injEq, true_and] at hr
          subst hr
          rw [List.getElem?_set_self (List.getElem?_eq_some_iff.1 e1).1] at e2
          cases e2
          have a := h1.length
          have b := h2.length
          simp at b
          omega
  obtain ⟨n₀, hn⟩ := equals_of hp' c _ hc
  refine ⟨n₀, fun n hh => ?_⟩
  obtain ⟨b, e1, e2⟩ := hn n hh
  cases b with
  | true => exact absurd (e2.1 rfl) hne
  | false => exact e1

example : ∃ h', exec 5 (Ex.h₀ ++ [⟨true, [.atom 1, .atom 2]⟩]) (.add 0 (.atom 5)) = some (.unit, h') ∧
    instanceOf (Ex.h₀ ++ [⟨true, [.atom 1, .atom 2]⟩]) 9 0 (.obj 3) = some true ∧ instanceOf h' 9 0 (.obj 3) = some false :=
  ⟨_, rfl, by decide +kernel, by decide +kernel⟩

/-- **C112.** A map finds what it found, whatever a program does with arrays, if everything that can be reached from its keys, types included, is
frozen. -/
theorem C112_keys_partial {V : Type} {fuel : Nat} {h h' : Heap} {ops : List Op} (hr : run fuel h ops = some h') (n : Nat) (w : HMap.World Ref V)
    (hw : ∀ nd ∈ w.nodes, Solid h nd.key) {k : Ref} (hk : Solid h k) (m : Nat) :
    @HMap.mget Ref V (keyOps h' n) m k w = @HMap.mget Ref V (keyOps h n) m k w :=
  have h1 := run_keeps hr
  mget_congr (keyOps h' n) (keyOps h n) w k (by show (hashCode h' n k).getD 0 = _; rw [solid_hash h1 n hk]; rfl)
    (fun nd hnd => by show (equals h' n k nd.key).getD false = _; rw [solid_equals h1 n hk (hw nd hnd)]; rfl) m

example : (∀ nd ∈ (Ex.put Ex.h₀ (.type 1)).nodes, Solid Ex.h₀ nd.key) ∧ Ex.get Ex.h₀ (Ex.put Ex.h₀ (.type 1)) (.type 1) = some 7 ∧
    ∃ h', run 5 Ex.h₀ [.add 0 (.atom 3)] = some h' ∧ Ex.get h' (Ex.put Ex.h₀ (.type 1)) (.type 1) = some 7 := by
  refine ⟨fun nd hnd => ?_, by decide +kernel, _, rfl, by decide +kernel⟩
  have : ∀ nd ∈ (Ex.put Ex.h₀ (.type 1)).nodes, nd.key = .type 1 := by decide +kernel
  rw [this nd hnd]
  exact Ex.f_solid

/-- **C112** is violated: a frozen array with the type of a mutable array in it changes when the mutable array does, and so does its hash code; neither
`Values` nor `FrozenCopy` nor `Freeze` prevent it. -/
theorem C112_frozen_violated :
    (∃ h', run 5 Ex.h₀ [.freeze 2, .add 0 (.atom 3)] = some h' ∧ Ex.h₀[2]? = some ⟨true, [.type 0]⟩ ∧ h'[2]? = some ⟨true, [.type 0]⟩ ∧
      Has Ex.h₀ (.obj 2) (.arr [.type [.atom 1, .atom 2]]) ∧ Has h' (.obj 2) (.arr [.type [.atom 1, .atom 2, .atom 3]]) ∧
      hashCode Ex.h₀ 9 (.obj 2) ≠ hashCode h' 9 (.obj 2)) ∧
    copy true 5 (.obj 2) Ex.h₀ = some (.obj 2, Ex.h₀) :=
  ⟨⟨_, rfl, rfl, rfl,
    .obj (o := ⟨true, [.type 0]⟩) rfl (.cons (.type (o := ⟨false, [.atom 1, .atom 2]⟩) rfl (.cons (.atom _) (.cons (.atom _) .nil))) .nil),
    .obj (o := ⟨true, [.type 0]⟩) rfl
      (.cons (.type (o := ⟨false, [.atom 1, .atom 2, .atom 3]⟩) rfl (.cons (.atom _) (.cons (.atom _) (.cons (.atom _) .nil)))) .nil),
    by decide +kernel⟩, by decide +kernel⟩

/-- **C112** is violated: a tuple type made of the types of arrays has a frozen array in it that holds the arrays themselves, and what it accepts changes
with them. -/
theorem C112_tuple_violated :
    ∃ h₁, exec 5 Ex.h₀ (.tuple [.obj 0]) = some (.ref (.type 3), h₁) ∧ h₁[3]? = some ⟨true, [.obj 0]⟩ ∧ h₁[0]? = some ⟨false, [.atom 1, .atom 2]⟩ ∧
    ∃ h', run 5 h₁ [.add 0 (.atom 3)] = some h' ∧ Has h₁ (.type 3) (.type [.arr [.atom 1, .atom 2]]) ∧
      Has h' (.type 3) (.type [.arr [.atom 1, .atom 2, .atom 3]]) :=
  ⟨_, rfl, rfl, rfl, _, rfl,
    .type (o := ⟨true, [.obj 0]⟩) rfl (.cons (.obj (o := ⟨false, [.atom 1, .atom 2]⟩) rfl (.cons (.atom _) (.cons (.atom _) .nil))) .nil),
    .type (o := ⟨true, [.obj 0]⟩) rfl
      (.cons (.obj (o := ⟨false, [.atom 1, .atom 2, .atom 3]⟩) rfl (.cons (.atom _) (.cons (.atom _) (.cons (.atom _) .nil)))) .nil)⟩

/-- **C112** is violated: a map does not find the key that was put, the type of a mutable array, after the array has been changed, neither with the same
type nor with one that has the old contents. -/
theorem C112_keys_violated :
    Ex.get Ex.h₀ (Ex.put Ex.h₀ (.type 0)) (.type 0) = some 7 ∧
    ∃ h₁ h', exec 5 Ex.h₀ (.copy true 0) = some (.ref (.obj 3), h₁) ∧ run 5 h₁ [.add 0 (.atom 3)] = some h' ∧
      Ex.get h' (Ex.put Ex.h₀ (.type 0)) (.type 0) = none ∧ Ex.get h' (Ex.put Ex.h₀ (.type 0)) (.type 3) = none :=
  ⟨by decide +kernel, _, _, rfl, rfl, by decide +kernel, by decide +kernel⟩

end Verif.Live
