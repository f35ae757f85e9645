import Verif.Types.Assign
import Verif.Types.InstHas
/-!
# Assignable from the type of nil is Instance of nil
-/
set_option autoImplicit false
set_option linter.unusedVariables false
set_option linter.unusedSimpArgs false
namespace Verif.Types
open Verif.Value

mutual
/-- As far as operands go, no exact type is one of nil (the constructors make none), and there is no `allOfValueType`. -/
def NilOk : Ty → Prop
  | .exact v | .exactD _ v => v ≠ .nil
  | .allOf _ ts | .anyOf _ ts | .oneOf _ ts => NilOks ts
  | .allOfVal .. => False
  | .not t => NilOk t
  | _ => True
def NilOks : List Ty → Prop
  | [] => True
  | t :: ts => NilOk t ∧ NilOks ts
end

theorem NilOks_iff {ts : List Ty} : NilOks ts ↔ ∀ t ∈ ts, NilOk t := by
  induction ts with
  | nil => simp [NilOks]
  | cons t ts ih => simp [NilOks, ih]

theorem eq_nil_right {v : Val} (h : v ≠ .nil) : eq v .nil = false := by
  cases v <;> first | exact absurd rfl h | rfl | simp [eq]

section
variable {E : Env} {n : Nat}

theorem allG_nil {f : G → Ty → Check} {g : G} : ∀ {ts : List Ty}, (∀ t ∈ ts, f g t = some (has E t .nil, g)) →
    allG f g ts = some (hasAll E (fun o vs v => (typesOf o vs).all fun t => has0 E t v) ts .nil, g)
  | [], _ => rfl
  | t :: ts, h => by
    rw [allG, h t List.mem_cons_self, hasAll]
    cases hh : has E t .nil with
    | false => simp only [has] at hh; simp [hh]
    | true =>
      simp only [has] at hh
      simp only [hh, Bool.true_and]
      exact allG_nil fun t ht => h t (List.mem_cons_of_mem _ ht)

theorem anyG_nil {f : G → Ty → Check} {g : G} : ∀ {ts : List Ty}, (∀ t ∈ ts, f g t = some (has E t .nil, g)) →
    anyG f g ts = some (hasAny E (fun o vs v => (typesOf o vs).all fun t => has0 E t v) ts .nil, g)
  | [], _ => rfl
  | t :: ts, h => by
    rw [anyG, h t List.mem_cons_self, hasAny]
    cases hh : has E t .nil with
    | true => simp only [has] at hh; simp [hh]
    | false =>
      simp only [has] at hh
      simp only [hh, Bool.false_or]
      exact anyG_nil fun t ht => h t (List.mem_cons_of_mem _ ht)

theorem oneG_nil {f : G → Ty → Check} {g : G} : ∀ {ts : List Ty} {b : Bool}, (∀ t ∈ ts, f g t = some (has E t .nil, g)) →
    oneG f b g ts = some (hasCount E (fun o vs v => (typesOf o vs).all fun t => has0 E t v) ts .nil + b.toNat == 1, g)
  | [], b, _ => by cases b <;> rfl
  | t :: ts, b, h => by
    have ih : ∀ b, _ := fun b => oneG_nil (ts := ts) (b := b) fun t ht => h t (List.mem_cons_of_mem _ ht)
    rw [oneG, h t List.mem_cons_self, hasCount]
    cases hh : has E t .nil with
    | true =>
      simp only [has] at hh
      simp only [hh, if_true]
      cases b with
      | true =>
        have : ∀ k : Nat, (1 + k + 1 == 1) = false := by intro k; simp
        simp [this]
      | false =>
        simp only [Bool.false_eq_true, if_false, ih, Bool.toNat_true, Bool.toNat_false, Nat.add_zero]
        rw [Nat.add_comm]
    | false =>
      simp only [has] at hh
      simp only [hh, Bool.false_eq_true, if_false, Nat.zero_add]
      exact ih b

theorem checkTo_nil {rec : G → Ty → Ty → Check} {g : G} {a : Ty} : checkTo rec g a .nilT = some (false, g) := rfl

theorem depth_mem {t : Ty} {ts : List Ty} (h : t ∈ ts) : t.depth ≤ depths ts := by
  induction ts with
  | nil => cases h
  | cons u us ih =>
    rw [depths]
    rcases List.mem_cons.1 h with rfl | h
    · exact Nat.le_max_left _ _
    · exact Nat.le_trans (ih h) (Nat.le_max_right _ _)

theorem asg_nil : ∀ (n : Nat) (t : Ty) (g : G), t.depth < n → NilOk t → asg E n g t .nilT = some (has E t .nil, g)
  | 0, _, _, h, _ => absurd h (Nat.not_lt_zero _)
  | n + 1, t, g, h, hn => by
    have kids : ∀ {ts : List Ty}, depths ts + 1 < n + 1 → NilOks ts → ∀ t ∈ ts, asg E n g t .nilT = some (has E t .nil, g) :=
      fun hd ho t ht => asg_nil n t g (by have := depth_mem ht; omega) (NilOks_iff.1 ho t ht)
    cases t with
    | not u =>
      have := asg_nil n u none (by rw [Ty.depth] at h; omega) hn
      rw [asg]
      simp only [Ty.deep?, leafAsg, notAsg, this, Option.map_some]
      rfl
    | exact v =>
      have := eq_nil_right hn
      rw [asg]
      simp only [Ty.deep?, leafAsg, leafCase, Ty.operands?, Option.map_some, has, hasP, this]
    | exactD o v =>
      have := eq_nil_right hn
      rw [asg]
      simp only [Ty.deep?, deepAsg, checkTo_nil, has, hasP, this]
    | allOf o ts =>
      rw [asg]
      simp only [Ty.deep?, deepAsg, allG_nil (f := fun g t => asg E n g t .nilT) (kids h hn), has, hasP, checkTo_nil]
      cases hasAll E (fun o vs v => (typesOf o vs).all fun t => has0 E t v) ts .nil <;> rfl
    | anyOf o ts =>
      rw [asg]
      simp only [Ty.deep?, deepAsg, anyG_nil (f := fun g t => asg E n g t .nilT) (kids h hn), has, hasP, checkTo_nil]
      cases ts with
      | nil => rfl
      | cons t ts =>
        simp only [List.isEmpty_cons, Bool.false_eq_true, if_false]
        cases hasAny E (fun o vs v => (typesOf o vs).all fun t => has0 E t v) (t :: ts) .nil <;> rfl
    | oneOf o ts =>
      rw [asg]
      simp only [Ty.deep?, deepAsg, oneG_nil (f := fun g t => asg E n g t .nilT) (kids h hn), has, hasP, checkTo_nil]
      cases ts with
      | nil => rfl
      | cons t ts =>
        simp only [List.isEmpty_cons, Bool.false_eq_true, if_false, Bool.toNat_false, Nat.add_zero]
        cases hasCount E (fun o vs v => (typesOf o vs).all fun t => has0 E t v) (t :: ts) .nil == 1 <;> rfl
    | allOfVal o vs => exact hn.elim
    | tuple o ts v => rw [asg]; cases v <;> rfl
    | _ => rw [asg]; rfl

theorem assignable_nil {t : Ty} (hn : NilOk t) (ha : t.Acyc) : assignable E t .nilT = instanceOf E t .nil := by
  unfold assignable
  rw [asg_nil _ _ _ (by omega) hn, instanceOf_has ha]

end
end Verif.Types
