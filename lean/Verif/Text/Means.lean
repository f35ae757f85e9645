import Verif.Text.Domain
import Verif.Text.Parser
import Verif.Types.Props
/-!
# What an expression means

Helper lemmas for `Text/DocsProps`: the identities of the parts of a type have no say in what its instances are.
-/
set_option autoImplicit false
set_option linter.unusedVariables false
set_option linter.unusedSimpArgs false
namespace Verif.Text
open Verif.Value (Str Val F64)
open Verif.Types

mutual
/-- no `allOfValueType` is a part of it -/
def NoAv : Ty → Prop
  | .sizedArr _ e _ _ => NoAv e
  | .tuple _ ts _ => NoAvs ts
  | .sizedMap _ k v _ _ => NoAv k ∧ NoAv v
  | .struct _ _ fs => NoAvFields fs
  | .allOf _ ts => NoAvs ts
  | .allOfVal .. => False
  | .anyOf _ ts => NoAvs ts
  | .oneOf _ ts => NoAvs ts
  | .not t => NoAv t
  | .sens _ t => NoAv t
  | .metaT t => NoAv t
  | _ => True
def NoAvs : List Ty → Prop
  | [] => True
  | t :: ts => NoAv t ∧ NoAvs ts
def NoAvFields : List (Val × Bool × Ty) → Prop
  | [] => True
  | (_, _, t) :: fs => NoAv t ∧ NoAvFields fs
end

theorem count_strip (es : List (Val × Val)) : (fs : List (Val × Bool × Ty)) → countFields (stripFields fs) es = countFields fs es
  | [] => by simp only [stripFields]
  | (k, rq, t) :: fs => by simp only [stripFields, countFields, count_strip es fs]

variable (E : Types.Env) (A B : Oid → List Val → Val → Bool)
mutual
theorem hasP_strip : (t : Ty) → (v : Val) → NoAv (strip t) → hasP E A (strip t) v = hasP E B t v
  | .sizedArr _ e _ _, v, h => by
    simp only [strip, NoAv] at h ⊢
    cases v <;> simp only [hasP, hasP_strip e _ h]
  | .tuple _ ts false, v, h => by
    simp only [strip, NoAv] at h ⊢
    cases v <;> simp only [hasP, hasZip_strip ts _ h]
  | .tuple _ ts true, v, h => by
    simp only [strip, NoAv] at h ⊢
    cases v <;> simp only [hasP, hasVar_strip ts _ h]
  | .sizedMap _ k t _ _, v, h => by
    simp only [strip, NoAv] at h ⊢
    cases v <;> simp only [hasP, hasP_strip k _ h.1, hasP_strip t _ h.2]
  | .struct _ _ fs, v, h => by
    simp only [strip, NoAv] at h ⊢
    cases v <;> simp only [hasP, hasFields_strip fs _ h, count_strip]
  | .allOf _ ts, v, h => by simp only [strip, NoAv, hasP] at h ⊢; exact hasAll_strip ts v h
  | .anyOf _ ts, v, h => by simp only [strip, NoAv, hasP] at h ⊢; exact hasAny_strip ts v h
  | .oneOf _ ts, v, h => by simp only [strip, NoAv, hasP] at h ⊢; rw [hasCount_strip ts v h]
  | .not t, v, h => by simp only [strip, NoAv, hasP] at h ⊢; rw [hasP_strip t v h]
  | .sens _ t, v, h => by
    simp only [strip, NoAv] at h ⊢
    cases v <;> simp only [hasP, hasP_strip t _ h]
  | .allOfVal .., v, h => by simp only [strip, NoAv] at h
  | .exactD _ _, v, h => by simp only [strip, hasP]
  | .metaT _, v, h => by simp only [strip, hasP]
  | .metaMeta, v, h => by simp only [strip, hasP]
  | .exact _, v, h => by simp only [strip, hasP]
  | .any, v, h => by simp only [strip, hasP]
  | .nilT, v, h => by cases v <;> simp only [strip, hasP]
  | .boolT, v, h => by cases v <;> simp only [strip, hasP]
  | .intT, v, h => by cases v <;> simp only [strip, hasP]
  | .floatT, v, h => by cases v <;> simp only [strip, hasP]
  | .strT, v, h => by cases v <;> simp only [strip, hasP]
  | .regexpT, v, h => by cases v <;> simp only [strip, hasP]
  | .timeT, v, h => by cases v <;> simp only [strip, hasP]
  | .arrT, v, h => by cases v <;> simp only [strip, hasP]
  | .mapT, v, h => by cases v <;> simp only [strip, hasP]
  | .intRange .., v, h => by cases v <;> simp only [strip, hasP]
  | .floatRange .., v, h => by cases v <;> simp only [strip, hasP]
  | .sizedStr .., v, h => by cases v <;> simp only [strip, hasP]
  | .ciStr .., v, h => by cases v <;> simp only [strip, hasP]
  | .pattern .., v, h => by cases v <;> simp only [strip, hasP]
  | .bin .., v, h => by cases v <;> simp only [strip, hasP]
theorem hasZip_strip : (ts : List Ty) → (vs : List Val) → NoAvs (strips ts) → hasZip E A (strips ts) vs = hasZip E B ts vs
  | [], vs, h => by cases vs <;> simp only [strips, hasZip]
  | t :: ts, [], h => by simp only [strips, hasZip]
  | t :: ts, v :: vs, h => by
    simp only [strips, NoAvs] at h
    simp only [strips, hasZip, hasP_strip t v h.1, hasZip_strip ts vs h.2]
theorem hasVar_strip : (ts : List Ty) → (vs : List Val) → NoAvs (strips ts) → hasVar E A (strips ts) vs = hasVar E B ts vs
  | [], vs, h => by simp only [strips, hasVar]
  | [t], vs, h => by
    simp only [strips, NoAvs] at h
    simp only [strips, hasVar, hasP_strip t _ h.1]
  | t :: u :: ts, [], h => by simp only [strips, hasVar]
  | t :: u :: ts, v :: vs, h => by
    simp only [strips, NoAvs] at h
    have := hasVar_strip (u :: ts) vs (by simp only [strips, NoAvs]; exact h.2)
    simp only [strips] at this
    simp only [strips, hasVar, hasP_strip t v h.1, this]
theorem hasAll_strip : (ts : List Ty) → (v : Val) → NoAvs (strips ts) → hasAll E A (strips ts) v = hasAll E B ts v
  | [], v, h => by simp only [strips, hasAll]
  | t :: ts, v, h => by
    simp only [strips, NoAvs] at h
    simp only [strips, hasAll, hasP_strip t v h.1, hasAll_strip ts v h.2]
theorem hasAny_strip : (ts : List Ty) → (v : Val) → NoAvs (strips ts) → hasAny E A (strips ts) v = hasAny E B ts v
  | [], v, h => by simp only [strips, hasAny]
  | t :: ts, v, h => by
    simp only [strips, NoAvs] at h
    simp only [strips, hasAny, hasP_strip t v h.1, hasAny_strip ts v h.2]
theorem hasCount_strip : (ts : List Ty) → (v : Val) → NoAvs (strips ts) → hasCount E A (strips ts) v = hasCount E B ts v
  | [], v, h => by simp only [strips, hasCount]
  | t :: ts, v, h => by
    simp only [strips, NoAvs] at h
    simp only [strips, hasCount, hasP_strip t v h.1, hasCount_strip ts v h.2]
theorem hasFields_strip : (fs : List (Val × Bool × Ty)) → (es : List (Val × Val)) → NoAvFields (stripFields fs) →
    hasFields E A (stripFields fs) es = hasFields E B fs es
  | [], es, h => by simp only [stripFields, hasFields]
  | (k, rq, t) :: fs, es, h => by
    simp only [stripFields, NoAvFields] at h
    simp only [stripFields, hasFields, hasFields_strip fs es h.2]
    cases mapGet es k with
    | none => rfl
    | some w => simp only [hasP_strip t w h.1]
end

/-- Whatever the identities, the instances are those of the stripped type. -/
theorem inst_strip {t u : Ty} (hs : strip t = u) (ha : t.Acyc) (hn : NoAv u) (v : Val) : instanceOf E t v = has E u v := by
  subst hs
  rw [instanceOf_has ha]
  exact (hasP_strip E _ _ t v hn).symm

end Verif.Text
