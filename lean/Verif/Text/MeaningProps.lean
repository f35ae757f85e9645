import Verif.Text.Means
import Verif.Text.RoundProps
/-!
# What the text of a type says about its instances (C35)
-/
set_option autoImplicit false
set_option linter.unusedVariables false
namespace Verif.Text
open Verif.Value (Str Val F64)
open Verif.Types

mutual
theorem RtTy.noAv {S : SEnv} {P : PEnv} : (t : Ty) → RtTy S P t → NoAv (strip t)
  | .sizedArr _ e _ _, h => by rw [RtTy] at h; rw [strip, NoAv]; exact RtTy.noAv e h.1
  | .tuple _ ts _, h => by rw [RtTy] at h; rw [strip, NoAv]; exact RtTys.noAv ts h.1
  | .sizedMap _ k v _ _, h => by rw [RtTy] at h; rw [strip, NoAv]; exact ⟨RtTy.noAv k h.1, RtTy.noAv v h.2.1⟩
  | .struct _ _ fs, h => by rw [RtTy] at h; rw [strip, NoAv]; exact RtFields.noAv fs h.1
  | .allOf _ ts, h => by rw [RtTy] at h; rw [strip, NoAv]; exact RtTys.noAv ts h.1
  | .anyOf _ ts, h => by rw [RtTy] at h; rw [strip, NoAv]; exact RtTys.noAv ts h.1
  | .oneOf _ ts, h => by rw [RtTy] at h; rw [strip, NoAv]; exact RtTys.noAv ts h.1
  | .not t, h => by rw [RtTy] at h; rw [strip, NoAv]; exact RtTy.noAv t h.1
  | .sens _ t, h => by rw [RtTy] at h; rw [strip, NoAv]; exact RtTy.noAv t h.1
  | .metaT t, h => by rw [RtTy] at h; rw [strip, NoAv]; exact RtTy.noAv t h
  | .allOfVal .., h => by simp only [RtTy] at h
  | .exactD .., h => by simp only [strip, NoAv]
  | .metaMeta, h => by simp only [strip, NoAv]
  | .exact _, h => by simp only [strip, NoAv]
  | .any, h => by simp only [strip, NoAv]
  | .nilT, h => by simp only [strip, NoAv]
  | .boolT, h => by simp only [strip, NoAv]
  | .intT, h => by simp only [strip, NoAv]
  | .floatT, h => by simp only [strip, NoAv]
  | .strT, h => by simp only [strip, NoAv]
  | .regexpT, h => by simp only [strip, NoAv]
  | .timeT, h => by simp only [strip, NoAv]
  | .arrT, h => by simp only [strip, NoAv]
  | .mapT, h => by simp only [strip, NoAv]
  | .intRange .., h => by simp only [strip, NoAv]
  | .floatRange .., h => by simp only [strip, NoAv]
  | .sizedStr .., h => by simp only [strip, NoAv]
  | .ciStr .., h => by simp only [strip, NoAv]
  | .pattern .., h => by simp only [strip, NoAv]
  | .bin .., h => by simp only [strip, NoAv]
theorem RtTys.noAv {S : SEnv} {P : PEnv} : (ts : List Ty) → RtTys S P ts → NoAvs (strips ts)
  | [], h => by simp only [strips, NoAvs]
  | t :: ts, h => by rw [RtTys] at h; rw [strips, NoAvs]; exact ⟨RtTy.noAv t h.1, RtTys.noAv ts h.2⟩
theorem RtFields.noAv {S : SEnv} {P : PEnv} : (fs : List (Val × Bool × Ty)) → RtFields S P fs → NoAvFields (stripFields fs)
  | [], h => by simp only [stripFields, NoAvFields]
  | (k, rq, t) :: fs, h => by rw [RtFields] at h; rw [stripFields, NoAvFields]; exact ⟨RtTy.noAv t h.1.2.2, RtFields.noAv fs h.2⟩
end

/-- **C35**: a type that is printed and parsed again has the instances that it had: the text is read as a type `u`, and all types that are `u`
but for the identities of their parts have exactly the instances of `t`.

Partial: for the types of `RtTy`, as `C35_partial`. -/
theorem C35_instances_partial {S : SEnv} {P : PEnv} (hp : ∀ c < 32, S.isPrint c = false) {t : Ty} (h : RtTy S P t) (ha : t.Acyc) :
    ∃ u, parseType P (typeString S t) = .ok u ∧
      ∀ (E : Types.Env) (t' : Ty), strip t' = u → t'.Acyc → ∀ v, instanceOf E t' v = instanceOf E t v :=
  ⟨strip t, C35_partial hp h, fun E t' hs ha' v => by
    rw [inst_strip E hs ha' (RtTy.noAv t h) v, inst_strip E rfl ha (RtTy.noAv t h) v]⟩

/-- **C35**: two types with the same text have the same instances.

Partial: for the types of `RtTy`, as `C35_partial`. -/
theorem C35_same_text_partial {S : SEnv} {P : PEnv} (hp : ∀ c < 32, S.isPrint c = false) {t u : Ty} (ht : RtTy S P t) (hu : RtTy S P u)
    (hta : t.Acyc) (hua : u.Acyc) (h : typeString S t = typeString S u) (E : Types.Env) (v : Val) : instanceOf E t v = instanceOf E u v := by
  have hs := C35_injective_partial hp ht hu h
  rw [inst_strip E rfl hta (RtTy.noAv t ht) v, inst_strip E hs.symm hua (RtTy.noAv t ht) v]

example (P : PEnv) : RtTy asciiEnv P exampleTy ∧ (∀ c < 32, asciiEnv.isPrint c = false) := ⟨exampleTy_ok P, asciiEnv_ctrl⟩

/-- `map[string](string|int)`, printed by one program and read by another: the same maps are its instances. -/
example (P : PEnv) : ∃ u, parseType P (typeString asciiEnv (.sizedMap (.user 0) .strT (.anyOf (.user 1) [.strT, .intT]) 0 maxInt)) = .ok u ∧
    ∀ (E : Types.Env) (t' : Ty), strip t' = u → t'.Acyc → ∀ v, instanceOf E t' v = instanceOf E (.sizedMap (.user 0) .strT (.anyOf (.user 1) [.strT, .intT]) 0 maxInt) v :=
  C35_instances_partial asciiEnv_ctrl (by simp [RtTy, RtTys, plain, SizesOk, Ty.isAny, maxInt]) (by simp [Ty.Acyc, Acycs, Ty.occ, occs])

end Verif.Text
