import Verif.Types.Has
/-!
# `inst` computes `has`
-/
set_option autoImplicit false
set_option linter.unusedVariables false
namespace Verif.Types
open Verif.Value

/-! ## Identities -/

/-- `o'` is `o` or made from it -/
inductive Below : Oid → Oid → Prop where
  | refl (o : Oid) : Below o o
  | part {o' o : Oid} (k : Nat) : Below o' o → Below (.part o' k) o

theorem Below.trans {a b c : Oid} (h : Below a b) (h' : Below b c) : Below a c := by
  induction h with
  | refl => exact h'
  | part k _ ih => exact .part k (ih h')

def osize : Oid → Nat
  | .user _ => 0
  | .part o _ => osize o + 1

theorem Below.size {a b : Oid} (h : Below a b) : osize b ≤ osize a := by
  induction h with
  | refl => exact Nat.le_refl _
  | part k _ ih => simp only [osize]; omega

theorem not_below_part {o : Oid} {k : Nat} : ¬ Below o (.part o k) := by
  intro h
  have := h.size
  simp only [osize] at this
  omega

mutual
/-- The identity occurs in the type. -/
def Ty.occ (o' : Oid) : Ty → Prop
  | .exactD o _ => o' = o
  | .sizedArr o e _ _ => o' = o ∨ e.occ o'
  | .tuple o ts _ => o' = o ∨ occs o' ts
  | .sizedMap o k v _ _ => o' = o ∨ k.occ o' ∨ v.occ o'
  | .struct o _ fs => Below o' o ∨ occFields o' fs
  | .allOf o ts => o' = o ∨ occs o' ts
  | .allOfVal o _ => Below o' o
  | .anyOf o ts => o' = o ∨ occs o' ts
  | .oneOf o ts => o' = o ∨ occs o' ts
  | .not t => t.occ o'
  | .sens o t => o' = o ∨ t.occ o'
  | .metaT t => t.occ o'
  | _ => False

def occs (o' : Oid) : List Ty → Prop
  | [] => False
  | t :: ts => t.occ o' ∨ occs o' ts

def occFields (o' : Oid) : List (Val × Bool × Ty) → Prop
  | [] => False
  | (_, _, t) :: r => t.occ o' ∨ occFields o' r
end

theorem occs_iff {o : Oid} {ts : List Ty} : occs o ts ↔ ∃ t ∈ ts, t.occ o := by
  induction ts with
  | nil => simp [occs]
  | cons t ts ih => simp [occs, ih]

theorem occFields_iff {o : Oid} {fs : List (Val × Bool × Ty)} : occFields o fs ↔ ∃ f ∈ fs, f.2.2.occ o := by
  induction fs with
  | nil => simp [occFields]
  | cons f fs ih => obtain ⟨k, rq, t⟩ := f; simp [occFields, ih]

mutual
/-- No type object is a part of itself. -/
def Ty.Acyc : Ty → Prop
  | .sizedArr o e _ _ => ¬ e.occ o ∧ e.Acyc
  | .tuple o ts _ => ¬ occs o ts ∧ Acycs ts
  | .sizedMap o k v _ _ => ¬ k.occ o ∧ ¬ v.occ o ∧ k.Acyc ∧ v.Acyc
  | .struct o _ fs => ¬ occFields o fs ∧ AcycFields fs
  | .allOf o ts => ¬ occs o ts ∧ Acycs ts
  | .anyOf o ts => ¬ occs o ts ∧ Acycs ts
  | .oneOf o ts => ¬ occs o ts ∧ Acycs ts
  | .not t => t.Acyc
  | .sens o t => ¬ t.occ o ∧ t.Acyc
  | .metaT t => t.Acyc
  | _ => True

def Acycs : List Ty → Prop
  | [] => True
  | t :: ts => t.Acyc ∧ Acycs ts

def AcycFields : List (Val × Bool × Ty) → Prop
  | [] => True
  | (_, _, t) :: r => t.Acyc ∧ AcycFields r
end

theorem Acycs_iff {ts : List Ty} : Acycs ts ↔ ∀ t ∈ ts, t.Acyc := by
  induction ts with
  | nil => simp [Acycs]
  | cons t ts ih => simp [Acycs, ih]

theorem AcycFields_iff {fs : List (Val × Bool × Ty)} : AcycFields fs ↔ ∀ f ∈ fs, f.2.2.Acyc := by
  induction fs with
  | nil => simp [AcycFields]
  | cons f fs ih => obtain ⟨k, rq, t⟩ := f; simp [AcycFields, ih]

/-! ## Depth -/

theorem depth_le_depths {t : Ty} {ts : List Ty} (h : t ∈ ts) : t.depth ≤ depths ts := by
  induction ts with
  | nil => cases h
  | cons a ts ih =>
    rw [depths]
    rcases List.mem_cons.1 h with rfl | h
    · omega
    · have := ih h; omega

theorem depth_le_depthFields {f : Val × Bool × Ty} {fs : List (Val × Bool × Ty)} (h : f ∈ fs) :
    f.2.2.depth ≤ depthFields fs := by
  induction fs with
  | nil => cases h
  | cons a fs ih =>
    obtain ⟨k, rq, t⟩ := a
    rw [depthFields]
    rcases List.mem_cons.1 h with rfl | h
    · simp only; omega
    · have := ih h; omega

theorem depths_le {ts : List Ty} {n : Nat} (h : ∀ t ∈ ts, t.depth ≤ n) : depths ts ≤ n := by
  induction ts with
  | nil => simp [depths]
  | cons a ts ih =>
    rw [depths]
    have := h a (by simp)
    have := ih fun t ht => h t (by simp [ht])
    omega

/-! ## Types of values -/

theorem commonGeneric_mem (ts : List Ty) : commonGeneric ts = .any ∨ commonGeneric ts ∈ ts := by
  cases ts with
  | nil => exact .inl rfl
  | cons t ts =>
    rw [commonGeneric]
    split
    · exact .inr (by simp)
    · exact .inl rfl

/-- What is known of the types that `genericOf` makes. -/
structure GenOk (o : Oid) (n : Nat) (t : Ty) : Prop where
  acyc : t.Acyc
  below : ∀ o', t.occ o' → Below o' o
  depth : t.depth ≤ n

theorem GenOk.any (o : Oid) (n : Nat) : GenOk o n .any := by
  constructor <;> simp [Ty.Acyc, Ty.occ, Ty.depth]

theorem GenOk.common {o : Oid} {n : Nat} {ts : List Ty} (h : ∀ t ∈ ts, ∃ k, GenOk (.part o k) n t) :
    commonGeneric ts = .any ∨ ∃ k, GenOk (.part o k) n (commonGeneric ts) := by
  rcases commonGeneric_mem ts with e | hm
  · exact .inl e
  · exact .inr (h _ hm)

theorem not_below_of {o o' : Oid} {k : Nat} (h : Below o' (.part o k)) : o' ≠ o := by
  rintro rfl
  exact not_below_part h

theorem below_of_part {o o' : Oid} {k : Nat} (h : Below o' (.part o k)) : Below o' o :=
  h.trans (.part k (.refl o))

mutual
theorem genericOf_ok (o : Oid) : (v : Val) → GenOk o (vdepth v) (genericOf o v)
  | .nil | .bool _ | .int _ | .float _ | .str _ | .bin _ | .time _ | .regexp _ | .entry .. => by
    constructor <;> simp [genericOf, Ty.Acyc, Ty.occ, Ty.depth]
  | .sens v => by
    have h := genericOf_ok (.part o 0) v
    rw [genericOf, vdepth]
    refine ⟨⟨fun hc => not_below_of (h.below _ hc) rfl, h.acyc⟩, ?_, ?_⟩
    · rintro o' (rfl | hc)
      · exact .refl _
      · exact below_of_part (h.below _ hc)
    · rw [Ty.depth]; have := h.depth; omega
  | .arr vs => by
    have hs := genericsOf_ok o vs
    rw [genericOf, vdepth]
    rcases GenOk.common hs with e | ⟨k, h⟩
    · rw [e]
      refine ⟨by simp [Ty.Acyc, Ty.occ], ?_, by simp [Ty.depth]⟩
      rintro o' (rfl | hc)
      · exact .refl _
      · exact hc.elim
    · refine ⟨⟨fun hc => not_below_of (h.below _ hc) rfl, h.acyc⟩, ?_, ?_⟩
      · rintro o' (rfl | hc)
        · exact .refl _
        · exact below_of_part (h.below _ hc)
      · rw [Ty.depth]; have := h.depth; omega
  | .map es => by
    have hk := genericKeys_ok o es
    have hv := genericVals_ok o es
    have gk : commonGeneric (genericKeys o es) = .any ∨ ∃ k, GenOk (.part o k) (edepths es) (commonGeneric (genericKeys o es)) :=
      GenOk.common hk
    have gv : commonGeneric (genericVals o es) = .any ∨ ∃ k, GenOk (.part o k) (edepths es) (commonGeneric (genericVals o es)) :=
      GenOk.common hv
    have key : ∀ k v : Ty, (k = .any ∨ ∃ i, GenOk (.part o i) (edepths es) k) →
        (v = .any ∨ ∃ i, GenOk (.part o i) (edepths es) v) → GenOk o (edepths es + 1) (.sizedMap o k v 0 maxInt) := by
      intro k v hk hv
      have hk' : ∃ i, GenOk (.part o i) (edepths es) k := by
        rcases hk with rfl | h
        · exact ⟨0, .any _ _⟩
        · exact h
      have hv' : ∃ i, GenOk (.part o i) (edepths es) v := by
        rcases hv with rfl | h
        · exact ⟨0, .any _ _⟩
        · exact h
      obtain ⟨i, h⟩ := hk'
      obtain ⟨j, h'⟩ := hv'
      refine ⟨⟨fun hc => not_below_of (h.below _ hc) rfl, fun hc => not_below_of (h'.below _ hc) rfl, h.acyc, h'.acyc⟩, ?_, ?_⟩
      · rintro o' (rfl | hc | hc)
        · exact .refl _
        · exact below_of_part (h.below _ hc)
        · exact below_of_part (h'.below _ hc)
      · rw [Ty.depth]; have := h.depth; have := h'.depth; omega
    rw [genericOf, vdepth]
    generalize commonGeneric (genericKeys o es) = k at *
    generalize commonGeneric (genericVals o es) = v at *
    split
    · constructor <;> simp [Ty.Acyc, Ty.occ, Ty.depth]
    · exact key k v gk gv

theorem genericsOf_ok (o : Oid) : (vs : List Val) → ∀ t ∈ genericsOf o vs, ∃ k, GenOk (.part o k) (vdepths vs) t
  | [] => by simp [genericsOf]
  | v :: vs => by
    have h := genericOf_ok (.part o vs.length) v
    have hs := genericsOf_ok o vs
    intro t ht
    rw [genericsOf] at ht
    rw [vdepths]
    rcases List.mem_cons.1 ht with rfl | ht
    · exact ⟨_, h.acyc, h.below, by have := h.depth; omega⟩
    · obtain ⟨k, h'⟩ := hs t ht
      exact ⟨k, h'.acyc, h'.below, by have := h'.depth; omega⟩

theorem genericKeys_ok (o : Oid) : (es : List (Val × Val)) →
    ∀ t ∈ genericKeys o es, ∃ k, GenOk (.part o k) (edepths es) t
  | [] => by simp [genericKeys]
  | (k, v) :: r => by
    have h := genericOf_ok (.part o (2 * r.length)) k
    have hs := genericKeys_ok o r
    intro t ht
    rw [genericKeys] at ht
    rw [edepths]
    rcases List.mem_cons.1 ht with rfl | ht
    · exact ⟨_, h.acyc, h.below, by have := h.depth; omega⟩
    · obtain ⟨k', h'⟩ := hs t ht
      exact ⟨k', h'.acyc, h'.below, by have := h'.depth; omega⟩

theorem genericVals_ok (o : Oid) : (es : List (Val × Val)) →
    ∀ t ∈ genericVals o es, ∃ k, GenOk (.part o k) (edepths es) t
  | [] => by simp [genericVals]
  | (k, v) :: r => by
    have h := genericOf_ok (.part o (2 * r.length + 1)) v
    have hs := genericVals_ok o r
    intro t ht
    rw [genericVals] at ht
    rw [edepths]
    rcases List.mem_cons.1 ht with rfl | ht
    · exact ⟨_, h.acyc, h.below, by have := h.depth; omega⟩
    · obtain ⟨k', h'⟩ := hs t ht
      exact ⟨k', h'.acyc, h'.below, by have := h'.depth; omega⟩
end

theorem typeOf_ok (o : Oid) (v : Val) : GenOk o (vdepth v + 1) (typeOf o v) := by
  cases v with
  | sens v =>
    have h := genericOf_ok (.part o 0) v
    rw [typeOf, vdepth]
    refine ⟨⟨fun hc => not_below_of (h.below _ hc) rfl, h.acyc⟩, ?_, ?_⟩
    · rintro o' (rfl | hc)
      · exact .refl _
      · exact below_of_part (h.below _ hc)
    · rw [Ty.depth]; have := h.depth; omega
  | _ =>
    refine ⟨by simp [typeOf, Ty.Acyc], ?_, by simp [typeOf, Ty.depth]⟩
    intro o' hc
    simp only [typeOf, Ty.occ] at hc <;> exact hc ▸ .refl _

theorem typesOf_ok (o : Oid) : (vs : List Val) → ∀ t ∈ typesOf o vs, ∃ k, GenOk (.part o k) (vdepths vs + 1) t
  | [] => by simp [typesOf]
  | v :: vs => by
    have h := typeOf_ok (.part o vs.length) v
    have hs := typesOf_ok o vs
    intro t ht
    rw [typesOf] at ht
    rw [vdepths]
    rcases List.mem_cons.1 ht with rfl | ht
    · exact ⟨_, h.acyc, h.below, by have := h.depth; omega⟩
    · obtain ⟨k, h'⟩ := hs t ht
      exact ⟨k, h'.acyc, h'.below, by have := h'.depth; omega⟩

/-! ## Loops -/

section
variable {α : Type} {f : G → α → Check} {P : α → Bool} {J : G → Prop}

theorem allG_run {xs : List α} (h : ∀ x ∈ xs, ∀ g, J g → ∃ g', f g x = some (P x, g') ∧ J g') :
    ∀ {g : G}, J g → ∃ g', allG f g xs = some (xs.all P, g') ∧ J g' := by
  induction xs with
  | nil => intro g hg; exact ⟨g, rfl, hg⟩
  | cons x xs ih =>
    intro g hg
    obtain ⟨g', e, hg'⟩ := h x (by simp) g hg
    rw [allG, e, List.all_cons]
    cases P x with
    | false => exact ⟨g', rfl, hg'⟩
    | true =>
      obtain ⟨g'', e', hg''⟩ := ih (fun y hy => h y (by simp [hy])) hg'
      exact ⟨g'', by simpa using e', hg''⟩

theorem anyG_run {xs : List α} (h : ∀ x ∈ xs, ∀ g, J g → ∃ g', f g x = some (P x, g') ∧ J g') :
    ∀ {g : G}, J g → ∃ g', anyG f g xs = some (xs.any P, g') ∧ J g' := by
  induction xs with
  | nil => intro g hg; exact ⟨g, rfl, hg⟩
  | cons x xs ih =>
    intro g hg
    obtain ⟨g', e, hg'⟩ := h x (by simp) g hg
    rw [anyG, e, List.any_cons]
    cases P x with
    | true => exact ⟨g', rfl, hg'⟩
    | false =>
      obtain ⟨g'', e', hg''⟩ := ih (fun y hy => h y (by simp [hy])) hg'
      exact ⟨g'', by simpa using e', hg''⟩

theorem oneG_run {xs : List α} (h : ∀ x ∈ xs, ∀ g, J g → ∃ g', f g x = some (P x, g') ∧ J g') :
    ∀ {g : G} {found : Bool}, J g →
      ∃ g', oneG f found g xs = some ((if found then 1 else 0) + xs.countP P == 1, g') ∧ J g' := by
  induction xs with
  | nil => intro g found hg; exact ⟨g, by cases found <;> rfl, hg⟩
  | cons x xs ih =>
    intro g found hg
    obtain ⟨g', e, hg'⟩ := h x (by simp) g hg
    have ih' := fun found => ih (fun y hy => h y (by simp [hy])) (found := found) hg'
    rw [oneG, e, List.countP_cons]
    cases hP : P x with
    | true =>
      cases found with
      | true =>
        refine ⟨g', ?_, hg'⟩
        simp only [if_true]
        congr 2
        symm
        rw [beq_eq_false_iff_ne]
        omega
      | false =>
        obtain ⟨g'', e', hg''⟩ := ih' true
        refine ⟨g'', ?_, hg''⟩
        simp only [if_true, Bool.false_eq_true, if_false] at e' ⊢
        rw [e', Nat.zero_add, Nat.add_comm]
    | false =>
      obtain ⟨g'', e', hg''⟩ := ih' found
      refine ⟨g'', ?_, hg''⟩
      simpa using e'
end

/-! ## No hit -/

/-- The flag and the list for the types are the same. -/
def GR : G → G → Prop
  | none, none => True
  | some s, some s' => s'.aSeen = s.aSeen ∧ s'.seenInA = s.seenInA
  | _, _ => False

theorem GR.refl (g : G) : GR g g := by cases g <;> simp [GR]

theorem GR.trans {a b c : G} (h : GR a b) (h' : GR b c) : GR a c := by
  cases a <;> cases b <;> cases c <;> simp_all [GR]

/-- No identity in the type has been seen. -/
def Fresh (g : G) (t : Ty) : Prop :=
  ∀ s, g = some s → s.seenInA = false ∧ ∀ o, Obj.ty o ∈ s.aSeen → ¬ t.occ o

theorem Fresh.none (t : Ty) : Fresh none t := by rintro s ⟨⟩

theorem Fresh.of_GR {g g' : G} {t : Ty} (h : Fresh g t) (hr : GR g g') : Fresh g' t := by
  rintro s rfl
  cases g with
  | none => exact hr.elim
  | some s' =>
    obtain ⟨e1, e2⟩ := hr
    rw [e1, e2]
    exact h s' rfl

theorem Fresh.sub {g : G} {t u : Ty} (h : Fresh g t) (hs : ∀ o, u.occ o → t.occ o) : Fresh g u :=
  fun s e => ⟨(h s e).1, fun o ho hc => (h s e).2 o ho (hs o hc)⟩

theorem not_any_same {E : Env} {o : Oid} {l : List Obj} (h : Obj.ty o ∉ l) : l.any (Obj.same E (.ty o)) = false := by
  rw [List.any_eq_false]
  intro x hx
  cases x with
  | ty o' =>
    simp only [Obj.same, beq_iff_eq]
    rintro rfl
    exact h hx
  | val o' => simp [Obj.same]

end Verif.Types
