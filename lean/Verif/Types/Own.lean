import Verif.Types.InstHas
import Verif.Value.Eq
/-!
# A value is an instance of its own type
-/
set_option autoImplicit false
set_option linter.unusedVariables false
namespace Verif.Types
open Verif.Value

/-! ## What holds of every type and value of the program -/

/-- A value that `exactD` is made of -/
def isDeepExact : Val → Bool
  | .arr _ | .map _ | .entry .. => true
  | _ => false

mutual
/-- The values in the exact types are what the constructor expects, and have no NaN in them. -/
def Ty.Ok : Ty → Prop
  | .exact v => isScalar v = true ∧ Value.WF v
  | .exactD _ v => isDeepExact v = true ∧ Value.WF v
  | .sizedArr _ e _ _ => e.Ok
  | .tuple _ ts _ => Oks ts
  | .sizedMap _ k v _ _ => k.Ok ∧ v.Ok
  | .struct _ _ fs => OkFields fs
  | .allOf _ ts => Oks ts
  | .allOfVal _ vs => WFs vs
  | .anyOf _ ts => Oks ts
  | .oneOf _ ts => Oks ts
  | .not t => t.Ok
  | .sens _ t => t.Ok
  | .metaT t => t.Ok
  | _ => True

def Oks : List Ty → Prop
  | [] => True
  | t :: ts => t.Ok ∧ Oks ts

def OkFields : List (Val × Bool × Ty) → Prop
  | [] => True
  | (k, _, t) :: r => (isScalar k || isDeepExact k) = true ∧ Value.WF k ∧ t.Ok ∧ OkFields r
end

theorem Oks_iff {ts : List Ty} : Oks ts ↔ ∀ t ∈ ts, t.Ok := by
  induction ts with
  | nil => simp [Oks]
  | cons t ts ih => simp [Oks, ih]

theorem OkFields_iff {fs : List (Val × Bool × Ty)} :
    OkFields fs ↔ ∀ f ∈ fs, (isScalar f.1 || isDeepExact f.1) = true ∧ Value.WF f.1 ∧ f.2.2.Ok := by
  induction fs with
  | nil => simp [OkFields]
  | cons f fs ih => obtain ⟨k, rq, t⟩ := f; simp [OkFields, ih, and_assoc]

mutual
/-- The number of members of every collection in the value is an `int`. -/
def Fits : Val → Prop
  | .sens v => Fits v
  | .arr vs => len vs ≤ maxInt ∧ FitsAll vs
  | .map es => len es ≤ maxInt ∧ FitsEntries es
  | .str s => len s ≤ maxInt
  | .bin b => len b ≤ maxInt
  | _ => True

def FitsAll : List Val → Prop
  | [] => True
  | v :: vs => Fits v ∧ FitsAll vs

def FitsEntries : List (Val × Val) → Prop
  | [] => True
  | (k, v) :: r => Fits k ∧ Fits v ∧ FitsEntries r
end

theorem FitsAll_iff {vs : List Val} : FitsAll vs ↔ ∀ v ∈ vs, Fits v := by
  induction vs with
  | nil => simp [FitsAll]
  | cons v vs ih => simp [FitsAll, ih]

theorem FitsEntries_iff {es : List (Val × Val)} : FitsEntries es ↔ ∀ e ∈ es, Fits e.1 ∧ Fits e.2 := by
  induction es with
  | nil => simp [FitsEntries]
  | cons e es ih => obtain ⟨k, v⟩ := e; simp [FitsEntries, ih, and_assoc]

/-! ## `has`, type by type -/

section
variable (E : Env)

theorem has_sizedArr {o : Oid} {e : Ty} {lo hi : Int} {v : Val} :
    has E (.sizedArr o e lo hi) v = true ↔ ∃ vs, v = .arr vs ∧ lo ≤ len vs ∧ len vs ≤ hi ∧ ∀ x ∈ vs, has E e x = true := by
  cases v <;> simp [has, hasP, and_assoc]

theorem has_sizedMap {o : Oid} {k t : Ty} {lo hi : Int} {v : Val} :
    has E (.sizedMap o k t lo hi) v = true ↔
      ∃ es, v = .map es ∧ lo ≤ len es ∧ len es ≤ hi ∧ ∀ e ∈ es, has E k e.1 = true ∧ has E t e.2 = true := by
  cases v <;> simp [has, hasP, and_assoc]

theorem has_sens {o : Oid} {t : Ty} {v : Val} : has E (.sens o t) v = true ↔ ∃ w, v = .sens w ∧ has E t w = true := by
  cases v <;> simp [has, hasP]

theorem has_allOf {o : Oid} {ts : List Ty} {v : Val} : has E (.allOf o ts) v = true ↔ ∀ t ∈ ts, has E t v = true := by
  simp [has, hasP, hasAll_eq]

theorem has_anyOf {o : Oid} {ts : List Ty} {v : Val} : has E (.anyOf o ts) v = true ↔ ∃ t ∈ ts, has E t v = true := by
  simp [has, hasP, hasAny_eq]

theorem has_oneOf {o : Oid} {ts : List Ty} {v : Val} :
    has E (.oneOf o ts) v = true ↔ ts.countP (fun t => has E t v) = 1 := by
  simp [has, hasP, hasCount_eq]

theorem has_not {t : Ty} {v : Val} : has E (.not t) v = !has E t v := by simp [has, hasP]

theorem has_tuple {o : Oid} {ts : List Ty} {v : Val} :
    has E (.tuple o ts false) v = true ↔ ∃ vs, v = .arr vs ∧ List.Forall₂ (fun t x => has E t x = true) ts vs := by
  have key : ∀ (ts : List Ty) (vs : List Val),
      hasZip E (fun o vs v => (typesOf o vs).all fun t => has0 E t v) ts vs = true ↔
        List.Forall₂ (fun t x => has E t x = true) ts vs := by
    intro ts
    induction ts with
    | nil => intro vs; cases vs <;> simp [hasZip]
    | cons t ts ih => intro vs; cases vs <;> simp [hasZip, ih, has]
  cases v <;> simp [has, hasP]
  exact key _ _

theorem has_variadic {o : Oid} {ts : List Ty} {t : Ty} {v : Val} :
    has E (.tuple o (ts ++ [t]) true) v = true ↔
      ∃ vs ws, v = .arr (vs ++ ws) ∧ List.Forall₂ (fun t x => has E t x = true) ts vs ∧ ∀ x ∈ ws, has E t x = true := by
  have key : ∀ (ts : List Ty) (us : List Val),
      hasVar E (fun o vs v => (typesOf o vs).all fun t => has0 E t v) (ts ++ [t]) us = true ↔
        ∃ vs ws, us = vs ++ ws ∧ List.Forall₂ (fun t x => has E t x = true) ts vs ∧ ∀ x ∈ ws, has E t x = true := by
    intro ts
    induction ts with
    | nil => intro us; simp [hasVar, has]
    | cons a ts ih =>
      intro us
      obtain ⟨b, r, e⟩ : ∃ b r, ts ++ [t] = b :: r := by cases ts <;> simp
      rw [List.cons_append, e]
      cases us with
      | nil => simp [hasVar]
      | cons u us =>
        rw [hasVar, Bool.and_eq_true, ← e, ih]
        constructor
        · rintro ⟨h, vs, ws, rfl, h1, h2⟩
          exact ⟨u :: vs, ws, rfl, .cons h h1, h2⟩
        · rintro ⟨vs, ws, e', h1, h2⟩
          cases h1 with
          | cons h h1 =>
            simp only [List.cons_append, List.cons.injEq] at e'
            obtain ⟨rfl, rfl⟩ := e'
            exact ⟨h, _, _, rfl, h1, h2⟩
  cases v <;> simp [has, hasP]
  exact key _ _

/-! ## The generic type of a value -/

theorem genAsg_sound {t u : Ty} (h : genAsg t u = true) : ∀ {v : Val}, t.Ok → u.Ok → Value.WF v → Fits v →
    has E u v = true → has E t v = true := by
  fun_induction genAsg t u with
  | case1 => intros; simp [has, hasP]
  | case10 => intro v _ _ _ _ hv; cases v <;> simp [has, hasP] at hv ⊢
  | case11 a b =>
    intro v ht hu hv _ hb
    simp only [has, hasP] at hb ⊢
    exact laws.trans _ _ _ ht.2 hu.2 hv h hb
  | case12 o e lo hi o' e' lo' hi' ih =>
    intro v ht hu hv hf hb
    simp only [Bool.and_eq_true, decide_eq_true_eq] at h
    rw [has_sizedArr] at hb ⊢
    obtain ⟨vs, rfl, h1, h2, h3⟩ := hb
    refine ⟨vs, rfl, by omega, by omega, fun x hx => ih h.2 ht hu ?_ ?_ (h3 x hx)⟩
    · exact (WFs_iff vs).1 hv x hx
    · exact FitsAll_iff.1 hf.2 x hx
  | case13 o k w lo hi o' k' w' lo' hi' ih1 ih2 =>
    intro v ht hu hv hf hb
    simp only [Bool.and_eq_true, decide_eq_true_eq] at h
    rw [has_sizedMap] at hb ⊢
    obtain ⟨es, rfl, h1, h2, h3⟩ := hb
    refine ⟨es, rfl, by omega, by omega, fun x hx => ?_⟩
    have hx1 := (WFes_iff es).1 hv.1 x hx
    have hx2 := FitsEntries_iff.1 hf.2 x hx
    exact ⟨ih1 h.1.2 ht.1 hu.1 hx1.1 hx2.1 (h3 x hx).1, ih2 h.2 ht.2 hu.2 hx1.2 hx2.2 (h3 x hx).2⟩
  | case14 o k w lo hi ih1 ih2 =>
    intro v ht hu hv hf hb
    simp only [Bool.and_eq_true, decide_eq_true_eq] at h
    rw [has_sizedMap]
    cases v <;> simp [has, hasP] at hb
    rename_i es
    refine ⟨es, rfl, by simp only [len]; omega, by have := hf.1; omega, fun x hx => ?_⟩
    have hx1 := (WFes_iff es).1 hv.1 x hx
    have hx2 := FitsEntries_iff.1 hf.2 x hx
    exact ⟨ih1 h.1.2 ht.1 trivial hx1.1 hx2.1 (by simp [has, hasP]), ih2 h.2 ht.2 trivial hx1.2 hx2.2 (by simp [has, hasP])⟩
  | case15 o t o' t' ih =>
    intro v ht hu hv hf hb
    rw [has_sens] at hb ⊢
    obtain ⟨w, rfl, hw⟩ := hb
    exact ⟨w, rfl, ih h ht hu hv hf hw⟩
  | case16 => cases h
  | _ => intro v _ _ _ _ hv; exact hv

theorem Ok_common {ts : List Ty} (h : ∀ t ∈ ts, t.Ok) : (commonGeneric ts).Ok := by
  rcases commonGeneric_mem ts with e | hm
  · rw [e]; trivial
  · exact h _ hm

mutual
theorem genericOf_Ok (o : Oid) : (v : Val) → Value.WF v → (genericOf o v).Ok
  | .nil, _ | .bool _, _ | .int _, _ | .float _, _ | .str _, _ | .time _, _ | .regexp _, _ | .entry .., _ => by
    simp [genericOf, Ty.Ok]
  | .bin b, h => by rw [genericOf]; exact ⟨rfl, h⟩
  | .sens v, h => by rw [genericOf]; exact genericOf_Ok _ v h
  | .arr vs, h => by rw [genericOf]; exact Ok_common (genericsOf_Ok o vs h)
  | .map es, h => by
    rw [genericOf]
    have h1 := Ok_common (genericKeys_Ok o es h.1)
    have h2 := Ok_common (genericVals_Ok o es h.1)
    split
    · trivial
    · exact ⟨h1, h2⟩

theorem genericsOf_Ok (o : Oid) : (vs : List Val) → WFs vs → ∀ t ∈ genericsOf o vs, t.Ok
  | [], _ => by simp [genericsOf]
  | v :: vs, h => by
    intro t ht
    rw [genericsOf] at ht
    rcases List.mem_cons.1 ht with rfl | ht
    · exact genericOf_Ok _ v h.1
    · exact genericsOf_Ok o vs h.2 t ht

theorem genericKeys_Ok (o : Oid) : (es : List (Val × Val)) → WFes es → ∀ t ∈ genericKeys o es, t.Ok
  | [], _ => by simp [genericKeys]
  | (k, v) :: r, h => by
    intro t ht
    rw [genericKeys] at ht
    rcases List.mem_cons.1 ht with rfl | ht
    · exact genericOf_Ok _ k h.1
    · exact genericKeys_Ok o r h.2.2 t ht

theorem genericVals_Ok (o : Oid) : (es : List (Val × Val)) → WFes es → ∀ t ∈ genericVals o es, t.Ok
  | [], _ => by simp [genericVals]
  | (k, v) :: r, h => by
    intro t ht
    rw [genericVals] at ht
    rcases List.mem_cons.1 ht with rfl | ht
    · exact genericOf_Ok _ v h.2.1
    · exact genericVals_Ok o r h.2.2 t ht
end

theorem typeOf_Ok (o : Oid) {v : Val} (h : Value.WF v) : (typeOf o v).Ok := by
  cases v <;> first | exact ⟨rfl, h⟩ | exact genericOf_Ok _ _ h | trivial

/-- An instance of one of the types is an instance of their common type. -/
theorem has_common {ts : List Ty} (hok : ∀ t ∈ ts, t.Ok) {t : Ty} (ht : t ∈ ts) {v : Val} (hv : Value.WF v) (hf : Fits v)
    (h : has E t v = true) : has E (commonGeneric ts) v = true := by
  cases ts with
  | nil => cases ht
  | cons a ts =>
    rw [commonGeneric]
    split
    · rename_i hall
      rcases List.mem_cons.1 ht with rfl | ht'
      · exact h
      · exact genAsg_sound E (List.all_eq_true.1 hall t ht') (hok a (by simp)) (hok t ht) hv hf h
    · simp [has, hasP]

mutual
theorem has_genericOf (o : Oid) : (v : Val) → Value.WF v → Fits v → has E (genericOf o v) v = true
  | .nil, _, _ | .bool _, _, _ | .int _, _, _ | .float _, _, _ | .str _, _, _ | .time _, _, _ | .regexp _, _, _
  | .entry .., _, _ => by simp [genericOf, has, hasP]
  | .bin b, h, _ => by simp only [genericOf, has, hasP]; exact laws.refl _ h
  | .sens v, h, hf => by rw [genericOf, has_sens]; exact ⟨v, rfl, has_genericOf _ v h hf⟩
  | .arr vs, h, hf => by
    rw [genericOf, has_sizedArr]
    refine ⟨vs, rfl, by simp only [len]; omega, hf.1, fun x hx => ?_⟩
    obtain ⟨t, ht, hx'⟩ := has_genericsOf o vs h hf.2 x hx
    exact has_common E (genericsOf_Ok o vs h) ht ((WFs_iff vs).1 h x hx) (FitsAll_iff.1 hf.2 x hx) hx'
  | .map es, h, hf => by
    rw [genericOf]
    have key : has E (.sizedMap o (commonGeneric (genericKeys o es)) (commonGeneric (genericVals o es)) 0 maxInt) (.map es) = true := by
      rw [has_sizedMap]
      refine ⟨es, rfl, by simp only [len]; omega, hf.1, fun x hx => ?_⟩
      obtain ⟨⟨t, ht, h1⟩, t', ht', h2⟩ := has_genericEntries o es h.1 hf.2 x hx
      have hx1 := (WFes_iff es).1 h.1 x hx
      have hx2 := FitsEntries_iff.1 hf.2 x hx
      exact ⟨has_common E (genericKeys_Ok o es h.1) ht hx1.1 hx2.1 h1, has_common E (genericVals_Ok o es h.1) ht' hx1.2 hx2.2 h2⟩
    split
    · simp [has, hasP]
    · exact key

theorem has_genericsOf (o : Oid) : (vs : List Val) → WFs vs → FitsAll vs →
    ∀ x ∈ vs, ∃ t ∈ genericsOf o vs, has E t x = true
  | [], _, _ => by simp
  | v :: vs, h, hf => by
    have h0 := has_genericOf (.part o vs.length) v h.1 hf.1
    intro x hx
    rw [genericsOf]
    rcases List.mem_cons.1 hx with rfl | hx
    · exact ⟨_, List.mem_cons_self, h0⟩
    · obtain ⟨t, ht, h'⟩ := has_genericsOf o vs h.2 hf.2 x hx
      exact ⟨t, by simp [ht], h'⟩

theorem has_genericEntries (o : Oid) : (es : List (Val × Val)) → WFes es → FitsEntries es →
    ∀ x ∈ es, (∃ t ∈ genericKeys o es, has E t x.1 = true) ∧ ∃ t ∈ genericVals o es, has E t x.2 = true
  | [], _, _ => by simp
  | (k, v) :: r, h, hf => by
    intro x hx
    rw [genericKeys, genericVals]
    rcases List.mem_cons.1 hx with rfl | hx
    · exact ⟨⟨_, List.mem_cons_self, has_genericOf _ k h.1 hf.1⟩, _, List.mem_cons_self, has_genericOf _ v h.2.1 hf.2.1⟩
    · obtain ⟨⟨t, ht, h1⟩, t', ht', h2⟩ := has_genericEntries o r h.2.2 hf.2.2 x hx
      exact ⟨⟨t, by simp [ht], h1⟩, t', by simp [ht'], h2⟩
end

theorem has_typeOf (o : Oid) {v : Val} (h : Value.WF v) (hf : Fits v) : has E (typeOf o v) v = true := by
  have r := laws.refl v h
  cases v <;> simp only [typeOf] <;> first
    | (simp only [has, hasP]; done)
    | (simp only [has, hasP]; exact r)
    | (rw [has_sens]; exact ⟨_, rfl, has_genericOf E _ _ h hf⟩)
end

end Verif.Types
