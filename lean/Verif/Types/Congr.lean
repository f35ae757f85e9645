import Verif.Types.StructLemmas
/-!
# Equal values are instances of the same types
-/
set_option autoImplicit false
set_option linter.unusedVariables false
set_option linter.unusedSimpArgs false
set_option linter.unusedSectionVars false
namespace Verif.Types
open Verif.Value

theorem eq_arr {vs : List Val} {w : Val} (h : eq (.arr vs) w = true) : ∃ ws, w = .arr ws ∧ List.Forall₂ (fun a b => eq a b = true) vs ws := by
  cases w <;> simp [eq] at h
  exact ⟨_, rfl, (eqSlice_iff _ _).1 h⟩

theorem eq_map {es : List (Val × Val)} {w : Val} (hv : Value.WF (.map es)) (hw : Value.WF w) (h : eq (.map es) w = true) :
    ∃ es', w = .map es' ∧ ∃ bs, bs.Perm es' ∧ List.Forall₂ REnt es bs := by
  cases w with
  | map es' =>
    rw [eq] at h
    rw [Value.WF] at hv hw
    have h1 := (WFes_iff _).1 hv.1
    have h2 := (WFes_iff _).1 hw.1
    exact ⟨_, rfl, (eqMaps_iff laws (fun e he => (h1 e he).1) (fun e he => (h2 e he).1) hv.2 hw.2).1 h⟩
  | _ => simp [eq] at h

theorem WF_arr {vs : List Val} (h : Value.WF (.arr vs)) : ∀ v ∈ vs, Value.WF v := by rw [Value.WF] at h; exact (WFs_iff vs).1 h
theorem WF_map {es : List (Val × Val)} (h : Value.WF (.map es)) : ∀ e ∈ es, Value.WF e.1 ∧ Value.WF e.2 := by
  rw [Value.WF] at h; exact (WFes_iff es).1 h.1

theorem all_forall₂ {α : Type} {R : α → α → Prop} {P : α → Bool} {as bs : List α} (h : List.Forall₂ R as bs)
    (hP : ∀ a ∈ as, ∀ b ∈ bs, R a b → P a = P b) : as.all P = bs.all P := by
  induction h with
  | nil => rfl
  | cons h1 h2 ih =>
    rw [List.all_cons, List.all_cons, hP _ (by simp) _ (by simp) h1, ih fun a ha b hb => hP a (by simp [ha]) b (by simp [hb])]

theorem all_perm {α : Type} {P : α → Bool} {as bs : List α} (h : as.Perm bs) : as.all P = bs.all P := by
  rw [Bool.eq_iff_iff, List.all_eq_true, List.all_eq_true]
  exact ⟨fun h' x hx => h' x (h.mem_iff.2 hx), fun h' x hx => h' x (h.mem_iff.1 hx)⟩

theorem forall₂_mem {α β : Type} {R : α → β → Prop} {as : List α} {bs : List β} (h : List.Forall₂ R as bs) {a : α} (ha : a ∈ as) : ∃ b ∈ bs, R a b := by
  induction h with
  | nil => cases ha
  | cons h1 h2 ih =>
    rcases List.mem_cons.1 ha with rfl | ha
    · exact ⟨_, by simp, h1⟩
    · obtain ⟨b, hb, hr⟩ := ih ha
      exact ⟨b, by simp [hb], hr⟩

/-- The value that a map has for a key, by membership -/
theorem mapGet_some_iff {es : List (Val × Val)} (hw : ∀ e ∈ es, Value.WF e.1) (hd : Diff es) {k v : Val} (hk : Value.WF k) :
    mapGet es k = some v ↔ ∃ e ∈ es, eq k e.1 = true ∧ e.2 = v := by
  rw [mapGet, Option.map_eq_some_iff]
  constructor
  · rintro ⟨e, he, rfl⟩
    exact ⟨e, List.mem_of_find?_eq_some he, by simpa using List.find?_some he, rfl⟩
  · rintro ⟨e, he, h1, rfl⟩
    have : (es.find? fun e => eq k e.1).isSome := by rw [List.find?_isSome]; exact ⟨e, he, h1⟩
    obtain ⟨e', he'⟩ := Option.isSome_iff_exists.1 this
    refine ⟨e', he', ?_⟩
    have h2 : eq k e'.1 = true := by simpa using List.find?_some he'
    have hm := List.mem_of_find?_eq_some he'
    have : e' = e := by
      have h3 := laws.trans _ _ _ (hw e he) hk (hw e' hm) (laws.symm _ _ hk (hw e he) h1) h2
      have h4 := laws.symm _ _ (hw e he) (hw e' hm) h3
      clear he' this
      induction es with
      | nil => cases he
      | cons x xs ih =>
        have hd' := List.pairwise_cons.1 hd
        rcases List.mem_cons.1 he with r1 | r1 <;> rcases List.mem_cons.1 hm with r2 | r2
        · rw [r1, r2]
        · rw [r1, hd'.1 e' r2] at h3; cases h3
        · rw [r2, hd'.1 e r1] at h4; cases h4
        · exact ih (fun e he => hw e (by simp [he])) hd'.2 r1 r2
    rw [this]

/-- Equal maps have equal values for a key. -/
theorem mapGet_congr {es es' : List (Val × Val)} (hv : Value.WF (.map es)) (hw : Value.WF (.map es')) (h : eq (.map es) (.map es') = true)
    {k : Val} (hk : Value.WF k) :
    (mapGet es k = none ∧ mapGet es' k = none) ∨ ∃ v w, mapGet es k = some v ∧ mapGet es' k = some w ∧ eq v w = true ∧ Value.WF v ∧ Value.WF w := by
  have dir : ∀ {es es' : List (Val × Val)} (hv : Value.WF (.map es)) (hw : Value.WF (.map es')) (h : eq (.map es) (.map es') = true) {v : Val},
      mapGet es k = some v → ∃ w, mapGet es' k = some w ∧ eq v w = true ∧ Value.WF v ∧ Value.WF w := by
    intro es es' hv hw h v hm
    obtain ⟨es'', e, bs, hp, hf⟩ := eq_map hv hw h
    cases e
    have hv' := WF_map hv
    have hw' := WF_map hw
    rw [Value.WF] at hv hw
    rw [mapGet_some_iff (fun e he => (hv' e he).1) hv.2 hk] at hm
    obtain ⟨a, ha, hka, rfl⟩ := hm
    obtain ⟨b, hb, hr⟩ := forall₂_mem hf ha
    have hb' := hp.mem_iff.1 hb
    exact ⟨b.2, (mapGet_some_iff (fun e he => (hw' e he).1) hw.2 hk).2
      ⟨b, hb', laws.trans _ _ _ hk (hv' a ha).1 (hw' b hb').1 hka hr.1, rfl⟩, hr.2, (hv' a ha).2, (hw' b hb').2⟩
  cases h1 : mapGet es k with
  | none =>
    cases h2 : mapGet es' k with
    | none => exact .inl ⟨rfl, rfl⟩
    | some w =>
      obtain ⟨v, h3, _⟩ := dir hw hv (laws.symm _ _ hv hw h) h2
      rw [h1] at h3; cases h3
  | some v =>
    obtain ⟨w, h3, h4⟩ := dir hv hw h h1
    exact .inr ⟨v, w, rfl, h3, h4⟩

theorem eq_congr {u v w : Val} (hu : Value.WF u) (hv : Value.WF v) (hw : Value.WF w) (h : eq v w = true) : eq u v = eq u w := by
  rw [Bool.eq_iff_iff]
  exact ⟨fun h' => laws.trans _ _ _ hu hv hw h' h, fun h' => laws.trans _ _ _ hu hw hv h' (laws.symm _ _ hv hw h)⟩

theorem F64.le_congr {a b c : F64} (h : Value.F64.eq b c = true) : F64.le a b = F64.le a c ∧ F64.le b a = F64.le c a ∧
    Value.F64.lt b a = Value.F64.lt c a := by
  obtain ⟨h1, h2, h3⟩ := (Value.F64.eq_iff _ _).1 h
  simp [F64.le, Value.F64.lt, Value.F64.eq, h1, h2, h3]

section
variable {E : Env} {A : Oid → List Val → Val → Bool}
  (hA : ∀ o vs v w, WFs vs → Value.WF v → Value.WF w → eq v w = true → A o vs v = A o vs w)
include hA

mutual
theorem hasP_congr : (t : Ty) → t.Ok → ∀ {v w : Val}, Value.WF v → Value.WF w → eq v w = true → hasP E A t v = hasP E A t w
  | .exactD o u, ht, v, w, hv, hw, h => by
    rw [Ty.Ok] at ht; simp only [hasP]; exact eq_congr ht.2 hv hw h
  | .exact u, ht, v, w, hv, hw, h => by
    rw [Ty.Ok] at ht; simp only [hasP]; exact eq_congr ht.2 hv hw h
  | .sizedArr o e lo hi, ht, v, w, hv, hw, h => by
    rw [Ty.Ok] at ht
    cases v with
    | arr vs =>
      obtain ⟨ws, rfl, hf⟩ := eq_arr h
      simp only [hasP, len, hf.length_eq]
      rw [all_forall₂ (P := hasP E A e) hf fun a ha b hb hr => hasP_congr e ht (WF_arr hv a ha) (WF_arr hw b hb) hr]
      rfl
    | _ => cases w <;> simp [eq] at h <;> simp [hasP]
  | .tuple o ts var, ht, v, w, hv, hw, h => by
    rw [Ty.Ok] at ht
    cases v with
    | arr vs =>
      obtain ⟨ws, rfl, hf⟩ := eq_arr h
      cases var <;> simp only [hasP]
      · exact hasZip_congr ts ht (WF_arr hv) (WF_arr hw) hf
      · exact hasVar_congr ts ht (WF_arr hv) (WF_arr hw) hf
    | _ => cases w <;> simp [eq] at h <;> cases var <;> simp [hasP]
  | .sizedMap o k t lo hi, ht, v, w, hv, hw, h => by
    rw [Ty.Ok] at ht
    cases v with
    | map es =>
      obtain ⟨es', rfl, bs, hp, hf⟩ := eq_map hv hw h
      simp only [hasP, len, hf.length_eq, hp.length_eq]
      rw [← all_perm hp, all_forall₂ (P := fun e => hasP E A k e.1 && hasP E A t e.2) hf fun a ha b hb hr => by
        have h1 := WF_map hv a ha
        have h2 := WF_map hw b (hp.mem_iff.1 hb)
        rw [hasP_congr k ht.1 h1.1 h2.1 hr.1, hasP_congr t ht.2 h1.2 h2.2 hr.2]]
      rfl
    | _ => cases w <;> simp [eq] at h <;> simp [hasP]
  | .struct o add fs, ht, v, w, hv, hw, h => by
    rw [Ty.Ok] at ht
    cases v with
    | map es =>
      obtain ⟨es', rfl, bs, hp, hf⟩ := eq_map hv hw h
      have hl : es.length = es'.length := hf.length_eq.trans hp.length_eq
      have hc : countFields fs es = countFields fs es' := by
        clear hf hp hl
        induction fs with
        | nil => rfl
        | cons f fs ih =>
          obtain ⟨k, rq, t⟩ := f
          rw [OkFields] at ht
          rw [countFields, countFields, ih ht.2.2.2]
          rcases mapGet_congr hv hw h ht.2.1 with ⟨h1, h2⟩ | ⟨v, w, h1, h2, _⟩ <;> rw [h1, h2] <;> simp
      simp only [hasP, hl, hc, hasFields_congr fs ht hv hw h]
    | _ => cases w <;> simp [eq] at h <;> simp [hasP]
  | .allOf o ts, ht, v, w, hv, hw, h => by
    rw [Ty.Ok] at ht; simp only [hasP]; exact (hasTs_congr ts ht hv hw h).1
  | .allOfVal o vs, ht, v, w, hv, hw, h => by
    rw [Ty.Ok] at ht; simp only [hasP]; exact hA o vs v w ht hv hw h
  | .anyOf o ts, ht, v, w, hv, hw, h => by
    rw [Ty.Ok] at ht; simp only [hasP]; exact (hasTs_congr ts ht hv hw h).2.1
  | .oneOf o ts, ht, v, w, hv, hw, h => by
    rw [Ty.Ok] at ht; simp only [hasP]; rw [(hasTs_congr ts ht hv hw h).2.2]
  | .not t, ht, v, w, hv, hw, h => by
    rw [Ty.Ok] at ht; simp only [hasP]; rw [hasP_congr t ht hv hw h]
  | .sens o t, ht, v, w, hv, hw, h => by
    rw [Ty.Ok] at ht
    cases v with
    | sens v =>
      cases w with
      | sens w =>
        rw [Value.WF] at hv hw
        rw [eq] at h
        simp only [hasP]; exact hasP_congr t ht hv hw h
      | _ => simp [eq] at h
    | _ => cases w <;> simp [eq] at h <;> simp [hasP]
  | .any, _, v, w, hv, hw, h => by simp [hasP]
  | .nilT, _, v, w, hv, hw, h => by cases v <;> cases w <;> simp [eq] at h <;> simp [hasP]
  | .boolT, _, v, w, hv, hw, h => by cases v <;> cases w <;> simp [eq] at h <;> simp [hasP]
  | .intT, _, v, w, hv, hw, h => by cases v <;> cases w <;> simp [eq] at h <;> simp [hasP]
  | .floatT, _, v, w, hv, hw, h => by cases v <;> cases w <;> simp [eq] at h <;> simp [hasP]
  | .strT, _, v, w, hv, hw, h => by cases v <;> cases w <;> simp [eq] at h <;> simp [hasP]
  | .regexpT, _, v, w, hv, hw, h => by cases v <;> cases w <;> simp [eq] at h <;> simp [hasP]
  | .timeT, _, v, w, hv, hw, h => by cases v <;> cases w <;> simp [eq] at h <;> simp [hasP]
  | .arrT, _, v, w, hv, hw, h => by cases v <;> cases w <;> simp [eq] at h <;> simp [hasP]
  | .mapT, _, v, w, hv, hw, h => by cases v <;> cases w <;> simp [eq] at h <;> simp [hasP]
  | .intRange .., _, v, w, hv, hw, h => by cases v <;> cases w <;> simp [eq] at h <;> simp [hasP, h]
  | .floatRange lo hi incl, _, v, w, hv, hw, h => by
    cases v with
    | float f =>
      cases w with
      | float f' =>
        rw [eq] at h
        simp only [hasP, (F64.le_congr (a := lo) h).1, (F64.le_congr (a := hi) h).2]
      | _ => simp [eq] at h
    | _ => cases w <;> simp [eq] at h <;> simp [hasP]
  | .sizedStr .., _, v, w, hv, hw, h => by cases v <;> cases w <;> simp [eq] at h <;> simp [hasP, h]
  | .ciStr .., _, v, w, hv, hw, h => by cases v <;> cases w <;> simp [eq] at h <;> simp [hasP, h]
  | .pattern .., _, v, w, hv, hw, h => by cases v <;> cases w <;> simp [eq] at h <;> simp [hasP, h]
  | .bin .., _, v, w, hv, hw, h => by cases v <;> cases w <;> simp [eq] at h <;> simp [hasP, h]
  | .metaT .., _, v, w, hv, hw, h => by simp [hasP]
  | .metaMeta, _, v, w, hv, hw, h => by simp [hasP]

theorem hasZip_congr : (ts : List Ty) → Oks ts → ∀ {vs ws : List Val}, (∀ v ∈ vs, Value.WF v) → (∀ v ∈ ws, Value.WF v) →
    List.Forall₂ (fun a b => eq a b = true) vs ws → hasZip E A ts vs = hasZip E A ts ws
  | [], _, vs, ws, hv, hw, h => by cases h <;> simp [hasZip]
  | t :: ts, ht, vs, ws, hv, hw, h => by
    rw [Oks] at ht
    cases h with
    | nil => rfl
    | cons h1 h2 =>
      rw [hasZip, hasZip, hasP_congr t ht.1 (hv _ (by simp)) (hw _ (by simp)) h1,
        hasZip_congr ts ht.2 (fun v h => hv v (by simp [h])) (fun v h => hw v (by simp [h])) h2]

theorem hasVar_congr : (ts : List Ty) → Oks ts → ∀ {vs ws : List Val}, (∀ v ∈ vs, Value.WF v) → (∀ v ∈ ws, Value.WF v) →
    List.Forall₂ (fun a b => eq a b = true) vs ws → hasVar E A ts vs = hasVar E A ts ws
  | [], _, vs, ws, hv, hw, h => by cases h <;> simp [hasVar]
  | [t], ht, vs, ws, hv, hw, h => by
    rw [Oks] at ht
    simp only [hasVar]
    exact all_forall₂ h fun a ha b hb hr => hasP_congr t ht.1 (hv a ha) (hw b hb) hr
  | t :: t' :: ts, ht, vs, ws, hv, hw, h => by
    rw [Oks] at ht
    cases h with
    | nil => simp [hasVar]
    | cons h1 h2 =>
      rw [hasVar, hasVar, hasP_congr t ht.1 (hv _ (by simp)) (hw _ (by simp)) h1,
        hasVar_congr (t' :: ts) ht.2 (fun v h => hv v (by simp [h])) (fun v h => hw v (by simp [h])) h2]

theorem hasTs_congr : (ts : List Ty) → Oks ts → ∀ {v w : Val}, Value.WF v → Value.WF w → eq v w = true →
    hasAll E A ts v = hasAll E A ts w ∧ hasAny E A ts v = hasAny E A ts w ∧ hasCount E A ts v = hasCount E A ts w
  | [], _, v, w, hv, hw, h => by simp [hasAll, hasAny, hasCount]
  | t :: ts, ht, v, w, hv, hw, h => by
    rw [Oks] at ht
    obtain ⟨h1, h2, h3⟩ := hasTs_congr ts ht.2 hv hw h
    simp only [hasAll, hasAny, hasCount, h1, h2, h3, hasP_congr t ht.1 hv hw h, and_self]

theorem hasFields_congr : (fs : List (Val × Bool × Ty)) → OkFields fs → ∀ {es es' : List (Val × Val)}, Value.WF (.map es) → Value.WF (.map es') →
    eq (.map es) (.map es') = true → hasFields E A fs es = hasFields E A fs es'
  | [], _, es, es', hv, hw, h => by simp [hasFields]
  | (k, rq, t) :: fs, ht, es, es', hv, hw, h => by
    rw [OkFields] at ht
    rw [hasFields, hasFields, hasFields_congr fs ht.2.2.2 hv hw h]
    rcases mapGet_congr hv hw h ht.2.1 with ⟨h1, h2⟩ | ⟨v, w, h1, h2, h3, h4, h5⟩ <;> rw [h1, h2]
    simp only [hasP_congr t ht.2.2.1 h4 h5 h3]
end
end

variable {E : Env}

theorem typesOf_Ok (o : Oid) : (vs : List Val) → WFs vs → ∀ t ∈ typesOf o vs, t.Ok
  | [], _, t, h => by simp [typesOf] at h
  | v :: vs, hw, t, h => by
    rw [WFs] at hw
    rw [typesOf] at h
    rcases List.mem_cons.1 h with rfl | h
    · exact typeOf_Ok _ hw.1
    · exact typesOf_Ok o vs hw.2 t h

theorem all_congr_mem {α : Type} {P Q : α → Bool} {l : List α} (h : ∀ x ∈ l, P x = Q x) : l.all P = l.all Q := by
  induction l with
  | nil => rfl
  | cons a l ih => rw [List.all_cons, List.all_cons, h a (by simp), ih fun x hx => h x (by simp [hx])]

/-- Equal values are instances of the same types. -/
theorem has_congr {t : Ty} (ht : t.Ok) {v w : Val} (hv : Value.WF v) (hw : Value.WF w) (h : eq v w = true) : has E t v = has E t w := by
  refine hasP_congr (fun o vs v w hvs hv hw h => ?_) t ht hv hw h
  refine all_congr_mem fun t ht => ?_
  exact hasP_congr (fun _ _ _ _ _ _ _ _ => rfl) t (typesOf_Ok o vs hvs t ht) hv hw h

end Verif.Types
