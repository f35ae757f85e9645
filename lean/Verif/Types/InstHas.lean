import Verif.Types.Inst
/-!
# `inst` computes `has`: the main induction
-/
set_option autoImplicit false
set_option linter.unusedVariables false
namespace Verif.Types
open Verif.Value

variable {E : Env} {A B : Oid → List Val → Val → Bool}

/-! ## The list functions of `hasP` -/

theorem hasAll_eq {ts : List Ty} {v : Val} : hasAll E A ts v = ts.all fun t => hasP E A t v := by
  induction ts with
  | nil => rfl
  | cons t ts ih => rw [hasAll, ih, List.all_cons]

theorem hasAny_eq {ts : List Ty} {v : Val} : hasAny E A ts v = ts.any fun t => hasP E A t v := by
  induction ts with
  | nil => rfl
  | cons t ts ih => rw [hasAny, ih, List.any_cons]

theorem hasCount_eq {ts : List Ty} {v : Val} : hasCount E A ts v = ts.countP fun t => hasP E A t v := by
  induction ts with
  | nil => rfl
  | cons t ts ih => rw [hasCount, ih, List.countP_cons, Nat.add_comm]

theorem children_length {p : Oid} {vs : List Val} : (children p vs).length = vs.length := by
  induction vs with
  | nil => rfl
  | cons v vs ih => rw [children, List.length_cons, ih, List.length_cons]

theorem children_all {p : Oid} {vs : List Val} {P : Val → Bool} : ((children p vs).all fun x => P x.2) = vs.all P := by
  induction vs with
  | nil => rfl
  | cons v vs ih => rw [children, List.all_cons, ih, List.all_cons]

theorem entryChildren_all {p : Oid} {es : List (Val × Val)} {P : Val → Val → Bool} :
    ((entryChildren p es).all fun x => P x.1.2 x.2.2) = es.all fun e => P e.1 e.2 := by
  induction es with
  | nil => rfl
  | cons e es ih => obtain ⟨k, v⟩ := e; rw [entryChildren, List.all_cons, ih, List.all_cons]

theorem hasZip_length {ts : List Ty} : ∀ {vs : List Val}, hasZip E A ts vs = true → vs.length = ts.length := by
  induction ts with
  | nil => intro vs h; cases vs with | nil => rfl | cons v vs => simp [hasZip] at h
  | cons t ts ih =>
    intro vs h
    cases vs with
    | nil => simp [hasZip] at h
    | cons v vs =>
      simp only [hasZip, Bool.and_eq_true] at h
      simp [ih h.2]

theorem hasZip_eq {p : Oid} {ts : List Ty} : ∀ {vs : List Val}, vs.length = ts.length →
    ((ts.zip (children p vs)).all fun x => hasP E A x.1 x.2.2) = hasZip E A ts vs := by
  induction ts with
  | nil => intro vs h; cases vs with | nil => rfl | cons v vs => simp at h
  | cons t ts ih =>
    intro vs h
    cases vs with
    | nil => simp at h
    | cons v vs =>
      rw [children, List.zip_cons_cons, List.all_cons, ih (by simpa using h), hasZip]

theorem hasVar_short : ∀ {ts : List Ty} {vs : List Val}, vs.length + 1 < ts.length → hasVar E A ts vs = false
  | [], _, h => by simp at h
  | [t], vs, h => by simp at h
  | t :: t' :: ts, [], _ => by simp [hasVar]
  | t :: t' :: ts, v :: vs, h => by
    rw [hasVar, hasVar_short (by simpa using h), Bool.and_false]

theorem hasVar_eq {p : Oid} : ∀ {ts : List Ty} {vs : List Val}, ts.length ≤ vs.length + 1 →
    ((variadicPairs ts (children p vs)).all fun x => hasP E A x.1 x.2.2) = hasVar E A ts vs
  | [], _, h => by simp [variadicPairs, hasVar]
  | [t], vs, h => by
    simp only [variadicPairs, hasVar]
    rw [List.all_map]
    exact children_all (P := fun v => hasP E A t v)
  | t :: t' :: ts, [], h => by simp at h
  | t :: t' :: ts, v :: vs, h => by
    rw [hasVar, children, variadicPairs, List.all_cons, hasVar_eq (by simpa using h)]
    simp

theorem variadicPairs_mem : ∀ {ts : List Ty} {vs : List (Oid × Val)} {x : Ty × Oid × Val}, x ∈ variadicPairs ts vs → x.1 ∈ ts
  | [], _, x, h => by simp [variadicPairs] at h
  | [t], vs, x, h => by
    simp only [variadicPairs, List.mem_map] at h
    obtain ⟨v, _, rfl⟩ := h
    simp
  | t :: t' :: ts, [], x, h => by simp [variadicPairs] at h
  | t :: t' :: ts, v :: vs, x, h => by
    rw [variadicPairs] at h
    · rcases List.mem_cons.1 h with rfl | h
      · simp
      · exact List.mem_cons_of_mem _ (variadicPairs_mem h)
    · simp

/-! ## The answer for `allOfValueType` does not matter for types of values -/

/-- The type has no `allOfValueType` in it, seen from outside. -/
def Indep (t : Ty) : Prop :=
  ∀ (E : Env) (A B : Oid → List Val → Val → Bool) (v : Val), hasP E A t v = hasP E B t v

theorem Indep.any : Indep .any := fun _ _ _ _ => by simp [hasP]

theorem Indep.common {ts : List Ty} (h : ∀ t ∈ ts, Indep t) : Indep (commonGeneric ts) := by
  rcases commonGeneric_mem ts with e | hm
  · rw [e]; exact .any
  · exact h _ hm

mutual
theorem genericOf_indep (o : Oid) : (v : Val) → Indep (genericOf o v)
  | .nil | .bool _ | .int _ | .float _ | .str _ | .bin _ | .time _ | .regexp _ | .entry .. => by
    intro E A B w; cases w <;> simp [genericOf, hasP]
  | .sens v => by
    have h := genericOf_indep (.part o 0) v
    intro E A B w
    cases w <;> simp only [genericOf, hasP]
    exact h E A B _
  | .arr vs => by
    have h := Indep.common (genericsOf_indep o vs)
    intro E A B w
    cases w <;> simp only [genericOf, hasP]
    congr 1
    exact congrArg _ (funext fun x => h E A B x)
  | .map es => by
    have hk := Indep.common (genericKeys_indep o es)
    have hv := Indep.common (genericVals_indep o es)
    rw [genericOf]
    generalize commonGeneric (genericKeys o es) = k at *
    generalize commonGeneric (genericVals o es) = v at *
    split
    · intro E A B w; cases w <;> simp [hasP]
    · intro E A B w
      cases w <;> simp only [hasP]
      congr 1
      exact congrArg _ (funext fun x => by rw [hk E A B, hv E A B])

theorem genericsOf_indep (o : Oid) : (vs : List Val) → ∀ t ∈ genericsOf o vs, Indep t
  | [] => by simp [genericsOf]
  | v :: vs => by
    have h := genericOf_indep (.part o vs.length) v
    have hs := genericsOf_indep o vs
    intro t ht
    rw [genericsOf] at ht
    rcases List.mem_cons.1 ht with rfl | ht
    · exact h
    · exact hs t ht

theorem genericKeys_indep (o : Oid) : (es : List (Val × Val)) → ∀ t ∈ genericKeys o es, Indep t
  | [] => by simp [genericKeys]
  | (k, v) :: r => by
    have h := genericOf_indep (.part o (2 * r.length)) k
    have hs := genericKeys_indep o r
    intro t ht
    rw [genericKeys] at ht
    rcases List.mem_cons.1 ht with rfl | ht
    · exact h
    · exact hs t ht

theorem genericVals_indep (o : Oid) : (es : List (Val × Val)) → ∀ t ∈ genericVals o es, Indep t
  | [] => by simp [genericVals]
  | (k, v) :: r => by
    have h := genericOf_indep (.part o (2 * r.length + 1)) v
    have hs := genericVals_indep o r
    intro t ht
    rw [genericVals] at ht
    rcases List.mem_cons.1 ht with rfl | ht
    · exact h
    · exact hs t ht
end

theorem typeOf_indep (o : Oid) (v : Val) : Indep (typeOf o v) := by
  cases v with
  | sens v =>
    have h := genericOf_indep (.part o 0) v
    intro E A B w
    cases w <;> simp only [typeOf, hasP]
    exact h E A B _
  | _ => intro E A B w; cases w <;> simp [typeOf, hasP]

theorem typesOf_indep (o : Oid) : (vs : List Val) → ∀ t ∈ typesOf o vs, Indep t
  | [] => by simp [typesOf]
  | v :: vs => by
    have h := typeOf_indep (.part o vs.length) v
    have hs := typesOf_indep o vs
    intro t ht
    rw [typesOf] at ht
    rcases List.mem_cons.1 ht with rfl | ht
    · exact h
    · exact hs t ht

theorem has_allOfVal {o : Oid} {vs : List Val} {v : Val} :
    has E (.allOfVal o vs) v = (typesOf o vs).all fun t => has E t v := by
  rw [has, hasP, Bool.eq_iff_iff, List.all_eq_true, List.all_eq_true]
  constructor
  · intro h t ht; rw [has, typesOf_indep o vs t ht E _ (fun _ _ _ => false)]; exact h t ht
  · intro h t ht; rw [has0, typesOf_indep o vs t ht E _ (fun o vs v => (typesOf o vs).all fun t => has0 E t v)]; exact h t ht

/-! ## Parts of a type -/

/-- The types that `DeepInstance` passes on to `Instance`. -/
def kids : Ty → List Ty
  | .sizedArr _ e _ _ => [e]
  | .tuple _ ts _ => ts
  | .sizedMap _ k v _ _ => [k, v]
  | .struct _ _ fs => fs.map (·.2.2)
  | .allOf _ ts => ts
  | .allOfVal o vs => typesOf o vs
  | .anyOf _ ts => ts
  | .oneOf _ ts => ts
  | _ => []

theorem kids_spec {t : Ty} {o : Oid} (ho : t.deepInst? = some o) (ha : t.Acyc) {c : Ty} (hc : c ∈ kids t) :
    c.depth < t.depth ∧ c.Acyc ∧ (∀ o', c.occ o' → t.occ o') ∧ ¬ c.occ o := by
  cases t <;> simp only [Ty.deepInst?, Option.some.injEq, reduceCtorEq] at ho <;> subst ho <;>
    simp only [kids, List.not_mem_nil, List.mem_cons, or_false] at hc
  case sizedArr o e lo hi =>
    subst hc
    exact ⟨by simp [Ty.depth], ha.2, fun o' h => .inr h, ha.1⟩
  case tuple o ts var =>
    refine ⟨?_, Acycs_iff.1 ha.2 c hc, fun o' h => .inr (occs_iff.2 ⟨c, hc, h⟩), fun h => ha.1 (occs_iff.2 ⟨c, hc, h⟩)⟩
    have := depth_le_depths hc
    simp only [Ty.depth]; omega
  case sizedMap o k v lo hi =>
    rcases hc with rfl | rfl
    · exact ⟨by simp only [Ty.depth]; omega, ha.2.2.1, fun o' h => .inr (.inl h), ha.1⟩
    · exact ⟨by simp only [Ty.depth]; omega, ha.2.2.2, fun o' h => .inr (.inr h), ha.2.1⟩
  case struct o add fs =>
    obtain ⟨f, hf, rfl⟩ := List.mem_map.1 hc
    refine ⟨?_, AcycFields_iff.1 ha.2 f hf, fun o' h => .inr (occFields_iff.2 ⟨f, hf, h⟩),
      fun h => ha.1 (occFields_iff.2 ⟨f, hf, h⟩)⟩
    have := depth_le_depthFields hf
    simp only [Ty.depth]; omega
  case allOf o ts =>
    refine ⟨?_, Acycs_iff.1 ha.2 c hc, fun o' h => .inr (occs_iff.2 ⟨c, hc, h⟩), fun h => ha.1 (occs_iff.2 ⟨c, hc, h⟩)⟩
    have := depth_le_depths hc
    simp only [Ty.depth]; omega
  case allOfVal o vs =>
    obtain ⟨k, h⟩ := typesOf_ok o vs c hc
    refine ⟨?_, h.acyc, fun o' h' => below_of_part (h.below _ h'), fun h' => not_below_part (h.below _ h')⟩
    have := h.depth
    simp only [Ty.depth]; omega
  case anyOf o ts =>
    refine ⟨?_, Acycs_iff.1 ha.2 c hc, fun o' h => .inr (occs_iff.2 ⟨c, hc, h⟩), fun h => ha.1 (occs_iff.2 ⟨c, hc, h⟩)⟩
    have := depth_le_depths hc
    simp only [Ty.depth]; omega
  case oneOf o ts =>
    refine ⟨?_, Acycs_iff.1 ha.2 c hc, fun o' h => .inr (occs_iff.2 ⟨c, hc, h⟩), fun h => ha.1 (occs_iff.2 ⟨c, hc, h⟩)⟩
    have := depth_le_depths hc
    simp only [Ty.depth]; omega

theorem occ_id {t : Ty} {o : Oid} (ho : t.deepInst? = some o) : t.occ o := by
  cases t <;> simp only [Ty.deepInst?, Option.some.injEq, reduceCtorEq] at ho <;> subst ho <;>
    simp [Ty.occ, Below.refl]

/-! ## DeepInstance -/

theorem structLoop_run {f : G → Ty → Oid × Val → Check} {J : G → Prop} {p : Oid} {es : List (Val × Val)}
    {fs : List (Val × Bool × Ty)}
    (h : ∀ x ∈ fs, ∀ k v g, J g → ∃ g', f g x.2.2 (.part p k, v) = some (has E x.2.2 v, g') ∧ J g') :
    ∀ {g : G} {oc : Nat}, J g → ∃ g', structLoop f p es g oc fs =
      some (if hasFields E (fun o vs v => (typesOf o vs).all fun t => has0 E t v) fs es then some (oc + countFields fs es)
        else none, g') ∧ J g' := by
  induction fs with
  | nil => intro g oc hg; exact ⟨g, rfl, hg⟩
  | cons x fs ih =>
    obtain ⟨k, rq, t⟩ := x
    intro g oc hg
    rw [structLoop, hasFields, countFields]
    have ih' := fun g oc => ih (fun y hy => h y (by simp [hy])) (g := g) (oc := oc)
    cases hm : mapGet es k with
    | none =>
      cases rq with
      | true => exact ⟨g, rfl, hg⟩
      | false =>
        obtain ⟨g', e, hg'⟩ := ih' g oc hg
        exact ⟨g', by simpa using e, hg'⟩
    | some v =>
      obtain ⟨g', e, hg'⟩ := h (k, rq, t) (by simp) (2 * fs.length + 1) v g hg
      dsimp only at e ⊢
      rw [e]
      cases hh : has E t v with
      | false =>
        rw [has] at hh
        exact ⟨g', by simp [hh], hg'⟩
      | true =>
        obtain ⟨g'', e', hg''⟩ := ih' g' (oc + 1) hg'
        rw [has] at hh
        refine ⟨g'', ?_, hg''⟩
        simp only [hh, Bool.true_and, Option.isSome_some, if_true]
        rw [e', Nat.add_assoc]

theorem children_part {p : Oid} {vs : List Val} {x : Oid × Val} (h : x ∈ children p vs) : ∃ k, x.1 = .part p k := by
  induction vs with
  | nil => simp [children] at h
  | cons v vs ih =>
    rw [children] at h
    rcases List.mem_cons.1 h with rfl | h
    · exact ⟨_, rfl⟩
    · exact ih h

theorem entryChildren_part {p : Oid} {es : List (Val × Val)} {x : (Oid × Val) × (Oid × Val)} (h : x ∈ entryChildren p es) :
    (∃ k, x.1.1 = .part p k) ∧ ∃ k, x.2.1 = .part p k := by
  induction es with
  | nil => simp [entryChildren] at h
  | cons e es ih =>
    obtain ⟨k, v⟩ := e
    rw [entryChildren] at h
    rcases List.mem_cons.1 h with rfl | h
    · exact ⟨⟨_, rfl⟩, ⟨_, rfl⟩⟩
    · exact ih h

theorem variadicPairs_mem' : ∀ {ts : List Ty} {vs : List (Oid × Val)} {x : Ty × Oid × Val}, x ∈ variadicPairs ts vs → x.2 ∈ vs
  | [], _, x, h => by simp [variadicPairs] at h
  | [t], vs, x, h => by
    simp only [variadicPairs, List.mem_map] at h
    obtain ⟨v, h, rfl⟩ := h
    exact h
  | t :: t' :: ts, [], x, h => by simp [variadicPairs] at h
  | t :: t' :: ts, v :: vs, x, h => by
    rw [variadicPairs] at h
    · rcases List.mem_cons.1 h with rfl | h
      · simp
      · exact List.mem_cons_of_mem _ (variadicPairs_mem' h)
    · simp

/-- Does `DeepInstance` ask whether the value itself is an instance of the parts? -/
def isTernary : Ty → Bool
  | .allOf .. | .allOfVal .. | .anyOf .. | .oneOf .. => true
  | _ => false

theorem deepInst_run {rec : G → Ty → Oid × Val → Check} {J : G → Prop} {t : Ty} {o : Oid} (ho : t.deepInst? = some o) {g : G} (p : Oid) (v : Val)
    (K : ∀ c ∈ kids t, ∀ (q : Oid) (w : Val), (∃ k, q = .part p k) ∨ (q = p ∧ isTernary t = true) → ∀ (g' : G), J g' →
      ∃ g'', rec g' c (q, w) = some (has E c w, g'') ∧ J g'')
    (N : ∀ c ∈ kids t, ∀ (p : Oid) (v : Val), ∃ g'', rec none c (p, v) = some (has E c v, g'')) (R : J g) :
    ∃ g', deepInst rec g p v t = some (has E t v, g') ∧ J g' := by
  cases t <;> simp only [Ty.deepInst?, reduceCtorEq] at ho
  case exactD o' w =>
    refine ⟨g, ?_, R⟩
    rw [deepInst, has, hasP]
  case sizedArr o' e lo hi =>
    have K := K e (by simp [kids])
    cases v with
    | arr vs =>
      simp only [deepInst, has, hasP]
      cases decide (lo ≤ len vs) && decide (len vs ≤ hi) with
      | false => exact ⟨g, rfl, R⟩
      | true =>
        simp only [if_true, Bool.true_and]
        cases he : e.isAny with
        | true =>
          simp only [if_true]
          refine ⟨g, ?_, R⟩
          cases e <;> simp [Ty.isAny] at he
          simp [hasP]
        | false =>
          simp only [Bool.false_eq_true, if_false]
          obtain ⟨g', h1, h2⟩ := allG_run (J := J) (P := fun x : Oid × Val => has E e x.2)
            (f := fun g x => rec g e x) (xs := children p vs) (fun x hx g' hg' => K x.1 x.2 (.inl (children_part hx)) g' hg') R
          refine ⟨g', ?_, h2⟩
          rw [h1, children_all (P := fun v => has E e v)]
          rfl
    | _ => simp only [deepInst, has, hasP]; exact ⟨g, rfl, R⟩
  case tuple o' ts var =>
    cases v with
    | arr vs =>
      cases var with
      | true =>
        simp only [deepInst, has, hasP, if_true]
        by_cases hl : len ts - 1 > len vs
        · rw [if_pos hl, hasVar_short (by simp only [len] at hl; omega)]
          exact ⟨g, rfl, R⟩
        · rw [if_neg hl]
          obtain ⟨g', h1, h2⟩ := allG_run (J := J) (P := fun x : Ty × Oid × Val => has E x.1 x.2.2)
            (f := fun g x => rec g x.1 x.2) (xs := variadicPairs ts (children p vs))
            (fun x hx g' hg' => K x.1 (variadicPairs_mem hx) x.2.1 x.2.2 (.inl (children_part (variadicPairs_mem' hx))) g' hg') R
          refine ⟨g', ?_, h2⟩
          rw [h1, ← hasVar_eq (p := p) (by simp only [len] at hl; omega)]
          rfl
      | false =>
        simp only [deepInst, has, hasP, Bool.false_eq_true, if_false]
        by_cases hl : vs.length ≠ ts.length
        · rw [if_pos hl]
          refine ⟨g, ?_, R⟩
          cases hz : hasZip E (fun o vs v => (typesOf o vs).all fun t => has0 E t v) ts vs with
          | false => rfl
          | true => exact absurd (hasZip_length hz) hl
        · rw [if_neg hl]
          obtain ⟨g', h1, h2⟩ := allG_run (J := J) (P := fun x : Ty × Oid × Val => has E x.1 x.2.2)
            (f := fun g x => rec g x.1 x.2) (xs := ts.zip (children p vs))
            (fun x hx g' hg' => K x.1 (List.of_mem_zip hx).1 x.2.1 x.2.2 (.inl (children_part (List.of_mem_zip hx).2)) g' hg') R
          refine ⟨g', ?_, h2⟩
          rw [h1, ← hasZip_eq (p := p) (by omega)]
          rfl
    | _ => cases var <;> simp only [deepInst, has, hasP] <;> exact ⟨g, rfl, R⟩
  case sizedMap o' kt vt lo hi =>
    have Kk := K kt (by simp [kids])
    have Kv := K vt (by simp [kids])
    have Nk := N kt (by simp [kids])
    cases v with
    | map es =>
      simp only [deepInst, has, hasP]
      cases decide (lo ≤ len es) && decide (len es ≤ hi) with
      | false => exact ⟨g, rfl, R⟩
      | true =>
        simp only [if_true, Bool.true_and]
        cases hk : kt.isAny with
        | true =>
          cases kt <;> simp [Ty.isAny] at hk
          simp only [if_true, hasP, Bool.true_and]
          cases hv : vt.isAny with
          | true =>
            cases vt <;> simp [Ty.isAny] at hv
            simp only [if_true]
            exact ⟨g, by simp [hasP], R⟩
          | false =>
            simp only [Bool.false_eq_true, if_false]
            obtain ⟨g', h1, h2⟩ := allG_run (J := J) (P := fun x : (Oid × Val) × (Oid × Val) => has E vt x.2.2)
              (f := fun g x => rec g vt x.2) (xs := entryChildren p es) (fun x hx g' hg' => Kv x.2.1 x.2.2 (.inl (entryChildren_part hx).2) g' hg') R
            refine ⟨g', ?_, h2⟩
            rw [h1, entryChildren_all (P := fun _ v => has E vt v)]
            rfl
        | false =>
          simp only [Bool.false_eq_true, if_false]
          cases hv : vt.isAny with
          | true =>
            cases vt <;> simp [Ty.isAny] at hv
            simp only [if_true, hasP, Bool.and_true]
            obtain ⟨g', h1, h2⟩ := allG_run (J := J) (P := fun x : (Oid × Val) × (Oid × Val) => has E kt x.1.2)
              (f := fun g x => (rec none kt x.1).map fun r => (r.1, g)) (xs := entryChildren p es)
              (fun x _ g' hg' => by
                obtain ⟨g'', e⟩ := Nk x.1.1 x.1.2
                exact ⟨g', by rw [e]; rfl, hg'⟩) R
            refine ⟨g', ?_, h2⟩
            rw [h1, entryChildren_all (P := fun k _ => has E kt k)]
            rfl
          | false =>
            simp only [Bool.false_eq_true, if_false]
            obtain ⟨g', h1, h2⟩ := allG_run (J := J)
              (P := fun x : (Oid × Val) × (Oid × Val) => has E kt x.1.2 && has E vt x.2.2)
              (f := fun g x => andG (rec g kt x.1) fun g => rec g vt x.2) (xs := entryChildren p es)
              (fun x hx g' hg' => by
                obtain ⟨g1, e1, r1⟩ := Kk x.1.1 x.1.2 (.inl (entryChildren_part hx).1) g' hg'
                obtain ⟨g2, e2, r2⟩ := Kv x.2.1 x.2.2 (.inl (entryChildren_part hx).2) g1 r1
                rw [e1]
                cases has E kt x.1.2 with
                | false => exact ⟨g1, rfl, r1⟩
                | true => exact ⟨g2, by rw [andG, e2, Bool.true_and], r2⟩) R
            refine ⟨g', ?_, h2⟩
            rw [h1, entryChildren_all (P := fun k v => has E kt k && has E vt v)]
            rfl
    | _ => simp only [deepInst, has, hasP]; exact ⟨g, rfl, R⟩
  case struct o' add fs =>
    cases v with
    | map es =>
      simp only [deepInst, has, hasP]
      obtain ⟨g', h1, h2⟩ := structLoop_run (E := E) (J := J) (p := p) (es := es) (fs := fs) (f := rec)
        (fun x hx k v g' hg' => K x.2.2 (by simp only [kids, List.mem_map]; exact ⟨x, hx, rfl⟩) _ v (.inl ⟨k, rfl⟩) g' hg') (oc := 0) R
      refine ⟨g', ?_, h2⟩
      rw [h1]
      cases hasFields E (fun o vs v => (typesOf o vs).all fun t => has0 E t v) fs es <;> simp
    | _ => simp only [deepInst, has, hasP]; exact ⟨g, rfl, R⟩
  case allOf o' ts =>
    obtain ⟨g', h1, h2⟩ := allG_run (J := J) (P := fun t : Ty => has E t v)
      (f := fun g t => rec g t (p, v)) (xs := ts) (fun x hx g' hg' => K x hx p v (.inr ⟨rfl, rfl⟩) g' hg') R
    refine ⟨g', ?_, h2⟩
    simp only [deepInst, has, hasP, hasAll_eq]
    exact h1
  case allOfVal o' vs =>
    obtain ⟨g', h1, h2⟩ := allG_run (J := J) (P := fun t : Ty => has E t v)
      (f := fun g t => rec g t (p, v)) (xs := typesOf o' vs) (fun x hx g' hg' => K x hx p v (.inr ⟨rfl, rfl⟩) g' hg') R
    refine ⟨g', ?_, h2⟩
    rw [deepInst, h1, has_allOfVal]
  case anyOf o' ts =>
    obtain ⟨g', h1, h2⟩ := anyG_run (J := J) (P := fun t : Ty => has E t v)
      (f := fun g t => rec g t (p, v)) (xs := ts) (fun x hx g' hg' => K x hx p v (.inr ⟨rfl, rfl⟩) g' hg') R
    refine ⟨g', ?_, h2⟩
    simp only [deepInst, has, hasP, hasAny_eq]
    exact h1
  case oneOf o' ts =>
    obtain ⟨g', h1, h2⟩ := oneG_run (J := J) (P := fun t : Ty => has E t v) (found := false)
      (f := fun g t => rec g t (p, v)) (xs := ts) (fun x hx g' hg' => K x hx p v (.inr ⟨rfl, rfl⟩) g' hg') R
    refine ⟨g', ?_, h2⟩
    simp only [deepInst, has, hasP, hasCount_eq]
    rw [h1]
    simp [has]

theorem deepInst_has {n : Nat}
    (IH : ∀ (t : Ty) (g : G) (p : Oid) (v : Val), t.depth < n → t.Acyc → Fresh g t →
      ∃ g', inst E n g t (p, v) = some (has E t v, g') ∧ GR g g')
    {t : Ty} {o : Oid} (ho : t.deepInst? = some o) (hd : t.depth < n + 1) (ha : t.Acyc) {g : G} (p : Oid) (v : Val)
    (hf : ∀ c ∈ kids t, Fresh g c) :
    ∃ g', deepInst (inst E n) g p v t = some (has E t v, g') ∧ GR g g' := by
  -- the parts of the type
  have K : ∀ c ∈ kids t, ∀ (p : Oid) (v : Val) (g' : G), GR g g' →
      ∃ g'', inst E n g' c (p, v) = some (has E c v, g'') ∧ GR g g'' := by
    intro c hc p v g' hg'
    have hs := kids_spec ho ha hc
    obtain ⟨g'', e, hr⟩ := IH c g' p v (by omega) hs.2.1 ((hf c hc).of_GR hg')
    exact ⟨g'', e, hg'.trans hr⟩
  have N : ∀ c ∈ kids t, ∀ (p : Oid) (v : Val), ∃ g'', inst E n none c (p, v) = some (has E c v, g'') := by
    intro c hc p v
    have hs := kids_spec ho ha hc
    obtain ⟨g'', e, hr⟩ := IH c none p v (by omega) hs.2.1 (.none c)
    exact ⟨g'', e⟩
  exact deepInst_run ho p v (fun c hc q w _ => K c hc q w) N (GR.refl g)

/-! ## Instance -/

theorem leafInst_has {rec : Ty → Oid → Val → Option Bool} {p : Oid} {t : Ty} (ht : t.deepInst? = none) (v : Val)
    (hn : ∀ u p v, (t = .not u ∨ ∃ o, t = .sens o u) → rec u p v = some (has E u v)) :
    leafInst E rec p t v = some (has E t v) := by
  cases t <;> simp only [Ty.deepInst?, reduceCtorEq] at ht
  case not u =>
    rw [leafInst, hn u p v (.inl rfl)]
    simp only [has, hasP]; rfl
  case sens o u =>
    cases v with
    | sens w =>
      rw [leafInst, hn u _ w (.inr ⟨o, rfl⟩)]
      simp only [has, hasP]
    | _ => simp only [leafInst, has, hasP]
  all_goals (cases v <;> simp only [leafInst, has, hasP])

theorem leaf_sub {t u : Ty} (h : t = .not u ∨ ∃ o, t = .sens o u) :
    u.depth < t.depth ∧ (t.Acyc → u.Acyc) := by
  rcases h with rfl | ⟨o, rfl⟩
  · exact ⟨by simp [Ty.depth], fun h => h⟩
  · exact ⟨by simp [Ty.depth], fun h => h.2⟩

/-- The recursion guard does not interfere with `Instance` when the type is not a part of itself. -/
theorem inst_has : ∀ (n : Nat) (t : Ty) (g : G) (p : Oid) (v : Val), t.depth < n → t.Acyc → Fresh g t →
    ∃ g', inst E n g t (p, v) = some (has E t v, g') ∧ GR g g' := by
  intro n
  induction n with
  | zero => intro t g p v h; omega
  | succ n IH =>
    intro t g p v hd ha hf
    rw [inst]
    cases ho : t.deepInst? with
    | none =>
      refine ⟨g, ?_, .refl g⟩
      dsimp only
      rw [leafInst_has ho v]
      · rfl
      · intro u p v hu
        have := leaf_sub hu
        obtain ⟨g', e, _⟩ := IH u none p v (by omega) (this.2 ha) (.none u)
        rw [e]; rfl
    | some o =>
      dsimp only
      have hk : ∀ c ∈ kids t, (∀ o', c.occ o' → t.occ o') ∧ ¬ c.occ o := fun c hc => (kids_spec ho ha hc).2.2
      cases isDeepVal v with
      | false =>
        simp only [Bool.false_eq_true, if_false]
        exact deepInst_has IH ho hd ha p v fun c hc => hf.sub (hk c hc).1
      | true =>
        simp only [if_true]
        cases g with
        | none =>
          obtain ⟨g', e, hr⟩ := deepInst_has IH ho hd ha p v
            (g := some { aSeen := [.ty o], bSeen := [.val p], seenInA := false, seenInB := false }) (by
              intro c hc s hs
              cases hs
              refine ⟨rfl, fun o' ho' => ?_⟩
              simp only [List.mem_singleton, Obj.ty.injEq] at ho'
              subst ho'
              exact (hk c hc).2)
          exact ⟨none, by rw [e]; rfl, trivial⟩
        | some s =>
          have hs := hf s rfl
          have hns : s.aSeen.any (Obj.same E (.ty o)) = false := not_any_same fun h => hs.2 o h (occ_id ho)
          have hc1 : (s.append E (.ty o) (.val p)).2.seenInA = false := by simp [Guard.append, hs.1, hns]
          have hc2 : (s.append E (.ty o) (.val p)).2.aSeen = .ty o :: s.aSeen := by simp [Guard.append, hs.1, hns]
          have hc3 : (s.append E (.ty o) (.val p)).1.seenInA = false := by simp [Guard.append, hs.1, hns]
          have hc4 : (s.append E (.ty o) (.val p)).1.aSeen = s.aSeen := by simp [Guard.append]
          dsimp only
          rw [show (s.append E (.ty o) (.val p)).2.hit E = false by simp [Guard.hit, hc1]]
          simp only [Bool.false_eq_true, if_false]
          obtain ⟨g', e, hr⟩ := deepInst_has IH ho hd ha p v (g := some (s.append E (.ty o) (.val p)).2) (by
              intro c hc s' hs'
              cases hs'
              refine ⟨hc1, fun o' ho' => ?_⟩
              rw [hc2] at ho'
              rcases List.mem_cons.1 ho' with h | h
              · cases h; exact (hk c hc).2
              · exact fun hcc => hs.2 o' h ((hk c hc).1 o' hcc))
          refine ⟨some (s.append E (.ty o) (.val p)).1, by rw [e]; rfl, ?_⟩
          exact ⟨hc4, by rw [hc3, hs.1]⟩

/-- The fuel of `instanceOf` is enough. -/
theorem inst_total {t : Ty} (ha : t.Acyc) (v : Val) : ∀ n, t.depth < n → ∃ g, inst E n none t (.user 0, v) = some (has E t v, g) :=
  fun n hn => by
    obtain ⟨g, e, _⟩ := inst_has n t none (.user 0) v hn ha (.none t)
    exact ⟨g, e⟩

theorem instanceOf_has {t : Ty} (ha : t.Acyc) (v : Val) : instanceOf E t v = has E t v := by
  obtain ⟨g, e⟩ := inst_total (E := E) ha v (t.depth + 1) (Nat.lt_succ_self _)
  rw [instanceOf, e]

end Verif.Types
