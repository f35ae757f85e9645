import Verif.Types.EqSound
/-!
# Assignable, case by case: when the answers for the parts are right, so is the answer for the whole
-/
set_option autoImplicit false
set_option linter.unusedVariables false
set_option linter.unusedSimpArgs false
set_option linter.unnecessarySeqFocus false
namespace Verif.Types
open Verif.Value

variable {E : Env}

/-- Every instance of `u` is an instance of `t`. -/
def Incl (E : Env) (u t : Ty) : Prop := ∀ v, Value.WF v → Fits v → has E u v = true → has E t v = true

theorem Incl.refl (t : Ty) : Incl E t t := fun _ _ _ h => h
theorem Incl.trans {t u w : Ty} (h : Incl E t u) (h' : Incl E u w) : Incl E t w := fun v hv hf h1 => h' v hv hf (h v hv hf h1)

/-! ## The types to which the result applies -/

/-- What the type on the right may have, and the type on the left then may not -/
structure Feat where
  /-- variadic tuples on the right, none on the left -/
  var : Bool
  /-- struct types that allow other keys on the right; on the left no struct types that do not, and no sized map types -/
  add : Bool
  /-- case insensitive string types on the right, no sized string types on the left -/
  ci : Bool

/-- neither `allOf` nor `anyOf` of such -/
inductive AndFree : Ty → Prop where
  | mk {t : Ty} (h1 : ∀ o ts, t ≠ .allOf o ts) (h2 : ∀ o vs, t ≠ .allOfVal o vs) (h3 : ∀ o ts, t = .anyOf o ts → ∀ c ∈ ts, AndFree c) : AndFree t

/-- What is asked of each node of the type on the left -/
def Lnode (F : Feat) : Ty → Prop
  | .oneOf .. | .not _ | .allOfVal .. => False
  | .anyOf _ ts => ts ≠ []
  | .sizedArr _ e _ _ => AndFree e
  | .sizedMap _ k v _ _ => AndFree k ∧ AndFree v ∧ F.add = false
  | .intRange _ max incl => incl = true ∨ max ≠ minI64
  | .floatRange min _ _ => Value.F64.isNaN min = false
  | .struct _ add fs => DistinctKeys fs ∧ (add = false → F.add = false)
  | .tuple _ ts var => var = true → ts ≠ [] ∧ F.var = false
  | .sizedStr .. => F.ci = false
  | _ => True

/-- What is asked of each node of the type on the right -/
def Rnode (F : Feat) : Ty → Prop
  | .exactD _ v => NoSens v
  | .allOfVal _ vs => vs ≠ [] ∧ ∀ v ∈ vs, NoSens v
  | .allOf _ ts => ts ≠ []
  | .tuple _ ts var => ts.Pairwise (fun t u => t = u ∨ Apart t u) ∧ (var = true → ts ≠ [] ∧ F.var = true)
  | .struct _ add fs => DistinctKeys fs ∧ (∀ f ∈ fs, NoSens f.1) ∧ (add = true → F.add = true)
  | .ciStr _ => F.ci = true
  | _ => True

structure Left (F : Feat) (a : Ty) : Prop where
  every : Every (Lnode F) a
  acyc : a.Acyc
  ok : a.Ok

structure Right (F : Feat) (b : Ty) : Prop where
  every : Every (Rnode F) b
  tree : Tree b
  ok : b.Ok

theorem Left.part {F : Feat} {a c : Ty} (h : Left F a) (hc : c ∈ parts a) : Left F c := ⟨h.every.part hc, part_Acyc h.acyc hc, part_Ok h.ok hc⟩
theorem Right.part {F : Feat} {a c : Ty} (h : Right F a) (hc : c ∈ parts a) : Right F c := ⟨h.every.part hc, Every.part h.tree hc, part_Ok h.ok hc⟩

theorem Right.typeOf {F : Feat} {o : Oid} {t : Ty} (h : IsTypeOf o t) : Right F t :=
  ⟨h.every trivial (fun _ _ => trivial) fun _ _ h _ _ => h, h.from.1, h.ok⟩

theorem Right.eqCond {F : Feat} {b : Ty} (h : Right F b) : EqCond b :=
  ⟨h.tree, h.ok, h.every.mono fun t ht => by cases t <;> simp only [eqNode] <;> first | exact ht | exact ht.2⟩

/-- What the type on the right stands for: itself, or, when it was made along the way, the union of some types -/
inductive View (F : Feat) : Ty → List Ty → Bool → Prop where
  | plain {b : Ty} (h : Right F b) : View F b [b] false
  | union {o : Oid} {us : List Ty} (h : ∀ u ∈ us, Right F u) : View F (.allOf o us) us true
  | unionVal {o : Oid} {vs : List Val} (h : ∀ v ∈ vs, NoSens v ∧ Value.WF v) : View F (.allOfVal o vs) (typesOf o vs) true

/-- The values that a type is made of -/
def holds : Ty → List Val
  | .exactD _ (.arr vs) => vs
  | .exactD _ (.map es) => es.map (·.1) ++ es.map (·.2)
  | .struct _ _ fs => fs.map (·.1)
  | _ => []

/-- The types that a type on the right is taken apart into -/
inductive Kid (b : Ty) : Ty → List Ty → Bool → Prop where
  | part {o : Oid} {d : Ty} (ho : b.deep? = some o) (h : d ∈ parts b) : Kid b d [d] false
  | typ {o : Oid} {d : Ty} (ho : b.deep? = some o) (h : IsTypeOf o d) (hm : ∃ o', ∃ v ∈ holds b, d = typeOf o' v) : Kid b d [d] false
  | any : Kid b .any [.any] false
  | union {o o' : Oid} {us : List Ty} (ht : isTupleStruct b = true) (ho : b.deep? = some o) (hb : Below o' o) (hne : o' ≠ o)
      (hu : ∀ u ∈ us, u ∈ parts b ∨ IsTypeOf o' u) (hl : 2 ≤ (parts b).length)
      (hm : ∀ u ∈ us, u ∈ parts b ∨ ∃ o', ∃ v ∈ holds b, u = typeOf o' v) : Kid b (.allOf o' us) us true
  | unionVal {o o' : Oid} {vs : List Val} (ho : b.deep? = some o) (hb : Below o' o) (hne : o' ≠ o) (hv : ∀ v ∈ vs, NoSens v ∧ Value.WF v)
      (hm : ∀ v ∈ vs, v ∈ holds b) : Kid b (.allOfVal o' vs) (typesOf o' vs) true

theorem Right.any {F : Feat} : Right F .any :=
  ⟨.leaf trivial rfl, .leaf (fun o h => by cases h) rfl, trivial⟩

theorem Kid.view {F : Feat} {b d : Ty} {us : List Ty} {fl : Bool} (hb : Right F b) (h : Kid b d us fl) : View F d us fl := by
  cases h with
  | part _ h => exact .plain (hb.part h)
  | typ _ h _ => exact .plain (.typeOf h)
  | any => exact .plain .any
  | union ht ho hb' hne hu _ _ => exact .union fun u hm => (hu u hm).elim hb.part Right.typeOf
  | unionVal ho hb' hne hv _ => exact .unionVal hv

theorem owns_below {t : Ty} {o x : Oid} (ho : t.deep? = some o) (h : Below x o) : t.owns x := ⟨o, occ_deep ho, h⟩

theorem Kid.from {F : Feat} {b d : Ty} {us : List Ty} {fl : Bool} (hb : Right F b) (h : Kid b d us fl) : From b d := by
  cases h with
  | part _ h => exact .part hb.tree h
  | typ ho h _ =>
    exact ⟨h.from.1, fun x hx => owns_below ho (h.from.2 x hx).1, fun o' ho' hc => by rw [ho] at ho'; cases ho'; exact (h.from.2 _ hc).2 rfl⟩
  | any => exact ⟨.leaf (fun o h => by cases h) rfl, fun o h => (by obtain ⟨o', h, _⟩ := h; simp [Ty.occ] at h), fun o' ho' h => (by obtain ⟨o', h, _⟩ := h; simp [Ty.occ] at h)⟩
  | @union o o' us ht ho hb' hne hu _ _ =>
    have hown : ∀ u ∈ us, ∀ x, u.owns x → b.owns x ∧ x ≠ o ∧ x ≠ o' := by
      intro u hm x hx
      rcases hu u hm with h | h
      · exact ⟨part_owns h hx, fun e => hb.tree.not_owns h ho (e ▸ hx), fun e => hb.tree.not_owns_part ht h ho hb' (e ▸ hx)⟩
      · have h1 := h.from.2 x hx
        exact ⟨owns_below ho (h1.1.trans hb'), fun e => hne (below_antisymm hb' (e ▸ h1.1)), h1.2⟩
    have hsub : ∀ x, Ty.owns (.allOf o' us) x → x ≠ o ∧ b.owns x := by
      rintro x ⟨y, h1, h2⟩
      rw [Ty.occ, occs_iff] at h1
      rcases h1 with rfl | ⟨u, hm, h1⟩
      · exact ⟨fun e => hne (below_antisymm hb' (e ▸ h2)), owns_below ho (h2.trans hb')⟩
      · have := hown u hm x ⟨y, h1, h2⟩
        exact ⟨this.2.1, this.1⟩
    refine ⟨.mk ?_ ?_, fun x hx => (hsub x hx).2, fun o1 ho1 hc => ?_⟩
    · intro o1 ho1 c hc y hy
      cases ho1
      have hm : c ∈ us := hc
      refine ⟨fun h' => ?_, fun h => by cases h⟩
      exact (hown c hm o' ⟨y, hy, h'⟩).2.2 rfl
    · intro c hc
      have hm : c ∈ us := hc
      rcases hu c hm with h | h
      · exact Every.part hb.tree h
      · exact h.from.1
    · rw [ho] at ho1; cases ho1
      exact (hsub _ hc).1 rfl
  | @unionVal o o' vs ho hb' hne hv _ =>
    have hsub : ∀ x, Ty.owns (.allOfVal o' vs) x → x ≠ o ∧ b.owns x := by
      rintro x ⟨y, h1, h2⟩
      rw [Ty.occ] at h1
      have := h2.trans h1
      exact ⟨fun e => hne (below_antisymm hb' (e ▸ this)), owns_below ho (this.trans hb')⟩
    refine ⟨.leaf (fun o1 _ c hc => by simp [parts] at hc) rfl, fun x hx => (hsub x hx).2, fun o1 ho1 hc => ?_⟩
    rw [ho] at ho1; cases ho1
    exact (hsub _ hc).1 rfl

/-! ## Elements of arrays, keys and values of maps -/

theorem uniqueTy_kept {eqT : Ty → Ty → Bool} {ts : List Ty} : ∀ {u : List Ty}, ∀ x ∈ u, x ∈ uniqueTy E eqT u ts := by
  induction ts with
  | nil => intro u x hx; simpa [uniqueTy] using hx
  | cons t ts ih =>
    intro u x hx
    rw [uniqueTy]
    split
    · exact ih x hx
    · exact ih x (by simp [hx])

theorem uniqueTy_covers {eqT : Ty → Ty → Bool} {ts : List Ty} (u : List Ty) (h : ∀ t ∈ u ++ ts, ∀ x ∈ u ++ ts, eqT t x = true → Incl E t x) :
    ∀ t ∈ u ++ ts, ∃ x ∈ uniqueTy E eqT u ts, Incl E t x := by
  induction ts generalizing u with
  | nil => intro t ht; exact ⟨t, by simpa [uniqueTy] using ht, .refl t⟩
  | cons a ts ih =>
    intro t ht
    rw [uniqueTy]
    split
    · rename_i hc
      have ih := ih u fun t ht x hx => h t (by simp at ht ⊢; grind) x (by simp at hx ⊢; grind)
      rcases List.mem_append.1 ht with h1 | h1
      · exact ih t (by simp [h1])
      · rcases List.mem_cons.1 h1 with rfl | h1
        · rw [List.any_eq_true] at hc
          obtain ⟨x, hx, hc⟩ := hc
          rw [Bool.and_eq_true] at hc
          exact ⟨x, uniqueTy_kept x hx, h t (by simp) x (by simp [hx]) hc.2⟩
        · exact ih t (by simp [h1])
    · exact ih (a :: u) (fun t ht x hx => h t (by simp at ht ⊢; grind) x (by simp at hx ⊢; grind)) t (by simp at ht ⊢; grind)

theorem pairwise_cases {R : Ty → Ty → Prop} (hs : ∀ a b, R a b → R b a) {ts : List Ty} (h : ts.Pairwise R) {a b : Ty} (ha : a ∈ ts) (hb : b ∈ ts) :
    a = b ∨ R a b := by
  induction ts with
  | nil => cases ha
  | cons t ts ih =>
    have := List.pairwise_cons.1 h
    rcases List.mem_cons.1 ha with h1 | h1 <;> rcases List.mem_cons.1 hb with h2 | h2
    · exact .inl (h1.trans h2.symm)
    · exact .inr (h1 ▸ this.1 b h2)
    · exact .inr (hs _ _ (h2 ▸ this.1 a h1))
    · exact ih this.2 h1 h2

theorem elemAt_lt {ts : List Ty} {var : Bool} {i : Nat} (hv : var = true → ts ≠ []) (h : var = false → i < ts.length) : ∃ t, elemAt ts var i = some t := by
  unfold elemAt
  cases var with
  | false => simp [h rfl]
  | true =>
    have : 0 < ts.length := List.length_pos_iff.2 (hv rfl)
    simp only [if_true]
    by_cases hi : i < ts.length - 1
    · exact ⟨ts[i]'(by omega), by rw [if_pos hi]; exact List.getElem?_eq_getElem (by omega)⟩
    · exact ⟨ts[ts.length - 1]'(by omega), by rw [if_neg hi]; exact List.getElem?_eq_getElem (by omega)⟩

theorem elemAt_cons {t t' : Ty} {ts : List Ty} {var : Bool} {i : Nat} : elemAt (t :: t' :: ts) var (i + 1) = elemAt (t' :: ts) var i := by
  unfold elemAt
  cases var <;> simp

/-- What a tuple accepts, position by position. -/
theorem has_tuple_at {o : Oid} {ts : List Ty} {var : Bool} (hv : var = true → ts ≠ []) {v : Val} :
    has E (.tuple o ts var) v = true ↔ ∃ vs, v = .arr vs ∧ (if var then ts.length ≤ vs.length + 1 else vs.length = ts.length) ∧
      ∀ i x, vs[i]? = some x → ∃ t, elemAt ts var i = some t ∧ has E t x = true := by
  cases var with
  | false =>
    rw [has_tuple]
    simp only [Bool.false_eq_true, if_false]
    refine exists_congr fun vs => and_congr_right fun _ => ?_
    rw [List.forall₂_iff_get]
    constructor
    · rintro ⟨h1, h2⟩
      refine ⟨h1.symm, fun i x hx => ?_⟩
      obtain ⟨hi, rfl⟩ := List.getElem?_eq_some_iff.1 hx
      exact ⟨ts[i], by simp [elemAt, h1, hi], by simpa using h2 i (by omega) hi⟩
    · rintro ⟨h1, h2⟩
      refine ⟨h1.symm, fun i hi hi' => ?_⟩
      obtain ⟨t, ht, hh⟩ := h2 i vs[i] (by simp)
      simp only [elemAt, Bool.false_eq_true, if_false, hi, if_true] at ht
      obtain ⟨_, rfl⟩ := List.getElem?_eq_some_iff.1 ht
      simpa using hh
  | true =>
    have key : ∀ (ts : List Ty) (vs : List Val), ts ≠ [] → (hasVar E (fun o vs v => (typesOf o vs).all fun t => has0 E t v) ts vs = true ↔
        ts.length ≤ vs.length + 1 ∧ ∀ i x, vs[i]? = some x → ∃ t, elemAt ts true i = some t ∧ has E t x = true) := by
      intro ts
      induction ts with
      | nil => intro vs h; exact absurd rfl h
      | cons t ts ih =>
        intro vs _
        cases ts with
        | nil =>
          rw [hasVar, List.all_eq_true]
          constructor
          · intro h
            refine ⟨by simp, fun i x hx => ⟨t, by simp [elemAt], h x (List.mem_of_getElem? hx)⟩⟩
          · rintro ⟨_, h⟩ x hx
            obtain ⟨i, hi⟩ := List.getElem?_of_mem hx
            obtain ⟨t', ht, hh⟩ := h i x hi
            simp [elemAt] at ht
            subst ht; exact hh
        | cons t' ts =>
          cases vs with
          | nil => simp [hasVar]
          | cons v vs =>
            rw [hasVar, Bool.and_eq_true, ih vs (by simp)]
            constructor
            · rintro ⟨h, h1, h2⟩
              refine ⟨by simpa using h1, fun i x hx => ?_⟩
              cases i with
              | zero => simp at hx; subst hx; exact ⟨t, by simp [elemAt], h⟩
              | succ i => rw [elemAt_cons]; exact h2 i x (by simpa using hx)
            · rintro ⟨h1, h2⟩
              refine ⟨?_, by simpa using h1, fun i x hx => ?_⟩
              · obtain ⟨t1, ht, hh⟩ := h2 0 v (by simp)
                simp [elemAt] at ht; subst ht; exact hh
              · obtain ⟨t1, ht, hh⟩ := h2 (i + 1) x (by simpa using hx)
                rw [elemAt_cons] at ht
                exact ⟨t1, ht, hh⟩
    cases v with
    | arr vs =>
      rw [has, hasP, key ts vs (hv rfl)]
      simp
    | _ => simp [has, hasP]

theorem mem_typesOf {o : Oid} {vs : List Val} {v : Val} (h : v ∈ vs) : ∃ k, typeOf (.part o k) v ∈ typesOf o vs := by
  induction vs with
  | nil => cases h
  | cons w vs ih =>
    rw [typesOf]
    rcases List.mem_cons.1 h with rfl | h
    · exact ⟨_, List.mem_cons_self⟩
    · obtain ⟨k, hk⟩ := ih h
      exact ⟨k, by simp [hk]⟩

theorem mem_fieldKeys {o : Oid} {fs : List (Val × Bool × Ty)} {f : Val × Bool × Ty} (h : f ∈ fs) : ∃ k, typeOf (.part o k) f.1 ∈ fieldKeys o fs := by
  induction fs with
  | nil => cases h
  | cons g fs ih =>
    obtain ⟨k, rq, t⟩ := g
    rw [fieldKeys]
    rcases List.mem_cons.1 h with rfl | h
    · exact ⟨_, List.mem_cons_self⟩
    · obtain ⟨k, hk⟩ := ih h
      exact ⟨k, by simp [hk]⟩

theorem part_ne {o : Oid} {k : Nat} : Oid.part o k ≠ o := by intro h; have := congrArg osize h; simp [osize] at this

theorem IsTypeOf.mk' {o o' : Oid} {v : Val} (h1 : NoSens v) (h2 : Value.WF v) (hb : Below o' o) (hne : o' ≠ o) : IsTypeOf o (typeOf o' v) :=
  ⟨o', v, h1, h2, hb, hne, rfl⟩

/-- The size and the elements of the arrays that a type accepts -/
theorem array_kid {F : Feat} {b : Ty} (hb : Right F b) {n : Nat} {lo hi : Int} {e : Ty} (h : b.arrayType? E (tyEq n []) = some (lo, hi, e)) :
    ∃ us fl, Kid b e us fl ∧ ∀ v, Value.WF v → Fits v → has E b v = true →
      ∃ vs, v = .arr vs ∧ lo ≤ len vs ∧ len vs ≤ hi ∧ ∀ x ∈ vs, ∃ u ∈ us, has E u x = true := by
  cases b with
  | arrT =>
    simp only [Ty.arrayType?, Option.some.injEq, Prod.mk.injEq] at h
    obtain ⟨rfl, rfl, rfl⟩ := h
    refine ⟨_, _, .any, fun v hv hf hh => ?_⟩
    cases v <;> simp [has, hasP] at hh
    rename_i vs
    rw [Fits] at hf
    exact ⟨vs, rfl, by simp [len], hf.1, fun x _ => ⟨.any, by simp, by simp [has, hasP]⟩⟩
  | sizedArr o e' lo' hi' =>
    simp only [Ty.arrayType?, Option.some.injEq, Prod.mk.injEq] at h
    obtain ⟨rfl, rfl, rfl⟩ := h
    refine ⟨_, _, .part rfl (by simp [parts]), fun v hv hf hh => ?_⟩
    rw [has_sizedArr] at hh
    obtain ⟨vs, rfl, h1, h2, h3⟩ := hh
    exact ⟨vs, rfl, h1, h2, fun x hx => ⟨_, List.mem_singleton.2 rfl, h3 x hx⟩⟩
  | tuple o ts var =>
    simp only [Ty.arrayType?, Option.some.injEq, Prod.mk.injEq] at h
    obtain ⟨hlo, hhi, he⟩ := h
    have hr : ts.Pairwise (fun t u => t = u ∨ Apart t u) ∧ (var = true → ts ≠ [] ∧ F.var = true) := hb.every.here
    have hall : ∀ v, Value.WF v → Fits v → has E (.tuple o ts var) v = true →
        ∃ vs, v = .arr vs ∧ lo ≤ len vs ∧ len vs ≤ hi ∧ ∀ x ∈ vs, ∃ t ∈ ts, has E t x = true := by
      intro v hv hf hh
      rw [has_tuple_at fun h => (hr.2 h).1] at hh
      obtain ⟨vs, rfl, h1, h2⟩ := hh
      rw [Fits] at hf
      refine ⟨vs, rfl, ?_, ?_, fun x hx => ?_⟩
      · subst hlo; cases var <;> simp only [len, if_true, Bool.false_eq_true, if_false] at h1 ⊢ <;> omega
      · subst hhi; cases var <;> simp only [len, if_true, Bool.false_eq_true, if_false] at h1 hf ⊢ <;> first | exact hf.1 | omega
      · obtain ⟨i, hi⟩ := List.getElem?_of_mem hx
        obtain ⟨t, ht, hh⟩ := h2 i x hi
        exact ⟨t, elemAt_mem ht, hh⟩
    have hsub : ∀ t ∈ ts, ∀ x ∈ ts, tyEq n [] t x = true → Incl E t x := by
      intro t ht x hx h
      have hRt := hb.part (c := t) ht
      have hRx := hb.part (c := x) hx
      rcases pairwise_cases (fun a b h => h.elim (fun e => .inl e.symm) fun h => .inr h.symm) hr.1 ht hx with rfl | rfl | hap
      · exact .refl _
      · exact .refl _
      · intro v hv _ hh
        rw [← tyEq_sound n [] t x hRt.eqCond hRx.eqCond hap (by simp) h v hv]; exact hh
    match ts, he with
    | [], he =>
      subst he
      refine ⟨_, _, .any, fun v hv hf hh => ?_⟩
      obtain ⟨vs, e, h1, h2, h3⟩ := hall v hv hf hh
      exact ⟨vs, e, h1, h2, fun x hx => by obtain ⟨t, ht, _⟩ := h3 x hx; cases ht⟩
    | [t], he =>
      subst he
      exact ⟨_, _, .part rfl (by simp [parts]), hall⟩
    | t :: t' :: ts', he =>
      simp only at he
      have hcov := uniqueTy_covers (E := E) (eqT := tyEq n []) (ts := t :: t' :: ts') [] (by simpa using hsub)
      have hmem : ∀ x ∈ uniqueTy E (tyEq n []) [] (t :: t' :: ts'), x ∈ t :: t' :: ts' := fun x hx => by simpa using uniqueTy_sub x hx
      have fin : ∀ v, Value.WF v → Fits v → has E (.tuple o (t :: t' :: ts') var) v = true →
          ∃ vs, v = .arr vs ∧ lo ≤ len vs ∧ len vs ≤ hi ∧ ∀ x ∈ vs, ∃ u ∈ uniqueTy E (tyEq n []) [] (t :: t' :: ts'), has E u x = true := by
        intro v hv hf hh
        obtain ⟨vs, rfl, h1, h2, h3⟩ := hall v hv hf hh
        refine ⟨vs, rfl, h1, h2, fun x hx => ?_⟩
        obtain ⟨t1, ht1, hx1⟩ := h3 x hx
        obtain ⟨y, hy, hi⟩ := hcov t1 (by simpa using ht1)
        rw [Fits, FitsAll_iff] at hf
        exact ⟨y, hy, hi x (WF_arr hv x hx) (hf.2 x hx) hx1⟩
      generalize hu : uniqueTy E (tyEq n []) [] (t :: t' :: ts') = us at he fin hmem
      match us, he with
      | [], he =>
        subst he
        exact ⟨_, _, .union rfl rfl (.part 0 (.refl o)) part_ne (by simp) (by simp [parts]) (by simp), fin⟩
      | [y], he =>
        subst he
        exact ⟨_, _, .part rfl (hmem _ (by simp)), fin⟩
      | y :: y' :: ys, he =>
        subst he
        exact ⟨_, _, .union rfl rfl (.part 0 (.refl o)) part_ne (fun u hu => .inl (hmem u hu)) (by simp [parts]) fun u hu => .inl (hmem u hu), fin⟩
  | exactD o w =>
    cases w with
    | arr ws =>
      simp only [Ty.arrayType?, Option.some.injEq, Prod.mk.injEq] at h
      obtain ⟨hlo, hhi, he⟩ := h
      have hs : NoSens (.arr ws) := hb.every.here
      rw [NoSens, NoSensAll_iff] at hs
      have hw := hb.ok
      rw [Ty.Ok] at hw
      have hw := WF_arr hw.2
      have hall : ∀ v, Value.WF v → Fits v → has E (.exactD o (.arr ws)) v = true →
          ∃ vs, v = .arr vs ∧ lo ≤ len vs ∧ len vs ≤ hi ∧ ∀ x ∈ vs, ∃ w ∈ ws, eq w x = true := by
        intro v hv hf hh
        simp only [has, hasP] at hh
        obtain ⟨vs, rfl, hf2⟩ := eq_arr hh
        have := hf2.length_eq
        refine ⟨vs, rfl, by subst hlo; simp only [len]; omega, by subst hhi; simp only [len]; omega, fun x hx => ?_⟩
        obtain ⟨w, hw, hr⟩ := forall₂_mem hf2.flip hx
        exact ⟨w, hw, hr⟩
      match ws, he with
      | [], he =>
        subst he
        refine ⟨_, _, .any, fun v hv hf hh => ?_⟩
        obtain ⟨vs, e, h1, h2, h3⟩ := hall v hv hf hh
        exact ⟨vs, e, h1, h2, fun x hx => by obtain ⟨t, ht, _⟩ := h3 x hx; cases ht⟩
      | [w], he =>
        subst he
        refine ⟨_, _, .typ rfl (.mk' (hs w (by simp)) (hw w (by simp)) (.part 0 (.refl o)) part_ne) ⟨_, w, by simp [holds], rfl⟩, fun v hv hf hh => ?_⟩
        obtain ⟨vs, e, h1, h2, h3⟩ := hall v hv hf hh
        refine ⟨vs, e, h1, h2, fun x hx => ?_⟩
        obtain ⟨w', hw', hx'⟩ := h3 x hx
        simp only [List.mem_singleton] at hw'
        subst hw'
        exact ⟨_, List.mem_singleton.2 rfl, by rw [has_typeOf_eq _ (hs w' (by simp)).ne]; exact hx'⟩
      | w :: w' :: ws', he =>
        subst he
        refine ⟨_, _, .unionVal rfl (.part 0 (.refl o)) part_ne (fun v hv => ⟨hs v hv, hw v hv⟩) (fun v hv => hv), fun v hv hf hh => ?_⟩
        obtain ⟨vs, e, h1, h2, h3⟩ := hall v hv hf hh
        refine ⟨vs, e, h1, h2, fun x hx => ?_⟩
        obtain ⟨y, hy, hx'⟩ := h3 x hx
        obtain ⟨k, hk⟩ := mem_typesOf (o := .part o 0) hy
        exact ⟨_, hk, by rw [has_typeOf_eq _ (hs y hy).ne]; exact hx'⟩
    | _ => simp [Ty.arrayType?] at h
  | _ => simp [Ty.arrayType?] at h

/-- The size, the keys and the values of the maps that a type accepts -/
theorem map_kid {F : Feat} {b : Ty} (hb : Right F b) (hadd : F.add = false) {lo hi : Int} {k e : Ty} (h : b.mapType? = some (lo, hi, k, e)) :
    ∃ us fl us' fl', Kid b k us fl ∧ Kid b e us' fl' ∧ ∀ v, Value.WF v → Fits v → has E b v = true →
      ∃ es, v = .map es ∧ lo ≤ len es ∧ len es ≤ hi ∧ ∀ x ∈ es, (∃ u ∈ us, has E u x.1 = true) ∧ ∃ u ∈ us', has E u x.2 = true := by
  have hany : ∀ x, ∃ u ∈ [Ty.any], has E u x = true := fun x => ⟨.any, by simp, by simp [has, hasP]⟩
  cases b with
  | mapT =>
    simp only [Ty.mapType?, Option.some.injEq, Prod.mk.injEq] at h
    obtain ⟨rfl, rfl, rfl, rfl⟩ := h
    refine ⟨_, _, _, _, .any, .any, fun v hv hf hh => ?_⟩
    cases v <;> simp [has, hasP] at hh
    rename_i es
    rw [Fits] at hf
    exact ⟨es, rfl, by simp [len], hf.1, fun x _ => ⟨hany _, hany _⟩⟩
  | sizedMap o k' e' lo' hi' =>
    simp only [Ty.mapType?, Option.some.injEq, Prod.mk.injEq] at h
    obtain ⟨rfl, rfl, rfl, rfl⟩ := h
    refine ⟨_, _, _, _, .part rfl (by simp [parts]), .part rfl (by simp [parts]), fun v hv hf hh => ?_⟩
    rw [has_sizedMap] at hh
    obtain ⟨es, rfl, h1, h2, h3⟩ := hh
    exact ⟨es, rfl, h1, h2, fun x hx => ⟨⟨_, List.mem_singleton.2 rfl, (h3 x hx).1⟩, ⟨_, List.mem_singleton.2 rfl, (h3 x hx).2⟩⟩⟩
  | exactD o w =>
    cases w with
    | map ws =>
      simp only [Ty.mapType?, Option.some.injEq, Prod.mk.injEq] at h
      obtain ⟨hlo, hhi, hk, he⟩ := h
      have hs : NoSens (.map ws) := hb.every.here
      rw [NoSens, NoSensEntries_iff] at hs
      have hw' := hb.ok
      rw [Ty.Ok] at hw'
      have hw := WF_map hw'.2
      have hall : ∀ v, Value.WF v → Fits v → has E (.exactD o (.map ws)) v = true →
          ∃ es, v = .map es ∧ lo ≤ len es ∧ len es ≤ hi ∧ ∀ x ∈ es, ∃ w ∈ ws, eq w.1 x.1 = true ∧ eq w.2 x.2 = true := by
        intro v hv hf hh
        simp only [has, hasP] at hh
        obtain ⟨es, rfl, bs, hp, hf2⟩ := eq_map hw'.2 hv hh
        have h1 := hf2.length_eq
        have h2 := hp.length_eq
        refine ⟨es, rfl, by subst hlo; simp only [len]; omega, by subst hhi; simp only [len]; omega, fun x hx => ?_⟩
        obtain ⟨w, hw, hr⟩ := forall₂_mem hf2.flip (hp.mem_iff.2 hx)
        exact ⟨w, hw, hr⟩
      by_cases hemp : ws.isEmpty = true
      · rw [if_pos hemp] at hk he
        subst hk he
        refine ⟨_, _, _, _, .any, .any, fun v hv hf hh => ?_⟩
        obtain ⟨es, e, h1, h2, h3⟩ := hall v hv hf hh
        exact ⟨es, e, h1, h2, fun x hx => ⟨hany _, hany _⟩⟩
      · rw [if_neg hemp] at hk he
        subst hk he
        refine ⟨_, _, _, _, .unionVal rfl (.part 0 (.refl o)) part_ne ?_ (fun v hv => List.mem_append_left _ hv),
          .unionVal rfl (.part 1 (.refl o)) part_ne ?_ (fun v hv => List.mem_append_right _ hv), fun v hv hf hh => ?_⟩
        · intro v hv
          obtain ⟨e, he, rfl⟩ := List.mem_map.1 hv
          exact ⟨(hs e he).1, (hw e he).1⟩
        · intro v hv
          obtain ⟨e, he, rfl⟩ := List.mem_map.1 hv
          exact ⟨(hs e he).2, (hw e he).2⟩
        · obtain ⟨es, e, h1, h2, h3⟩ := hall v hv hf hh
          refine ⟨es, e, h1, h2, fun x hx => ?_⟩
          obtain ⟨y, hy, hx1, hx2⟩ := h3 x hx
          obtain ⟨k, hk⟩ := mem_typesOf (o := .part o 0) (List.mem_map.2 ⟨y, hy, rfl⟩ : y.1 ∈ ws.map (·.1))
          obtain ⟨k', hk'⟩ := mem_typesOf (o := .part o 1) (List.mem_map.2 ⟨y, hy, rfl⟩ : y.2 ∈ ws.map (·.2))
          exact ⟨⟨_, hk, by rw [has_typeOf_eq _ (hs y hy).1.ne]; exact hx1⟩, ⟨_, hk', by rw [has_typeOf_eq _ (hs y hy).2.ne]; exact hx2⟩⟩
    | _ => simp [Ty.mapType?] at h
  | struct o add fs =>
    simp only [Ty.mapType?, Option.some.injEq, Prod.mk.injEq] at h
    obtain ⟨hlo, hhi, hk, he⟩ := h
    have hr : DistinctKeys fs ∧ (∀ f ∈ fs, NoSens f.1) ∧ (add = true → F.add = true) := hb.every.here
    have hok := OkFields_iff.1 (show OkFields fs from hb.ok)
    have hnadd : add = false := by cases add with | false => rfl | true => have := hr.2.2 rfl; rw [hadd] at this; cases this
    subst hnadd
    have hall : ∀ v, Value.WF v → Fits v → has E (.struct o false fs) v = true →
          ∃ es, v = .map es ∧ lo ≤ len es ∧ len es ≤ hi ∧ ∀ x ∈ es, ∃ f ∈ fs, eq f.1 x.1 = true ∧ has E f.2.2 x.2 = true := by
      intro v hv hf hh
      cases v with
      | map es =>
        have hv' := WF_map hv
        have hd : DistinctKeys es := by rw [Value.WF] at hv; exact hv.2
        have hkk : ∀ f ∈ fs, (mapGet es f.1).isSome = true ↔ ∃ e ∈ es, eq f.1 e.1 = true := by
          intro f hf; rw [mapGet_isSome, List.any_eq_true]
        have hh0 := hh
        rw [has_struct (fun f hf => (hok f hf).2.1) (fun e he => (hv' e he).1) hr.1 hd] at hh
        obtain ⟨h1, h2⟩ := hh
        have h2 : ∀ e ∈ es, hasEntry fs e.1 = true := by simpa using h2
        have hcnt : countFields fs es = es.length := by
          rw [countFields_eq (fun f hf => (hok f hf).2.1) (fun e he => (hv' e he).1) hr.1 hd, List.countP_eq_length]; exact h2
        have hmax : countFields fs es ≤ fs.length := by
          clear * -
          induction fs with
          | nil => simp [countFields]
          | cons f fs ih => obtain ⟨k, rq, t⟩ := f; rw [countFields]; simp only [List.length_cons]; split <;> omega
        have hmin : (fs.filter (·.2.1)).length ≤ countFields fs es := by
          clear * - h1
          induction fs with
          | nil => simp
          | cons f fs ih =>
            obtain ⟨k, rq, t⟩ := f
            have ih := ih fun f hf => h1 f (by simp [hf])
            rw [countFields, List.filter_cons]
            cases rq with
            | false => simp only [Bool.false_eq_true, if_false]; split <;> omega
            | true =>
              have := (h1 (k, true, t) (by simp)).1 rfl
              simp only [if_true, this, List.length_cons]; omega
        refine ⟨es, rfl, by subst hlo; simp only [len]; omega, ?_, fun x hx => ?_⟩
        · subst hhi
          rw [Fits] at hf
          split
          · exact hf.1
          · simp only [len]; omega
        · have := h2 x hx
          rw [hasEntry, List.any_eq_true] at this
          obtain ⟨f, hf', hfe⟩ := this
          refine ⟨f, hf', hfe, ?_⟩
          have hg := (mapGet_some_iff (fun e he => (hv' e he).1) hd (v := x.2) (hok f hf').2.1).2 ⟨x, hx, hfe, rfl⟩
          exact (h1 f hf').2 _ hg
      | _ => simp [has, hasP] at hh
    match fs, hk, he with
    | [], hk, he =>
      subst hk he
      refine ⟨_, _, _, _, .any, .any, fun v hv hf hh => ?_⟩
      obtain ⟨es, e, h1, h2, h3⟩ := hall v hv hf hh
      exact ⟨es, e, h1, h2, fun x hx => ⟨hany _, hany _⟩⟩
    | [f], hk, he =>
      subst hk he
      have hn := hr.2.1 f (by simp)
      refine ⟨_, _, _, _, .typ rfl (.mk' hn (hok f (by simp)).2.1 (.part 0 (.part 0 (.refl o))) ?_) ⟨_, f.1, by simp [holds], rfl⟩, .part rfl (by simp [parts]), fun v hv hf hh => ?_⟩
      · intro h; have := congrArg osize h; simp [osize] at this; omega
      · obtain ⟨es, e, h1, h2, h3⟩ := hall v hv hf hh
        refine ⟨es, e, h1, h2, fun x hx => ?_⟩
        obtain ⟨f', hf', hk', hv'⟩ := h3 x hx
        simp only [List.mem_singleton] at hf'
        subst hf'
        exact ⟨⟨_, List.mem_singleton.2 rfl, by rw [has_typeOf_eq _ hn.ne]; exact hk'⟩, ⟨_, List.mem_singleton.2 rfl, hv'⟩⟩
    | f :: f' :: fs', hk, he =>
      subst hk he
      refine ⟨_, _, _, _, .union rfl rfl (.part 0 (.refl o)) part_ne ?_ (by simp [parts]) ?_,
        .union rfl rfl (.part 1 (.refl o)) part_ne ?_ (by simp [parts]) (fun u hu => .inl hu), fun v hv hf hh => ?_⟩
      · intro u hu
        obtain ⟨k, g, hg, rfl⟩ := fieldKeys_mem hu
        exact .inr (.mk' (hr.2.1 g hg) (hok g hg).2.1 (.part k (.refl _)) part_ne)
      · intro u hu
        obtain ⟨k, g, hg, rfl⟩ := fieldKeys_mem hu
        exact .inr ⟨_, g.1, List.mem_map.2 ⟨g, hg, rfl⟩, rfl⟩
      · intro u hu; exact .inl hu
      · obtain ⟨es, e, h1, h2, h3⟩ := hall v hv hf hh
        refine ⟨es, e, h1, h2, fun x hx => ?_⟩
        obtain ⟨g, hg, hk', hv'⟩ := h3 x hx
        obtain ⟨k, hk⟩ := mem_fieldKeys (o := .part o 0) hg
        exact ⟨⟨_, hk, by rw [has_typeOf_eq _ (hr.2.1 g hg).ne]; exact hk'⟩, ⟨_, List.mem_map.2 ⟨g, hg, rfl⟩, hv'⟩⟩
  | _ => simp [Ty.mapType?] at h

end Verif.Types
