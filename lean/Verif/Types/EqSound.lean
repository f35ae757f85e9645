import Verif.Types.Shape
/-!
# Equal types have the same instances
-/
set_option autoImplicit false
set_option linter.unusedVariables false
set_option linter.unusedSimpArgs false
set_option linter.unnecessarySeqFocus false
namespace Verif.Types
open Verif.Value

variable {E : Env}

theorem takeFirst_perm {β : Type} {p : β → Bool} {bs bs' : List β} (h : takeFirst p bs = some bs') : ∃ b, p b = true ∧ (b :: bs').Perm bs := by
  induction bs generalizing bs' with
  | nil => simp [takeFirst] at h
  | cons b bs ih =>
    rw [takeFirst] at h
    split at h
    · cases h; exact ⟨b, by assumption, .refl _⟩
    · obtain ⟨r, hr, rfl⟩ := Option.map_eq_some_iff.1 h
      obtain ⟨x, hx, hp⟩ := ih hr
      exact ⟨x, hx, (List.Perm.swap b x r).trans (hp.cons b)⟩

theorem matchAll_perm {α β : Type} {p : β → α → Bool} {as : List α} : ∀ {bs : List β}, as.length = bs.length → matchAll p as bs = true →
    ∃ bs', bs'.Perm bs ∧ List.Forall₂ (fun a b => p b a = true) as bs' := by
  induction as with
  | nil => intro bs hl _; cases bs with | nil => exact ⟨[], .refl _, .nil⟩ | cons => simp at hl
  | cons a as ih =>
    intro bs hl h
    rw [matchAll] at h
    split at h
    · cases h
    · rename_i bs1 e
      obtain ⟨b, hb, hp⟩ := takeFirst_perm e
      have := hp.length_eq
      obtain ⟨bs2, hp2, hf⟩ := ih (bs := bs1) (by simp at hl this; omega) h
      exact ⟨b :: bs2, (hp2.cons b).trans hp, .cons hb hf⟩

theorem sameValues_perm {α β : Type} {p : β → α → Bool} {as : List α} {bs : List β} (h : sameValues p as bs = true) :
    ∃ bs', bs'.Perm bs ∧ List.Forall₂ (fun a b => p b a = true) as bs' := by
  rw [sameValues, Bool.and_eq_true, beq_iff_eq] at h
  exact matchAll_perm h.1 h.2

theorem zipAll_iff {α β : Type} {p : α → β → Bool} {as : List α} : ∀ {bs : List β}, zipAll p as bs = true ↔ List.Forall₂ (fun a b => p a b = true) as bs := by
  induction as with
  | nil => intro bs; cases bs <;> simp [zipAll]
  | cons a as ih => intro bs; cases bs <;> simp [zipAll, ih]

theorem forall₂_imp_mem {α β : Type} {R S : α → β → Prop} {as : List α} {bs : List β} (h : List.Forall₂ R as bs)
    (hi : ∀ a ∈ as, ∀ b ∈ bs, R a b → S a b) : List.Forall₂ S as bs := by
  induction h with
  | nil => exact .nil
  | cons h1 h2 ih => exact .cons (hi _ (by simp) _ (by simp) h1) (ih fun a ha b hb => hi a (by simp [ha]) b (by simp [hb]))

/-! ## Conditions -/

def eqNode : Ty → Prop
  | .exactD _ v => NoSens v
  | .allOfVal _ vs => ∀ v ∈ vs, NoSens v
  | _ => True

structure EqCond (a : Ty) : Prop where
  tree : Tree a
  ok : a.Ok
  every : Every eqNode a

theorem EqCond.part {a c : Ty} (h : EqCond a) (hc : c ∈ parts a) : EqCond c :=
  ⟨Every.part h.tree hc, part_Ok h.ok hc, h.every.part hc⟩

theorem EqCond.typeOf {o : Oid} {t : Ty} (h : IsTypeOf o t) : EqCond t :=
  ⟨h.from.1, h.ok, h.every trivial (fun _ _ => trivial) fun _ _ h _ _ => h⟩

/-- the same instances -/
def SameInst (E : Env) (a b : Ty) : Prop := ∀ v, Value.WF v → has E a v = has E b v

theorem SameInst.symm {a b : Ty} (h : SameInst E a b) : SameInst E b a := fun v hv => (h v hv).symm

/-! ## Lists of types with the same instances -/

theorem same_countP {ts us : List Ty} (h : List.Forall₂ (SameInst E) ts us) {v : Val} (hv : Value.WF v) :
    ts.countP (fun t => has E t v) = us.countP (fun t => has E t v) := by
  induction h with
  | nil => rfl
  | cons h1 h2 ih => rw [List.countP_cons, List.countP_cons, ih, h1 v hv]

theorem same_count {ts us us' : List Ty} (h : List.Forall₂ (SameInst E) ts us') (hp : us'.Perm us) {v : Val} (hv : Value.WF v) :
    ts.countP (fun t => has E t v) = us.countP (fun t => has E t v) := (same_countP h hv).trans (hp.countP_eq _)

theorem same_all {ts us us' : List Ty} (h : List.Forall₂ (SameInst E) ts us') (hp : us'.Perm us) {v : Val} (hv : Value.WF v) :
    (ts.all fun t => has E t v) = us.all fun t => has E t v := by
  rw [← all_perm hp]
  clear hp
  induction h with
  | nil => rfl
  | cons h1 h2 ih => rw [List.all_cons, List.all_cons, ih, h1 v hv]

theorem same_any {ts us us' : List Ty} (h : List.Forall₂ (SameInst E) ts us') (hp : us'.Perm us) {v : Val} (hv : Value.WF v) :
    (ts.any fun t => has E t v) = us.any fun t => has E t v := by
  rw [Bool.eq_iff_iff, List.any_eq_true, List.any_eq_true]
  constructor
  · rintro ⟨t, ht, h'⟩
    obtain ⟨u, hu, hr⟩ := forall₂_mem h ht
    exact ⟨u, hp.mem_iff.1 hu, by rwa [← hr v hv]⟩
  · rintro ⟨u, hu, h'⟩
    obtain ⟨t, ht, hr⟩ := forall₂_mem h.flip (hp.mem_iff.2 hu)
    exact ⟨t, ht, by rwa [hr v hv]⟩

theorem hasZip_same {A : Oid → List Val → Val → Bool} {ts us : List Ty} (h : List.Forall₂ (fun t u => ∀ v, Value.WF v → hasP E A t v = hasP E A u v) ts us) :
    ∀ {vs : List Val}, (∀ v ∈ vs, Value.WF v) → hasZip E A ts vs = hasZip E A us vs := by
  induction h with
  | nil => intro vs _; rfl
  | cons h1 h2 ih =>
    intro vs hv
    cases vs with
    | nil => rfl
    | cons v vs => rw [hasZip, hasZip, h1 v (hv v (by simp)), ih fun w hw => hv w (by simp [hw])]

theorem hasVar_same {A : Oid → List Val → Val → Bool} {ts us : List Ty} (h : List.Forall₂ (fun t u => ∀ v, Value.WF v → hasP E A t v = hasP E A u v) ts us) :
    ∀ {vs : List Val}, (∀ v ∈ vs, Value.WF v) → hasVar E A ts vs = hasVar E A us vs := by
  induction h with
  | nil => intro vs _; rfl
  | @cons t u ts us h1 h2 ih =>
    intro vs hv
    cases h2 with
    | nil => simp only [hasVar]; exact all_congr_mem fun v hm => h1 v (hv v hm)
    | cons h3 h4 =>
      cases vs with
      | nil => rfl
      | cons v vs => rw [hasVar, hasVar, h1 v (hv v (by simp)), ih fun w hw => hv w (by simp [hw])]

theorem mapGet_key {es : List (Val × Val)} (he : ∀ e ∈ es, Value.WF e.1) {k k' : Val} (hk : Value.WF k) (hk' : Value.WF k') (h : eq k k' = true) :
    mapGet es k = mapGet es k' := by
  have : es.find? (fun e => eq k e.1) = es.find? fun e => eq k' e.1 := by
    induction es with
    | nil => rfl
    | cons e es ih =>
      have h1 : eq k e.1 = eq k' e.1 := by
        have hw := he e (by simp)
        rw [Bool.eq_iff_iff]
        exact ⟨fun h' => laws.trans _ _ _ hk' hk hw (laws.symm _ _ hk hk' h) h', fun h' => laws.trans _ _ _ hk hk' hw h h'⟩
      rw [List.find?_cons, List.find?_cons, h1, ih fun e he' => he e (by simp [he'])]
  rw [mapGet, mapGet, this]

theorem hasFields_same {A : Oid → List Val → Val → Bool} {fs fs' : List (Val × Bool × Ty)} {es : List (Val × Val)} (he : ∀ e ∈ es, Value.WF e.1 ∧ Value.WF e.2)
    (hk : ∀ f ∈ fs, Value.WF f.1) (hk' : ∀ f ∈ fs', Value.WF f.1)
    (h : List.Forall₂ (fun f f' => f.2.1 = f'.2.1 ∧ eq f.1 f'.1 = true ∧ ∀ v, Value.WF v → hasP E A f.2.2 v = hasP E A f'.2.2 v) fs fs') :
    hasFields E A fs es = hasFields E A fs' es ∧ countFields fs es = countFields fs' es := by
  induction h with
  | nil => exact ⟨rfl, rfl⟩
  | @cons f f' fs fs' h1 h2 ih =>
    obtain ⟨k, rq, t⟩ := f
    obtain ⟨k', rq', t'⟩ := f'
    obtain ⟨h1, h3, h4⟩ := h1
    obtain ⟨ih1, ih2⟩ := ih (fun f hf => hk f (by simp [hf])) (fun f hf => hk' f (by simp [hf]))
    have hg := mapGet_key (fun e h => (he e h).1) (hk _ (by simp)) (hk' _ (by simp)) h3
    simp only at h1 h4 hg
    rw [hasFields, hasFields, countFields, countFields, ih1, ih2, hg, h1]
    refine ⟨?_, rfl⟩
    congr 1
    split
    · rename_i v hv
      refine h4 v ?_
      rw [mapGet, Option.map_eq_some_iff] at hv
      obtain ⟨e, he', rfl⟩ := hv
      exact (he e (List.mem_of_find?_eq_some he')).2
    · rfl

/-! ## Equals -/

theorem has_allOfVal_eq {o : Oid} {vs : List Val} (hs : ∀ v ∈ vs, NoSens v) (w : Val) : has E (.allOfVal o vs) w = vs.all fun v => eq v w := by
  rw [has_allOfVal]
  induction vs with
  | nil => rfl
  | cons v vs ih =>
    rw [typesOf, List.all_cons, List.all_cons, has_typeOf_eq _ (hs v (by simp)).ne]
    congr 1
    exact ih fun v hv => hs v (by simp [hv])

theorem has_allOf_eq {o : Oid} {ts : List Ty} {v : Val} : has E (.allOf o ts) v = ts.all fun t => has E t v := by
  rw [has, hasP, hasAll_eq]; rfl

theorem has_anyOf_eq {o : Oid} {ts : List Ty} {v : Val} : has E (.anyOf o ts) v = ts.any fun t => has E t v := by
  rw [has, hasP, hasAny_eq]; rfl

theorem has_oneOf_eq {o : Oid} {ts : List Ty} {v : Val} : has E (.oneOf o ts) v = (ts.countP (fun t => has E t v) == 1) := by
  rw [has, hasP, hasCount_eq]; rfl

theorem IsTypeOf.From_allOfVal {o : Oid} {vs : List Val} {t : Ty} (h : IsTypeOf o t) : From (.allOfVal o vs) t :=
  ⟨h.from.1, fun x hx => ⟨o, by simp only [Ty.occ]; exact .refl _, (h.from.2 x hx).1⟩, fun o' ho hc => by
    cases ho; exact (h.from.2 _ hc).2 rfl⟩

theorem IsTypeOf.From_exactD {o : Oid} {v : Val} {t : Ty} (h : IsTypeOf o t) : From (.exactD o v) t :=
  ⟨h.from.1, fun x hx => ⟨o, by simp only [Ty.occ], (h.from.2 x hx).1⟩, fun o' ho hc => by
    cases ho; exact (h.from.2 _ hc).2 rfl⟩

/-- an answer for the types below `a` and `b`, in either order -/
def RecOk (E : Env) (rec : Ty → Ty → Bool) (a b : Ty) : Prop :=
  ∀ c d, From a c → From b d → EqCond c → EqCond d → (rec c d = true ∨ rec d c = true) → SameInst E c d

theorem leafEq_sound {rec : Ty → Ty → Bool} {a b : Ty} (ha : EqCond a) (hb : EqCond b) (hr : RecOk E rec a b) (h : leafEq rec a b = true) : SameInst E a b := by
  intro x hx
  unfold leafEq at h
  split at h
  case h_11 v w =>
    have h1 := ha.ok
    have h2 := hb.ok
    rw [Ty.Ok] at h1 h2
    simp only [has, hasP]
    rw [Bool.eq_iff_iff]
    exact ⟨fun h' => laws.trans _ _ _ h2.2 h1.2 hx (laws.symm _ _ h1.2 h2.2 h) h', fun h' => laws.trans _ _ _ h1.2 h2.2 hx h h'⟩
  case h_12 => rw [beq_iff_eq] at h; rw [h]
  case h_13 => simp only [Bool.and_eq_true, beq_iff_eq] at h; obtain ⟨⟨rfl, rfl⟩, rfl⟩ := h; rfl
  case h_14 a b i a' b' i' =>
    simp only [Bool.and_eq_true, beq_iff_eq] at h
    obtain ⟨⟨h1, h2⟩, rfl⟩ := h
    cases x <;> simp only [has, hasP]
    rename_i f
    rw [(F64.le_congr (a := f) h1).2.1, (F64.le_congr (a := f) h2).1]
    obtain ⟨h3, h4, h5⟩ := (Value.F64.eq_iff _ _).1 h2
    simp [Value.F64.lt, h3, h4, h5]
  case h_15 => simp only [Bool.and_eq_true, beq_iff_eq] at h; obtain ⟨rfl, rfl⟩ := h; rfl
  case h_16 => rw [beq_iff_eq] at h; rw [h]
  case h_17 => simp only [Bool.and_eq_true, beq_iff_eq] at h; obtain ⟨rfl, rfl⟩ := h; rfl
  case h_18 t u =>
    rw [has_not, has_not, hr t u (.part ha.tree (by simp [parts])) (.part hb.tree (by simp [parts])) (ha.part (by simp [parts]))
      (hb.part (by simp [parts])) (.inl h) x hx]
  case h_19 => simp [has, hasP]
  all_goals first | rfl | cases h

theorem zip_same {rec : Ty → Ty → Bool} {a b : Ty} (hr : RecOk E rec a b) {ts us : List Ty} (h1 : ∀ c ∈ ts, From a c ∧ EqCond c)
    (h2 : ∀ d ∈ us, From b d ∧ EqCond d) (h : zipAll rec ts us = true) : List.Forall₂ (SameInst E) ts us :=
  forall₂_imp_mem (zipAll_iff.1 h) fun c hc d hd h' => hr c d (h1 c hc).1 (h2 d hd).1 (h1 c hc).2 (h2 d hd).2 (.inl h')

theorem match_same {rec : Ty → Ty → Bool} {a b : Ty} (hr : RecOk E rec a b) {ts us : List Ty} (h1 : ∀ c ∈ ts, From a c ∧ EqCond c)
    (h2 : ∀ d ∈ us, From b d ∧ EqCond d) (h : sameValues rec ts us = true) : ∃ us', us'.Perm us ∧ List.Forall₂ (SameInst E) ts us' := by
  obtain ⟨us', hp, hf⟩ := sameValues_perm h
  exact ⟨us', hp, forall₂_imp_mem hf fun c hc d hd h' =>
    hr c d (h1 c hc).1 (h2 d (hp.mem_iff.1 hd)).1 (h1 c hc).2 (h2 d (hp.mem_iff.1 hd)).2 (.inr h')⟩

theorem parts_from {a : Ty} (ha : EqCond a) : ∀ c ∈ parts a, From a c ∧ EqCond c := fun c hc => ⟨.part ha.tree hc, ha.part hc⟩

theorem typesOf_from {o : Oid} {vs : List Val} (ha : EqCond (.allOfVal o vs)) : ∀ c ∈ typesOf o vs, From (.allOfVal o vs) c ∧ EqCond c := fun c hc => by
  have := typesOf_IsTypeOf ha.every.here ((WFs_iff vs).1 ha.ok) hc
  exact ⟨this.From_allOfVal, .typeOf this⟩

theorem elemTypes_from {o : Oid} {vs : List Val} (ha : EqCond (.exactD o (.arr vs))) :
    ∀ c ∈ elemTypesOf o vs, From (.exactD o (.arr vs)) c ∧ EqCond c := fun c hc => by
  have h1 : NoSens (.arr vs) := ha.every.here
  have h2 := ha.ok
  rw [NoSens, NoSensAll_iff] at h1
  rw [Ty.Ok] at h2
  have := (typesOf_IsTypeOf h1 (WF_arr h2.2) hc).up (o' := o) (.part 0 (.refl o))
  exact ⟨this.From_exactD, .typeOf this⟩

theorem hasZip_typesOf {o : Oid} {vs : List Val} (hs : ∀ v ∈ vs, NoSens v) : ∀ {ws : List Val},
    hasZip E (fun o vs v => (typesOf o vs).all fun t => has0 E t v) (typesOf o vs) ws = eqSlice vs ws := by
  induction vs with
  | nil => intro ws; cases ws <;> rfl
  | cons v vs ih =>
    intro ws
    cases ws with
    | nil => rfl
    | cons w ws =>
      rw [typesOf, hasZip, eqSlice]
      rw [ih fun v hv => hs v (by simp [hv])]
      congr 1
      exact has_typeOf_eq _ (hs v (by simp)).ne w

theorem deepEq_sound {rec : Ty → Ty → Bool} {a b : Ty} (ha : EqCond a) (hb : EqCond b) (hr : RecOk E rec a b) (h : deepEq rec a b = true) : SameInst E a b := by
  intro x hx
  unfold deepEq at h
  split at h
  case h_1 =>
    have h1 := ha.ok
    have h2 := hb.ok
    rw [Ty.Ok] at h1 h2
    simp only [has, hasP]
    rw [Bool.eq_iff_iff]
    exact ⟨fun h' => laws.trans _ _ _ h2.2 h1.2 hx (laws.symm _ _ h1.2 h2.2 h) h', fun h' => laws.trans _ _ _ h1.2 h2.2 hx h h'⟩
  case h_2 o e lo hi o' e' lo' hi' =>
    simp only [Bool.and_eq_true, beq_iff_eq] at h
    obtain ⟨⟨rfl, rfl⟩, h⟩ := h
    have hs := hr e e' (parts_from ha e (by simp [parts])).1 (parts_from hb e' (by simp [parts])).1 (ha.part (by simp [parts]))
      (hb.part (by simp [parts])) (.inl h)
    cases x <;> simp only [has, hasP]
    rename_i vs
    congr 1
    exact all_congr_mem fun v hv => hs v (WF_arr hx v hv)
  case h_3 o ts var o' us var' =>
    simp only [Bool.and_eq_true, beq_iff_eq] at h
    obtain ⟨rfl, h⟩ := h
    have hf := zip_same hr (parts_from ha) (parts_from hb) h
    cases x with
    | arr vs =>
      cases var <;> simp only [has, hasP]
      · exact hasZip_same hf (WF_arr hx)
      · exact hasVar_same hf (WF_arr hx)
    | _ => cases var <;> simp [has, hasP]
  case h_4 o ts var o' vs =>
    simp only [Bool.and_eq_true, Bool.not_eq_true'] at h
    obtain ⟨rfl, h⟩ := h
    have hf := zip_same hr (parts_from ha) (elemTypes_from hb) h
    have h1 : NoSens (.arr vs) := hb.every.here
    rw [NoSens, NoSensAll_iff] at h1
    cases x with
    | arr ws =>
      simp only [has, hasP]
      have : hasZip E (fun o vs v => (typesOf o vs).all fun t => has0 E t v) ts ws = _ := hasZip_same hf (WF_arr hx)
      rw [this, elemTypesOf, hasZip_typesOf h1, eq]
    | _ => simp [has, hasP, eq]
  case h_5 o k v lo hi o' k' v' lo' hi' =>
    simp only [Bool.and_eq_true, beq_iff_eq] at h
    obtain ⟨⟨⟨rfl, rfl⟩, h⟩, h'⟩ := h
    have hs := hr k k' (parts_from ha k (by simp [parts])).1 (parts_from hb k' (by simp [parts])).1 (ha.part (by simp [parts]))
      (hb.part (by simp [parts])) (.inl h)
    have hs' := hr v v' (parts_from ha v (by simp [parts])).1 (parts_from hb v' (by simp [parts])).1 (ha.part (by simp [parts]))
      (hb.part (by simp [parts])) (.inl h')
    cases x <;> simp only [has, hasP]
    rename_i es
    congr 1
    refine all_congr_mem fun e he => ?_
    have := WF_map hx e he
    have h1 := hs e.1 this.1
    have h2 := hs' e.2 this.2
    rw [has, has] at h1 h2
    rw [h1, h2]
  case h_6 o add fs o' add' fs' =>
    simp only [Bool.and_eq_true, beq_iff_eq] at h
    obtain ⟨⟨⟨rfl, h1⟩, h2⟩, h3⟩ := h
    rw [zipAll_iff] at h1 h2 h3
    have hk := OkFields_iff.1 (show OkFields fs from ha.ok)
    have hk' := OkFields_iff.1 (show OkFields fs' from hb.ok)
    have hf : List.Forall₂ (fun f f' => f.2.1 = f'.2.1 ∧ eq f.1 f'.1 = true ∧ ∀ v, Value.WF v →
        hasP E (fun o vs v => (typesOf o vs).all fun t => has0 E t v) f.2.2 v = hasP E (fun o vs v => (typesOf o vs).all fun t => has0 E t v) f'.2.2 v) fs fs' := by
      have key : ∀ f ∈ fs, ∀ f' ∈ fs', rec f.2.2 f'.2.2 = true → SameInst E f.2.2 f'.2.2 := fun f hf f' hf' h => by
        have m1 : f.2.2 ∈ parts (.struct o add fs) := by simp only [parts, List.mem_map]; exact ⟨f, hf, rfl⟩
        have m2 : f'.2.2 ∈ parts (.struct o' add fs') := by simp only [parts, List.mem_map]; exact ⟨f', hf', rfl⟩
        exact hr _ _ (parts_from ha _ m1).1 (parts_from hb _ m2).1 (ha.part m1) (hb.part m2) (.inl h)
      clear hk hk' ha hb hr
      induction h1 with
      | nil => exact .nil
      | cons g1 g2 ih =>
        cases h2 with
        | cons g3 g4 =>
          cases h3 with
          | cons g5 g6 =>
            exact .cons ⟨by simpa using g1, g3, key _ (by simp) _ (by simp) g5⟩ (ih g6 g4 fun f hf f' hf' => key f (by simp [hf]) f' (by simp [hf']))
    cases x <;> simp only [has, hasP]
    rename_i es
    obtain ⟨e1, e2⟩ := hasFields_same (WF_map hx) (fun f h => (hk f h).2.1) (fun f h => (hk' f h).2.1) hf
    rw [e1, e2]
  case h_7 o ts o' us =>
    obtain ⟨us', hp, hf⟩ := match_same hr (parts_from ha) (parts_from hb) h
    rw [has_allOf_eq, has_allOf_eq]; exact same_all hf hp hx
  case h_8 o ts o' vs =>
    obtain ⟨us', hp, hf⟩ := match_same hr (parts_from ha) (typesOf_from hb) h
    rw [has_allOf_eq, has_allOfVal]; exact same_all hf hp hx
  case h_9 o vs o' ws =>
    obtain ⟨us', hp, hf⟩ := sameValues_perm h
    have w1 := (WFs_iff vs).1 (show WFs vs from ha.ok)
    have w2 := (WFs_iff ws).1 (show WFs ws from hb.ok)
    rw [has_allOfVal_eq ha.every.here, has_allOfVal_eq hb.every.here, ← all_perm hp]
    have hw : ∀ w ∈ us', Value.WF w := fun w hw => w2 w (hp.mem_iff.1 hw)
    clear ha hb hr h hp w2
    induction hf with
    | nil => rfl
    | @cons v w vs ws h1 h2 ih =>
      have hv := w1 v (by simp)
      have hw' := hw w (by simp)
      rw [List.all_cons, List.all_cons, ih (fun v hv => w1 v (by simp [hv])) fun w hw'' => hw w (by simp [hw''])]
      congr 1
      rw [Bool.eq_iff_iff]
      exact ⟨fun h' => laws.trans _ _ _ hw' hv hx h1 h', fun h' => laws.trans _ _ _ hv hw' hx (laws.symm _ _ hw' hv h1) h'⟩
  case h_10 o vs o' us =>
    obtain ⟨us', hp, hf⟩ := match_same (a := .allOf o' us) (b := .allOfVal o vs) (fun c d h1 h2 h3 h4 h5 => (hr d c h2 h1 h4 h3 h5.symm).symm)
      (parts_from hb) (typesOf_from ha) h
    rw [has_allOf_eq, has_allOfVal]; exact (same_all hf hp hx).symm
  case h_11 o ts o' us =>
    obtain ⟨us', hp, hf⟩ := match_same hr (parts_from ha) (parts_from hb) h
    rw [has_anyOf_eq, has_anyOf_eq]; exact same_any hf hp hx
  case h_12 o ts o' us =>
    obtain ⟨us', hp, hf⟩ := match_same hr (parts_from ha) (parts_from hb) h
    rw [has_oneOf_eq, has_oneOf_eq]; exact congrArg (· == 1) (same_count hf hp hx)
  case h_13 o t o' u =>
    have hs := hr t u (parts_from ha t (by simp [parts])).1 (parts_from hb u (by simp [parts])).1 (ha.part (by simp [parts]))
      (hb.part (by simp [parts])) (.inl h)
    cases x <;> simp only [has, hasP]
    rw [Value.WF] at hx
    exact hs _ hx
  case h_14 => cases h

theorem tyEq_sound : ∀ (n : Nat) (seen : List Oid) (a b : Ty), EqCond a → EqCond b → Apart a b → (∀ o ∈ seen, ¬ a.owns o ∧ ¬ b.owns o) →
    tyEq n seen a b = true → SameInst E a b
  | 0, _, _, _, _, _, _, _, h => by simp [tyEq] at h
  | n + 1, seen, a, b, ha, hb, hab, hseen, h => by
    rw [tyEq] at h
    split at h
    · refine leafEq_sound ha hb (fun c d h1 h2 h3 h4 h5 => ?_) h
      have hcd := hab.sub h1.sub h2.sub
      rcases h5 with h5 | h5
      · exact tyEq_sound n [] c d h3 h4 hcd (by simp) h5
      · exact (tyEq_sound n [] d c h4 h3 hcd.symm (by simp) h5).symm
    · rename_i o ho
      split at h
      · rename_i ho'
        exact absurd (owns_deep ho') (hab o (owns_deep ho))
      · split at h
        · rename_i hm
          exact absurd (owns_deep ho) (hseen o hm).1
        · refine deepEq_sound ha hb (fun c d h1 h2 h3 h4 h5 => ?_) h
          have hcd := hab.sub h1.sub h2.sub
          have hs : ∀ x ∈ o :: seen, ¬ c.owns x ∧ ¬ d.owns x := by
            intro x hx
            rcases List.mem_cons.1 hx with rfl | hx
            · exact ⟨h1.new x ho, fun h => hab x (owns_deep ho) (h2.sub x h)⟩
            · exact ⟨fun h => (hseen x hx).1 (h1.sub x h), fun h => (hseen x hx).2 (h2.sub x h)⟩
          rcases h5 with h5 | h5
          · exact tyEq_sound n _ c d h3 h4 hcd hs h5
          · exact (tyEq_sound n _ d c h4 h3 hcd.symm (fun x hx => (hs x hx).symm) h5).symm

end Verif.Types
