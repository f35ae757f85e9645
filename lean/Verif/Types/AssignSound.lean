import Verif.Types.SoundLoops
/-!
# Assignable is sound: the main induction
-/
set_option autoImplicit false
set_option linter.unusedVariables false
set_option linter.unusedSimpArgs false
set_option linter.unnecessarySeqFocus false
set_option linter.unusedSectionVars false
namespace Verif.Types
open Verif.Value

variable {E : Env}

theorem operands_incl {F : Feat} {a b : Ty} (hb : Right F b) {ts : List Ty} {ne : Bool} (ho : b.operands? = some (ts, ne)) (hne : ne = true → ts ≠ [])
    (h : ∀ u ∈ ts, Incl E u a) : Incl E b a := by
  intro v hv hf hh
  have hr := hb.every.here
  suffices hs : ∃ u ∈ ts, has E u v = true by
    obtain ⟨u, hu, hh⟩ := hs; exact h u hu v hv hf hh
  cases b <;> simp only [Ty.operands?, reduceCtorEq, Option.some.injEq, Prod.mk.injEq] at ho <;> obtain ⟨rfl, rfl⟩ := ho
  case allOf o ts =>
    obtain ⟨t, ht⟩ := List.exists_mem_of_ne_nil ts hr
    rw [has_allOf] at hh
    exact ⟨t, ht, hh t ht⟩
  case allOfVal o vs =>
    obtain ⟨w, hw⟩ := List.exists_mem_of_ne_nil vs hr.1
    obtain ⟨k, hk⟩ := mem_typesOf (o := o) hw
    rw [has_allOfVal, List.all_eq_true] at hh
    exact ⟨_, hk, hh _ hk⟩
  case anyOf o ts => rw [has_anyOf] at hh; exact hh
  case oneOf o ts =>
    rw [has_oneOf_eq, beq_iff_eq] at hh
    have : 0 < ts.countP fun t => has E t v := by omega
    exact List.countP_pos_iff.1 this

theorem View.operands {F : Feat} {b : Ty} {us : List Ty} {fl : Bool} (h : View F b us fl) {ts : List Ty} {ne : Bool} (ho : b.operands? = some (ts, ne)) :
    ∀ u ∈ ts, Right F u := by
  intro u hu
  cases h with
  | plain h =>
    have hr := h.every.here
    cases b <;> simp only [Ty.operands?, reduceCtorEq, Option.some.injEq, Prod.mk.injEq] at ho <;> obtain ⟨rfl, rfl⟩ := ho
    case allOfVal o vs =>
      have hok := h.ok
      rw [Ty.Ok] at hok
      exact .typeOf (typesOf_IsTypeOf hr.2 ((WFs_iff vs).1 hok) hu)
    all_goals exact h.part hu
  | union h => simp only [Ty.operands?, Option.some.injEq, Prod.mk.injEq] at ho; obtain ⟨rfl, rfl⟩ := ho; exact h u hu
  | unionVal h =>
    simp only [Ty.operands?, Option.some.injEq, Prod.mk.injEq] at ho; obtain ⟨rfl, rfl⟩ := ho
    exact .typeOf (typesOf_IsTypeOf (fun v hv => (h v hv).1) (fun v hv => (h v hv).2) hu)

theorem View.checked {F : Feat} {a b : Ty} {us : List Ty} {fl : Bool} (h : View F b us fl)
    (hc : ∃ ts ne, b.operands? = some (ts, ne) ∧ (ne = true → ts ≠ []) ∧ ∀ u ∈ ts, Incl E u a) : ∀ u ∈ us, Incl E u a := by
  obtain ⟨ts, ne, ho, hne, hc⟩ := hc
  cases h with
  | plain h => simp only [List.mem_singleton, forall_eq]; exact operands_incl h ho hne hc
  | union h => simp only [Ty.operands?, Option.some.injEq, Prod.mk.injEq] at ho; obtain ⟨rfl, rfl⟩ := ho; exact hc
  | unionVal h => simp only [Ty.operands?, Option.some.injEq, Prod.mk.injEq] at ho; obtain ⟨rfl, rfl⟩ := ho; exact hc

theorem allO_true {α : Type} {f : α → Option Bool} {xs : List α} (h : allO f xs = some true) : ∀ x ∈ xs, f x = some true := by
  induction xs with
  | nil => simp
  | cons x xs ih =>
    rw [allO] at h
    split at h
    · cases h
    · cases h
    · rename_i e
      intro y hy
      rcases List.mem_cons.1 hy with rfl | hy
      · exact e
      · exact ih h y hy

theorem leafAsg_sound {F : Feat} {eqT : Ty → Ty → Bool} {rec : Ty → Ty → Option Bool} {a b : Ty} {us : List Ty} {fl : Bool} (ha : Left F a)
    (hb : View F b us fl) (hr : ∀ ts ne, b.operands? = some (ts, ne) → ∀ u ∈ ts, rec a u = some true → Incl E u a)
    (h : leafAsg E eqT rec a b = some true) : ∀ u ∈ us, Incl E u a := by
  have hl := ha.every.here
  have hnot : ∀ t, a ≠ .not t := by rintro t rfl; exact hl
  have h' : (match leafCase E eqT a b with
    | some r => some r
    | none => match b.operands? with
      | none => some false
      | some (ts, ne) => (allO (fun t => rec a t) ts).map fun r => r && !(ne && ts.isEmpty)) = some true := by
    cases a <;> first | exact h | exact absurd rfl (hnot _)
  split at h'
  · rename_i r hc
    cases h'
    cases hb with
    | plain hb => simp only [List.mem_singleton, forall_eq]; exact leafCase_sound ha hb hc
    | union hb =>
      have : a = .any := by cases a <;> simp [leafCase] at hc; rfl
      subst this
      intro u _ v _ _ _; simp [has, hasP]
    | unionVal hb =>
      have : a = .any := by cases a <;> simp [leafCase] at hc; rfl
      subst this
      intro u _ v _ _ _; simp [has, hasP]
  · split at h'
    · cases h'
    · rename_i ts ne ho
      rw [Option.map_eq_some_iff] at h'
      obtain ⟨r, e1, e2⟩ := h'
      simp only [Bool.and_eq_true, Bool.not_eq_true', Bool.and_eq_false_iff, List.isEmpty_eq_false_iff] at e2
      obtain ⟨rfl, e2⟩ := e2
      refine hb.checked ⟨ts, ne, ho, fun hn => ?_, fun u hu => hr ts ne ho u hu (allO_true e1 u hu)⟩
      rcases e2 with h | h
      · rw [hn] at h; cases h
      · exact h

/-- A type without parts on the left -/
theorem leafL {F : Feat} : ∀ (n : Nat) (a b : Ty) (us : List Ty) (fl : Bool), Left F a → a.deep? = none → View F b us fl → ∀ (g : G) (r : Bool) (g' : G),
    asg E n g a b = some (r, g') → g' = g ∧ (r = true → ∀ u ∈ us, Incl E u a)
  | 0, _, _, _, _, _, _, _, _, _, _, e => by simp [asg] at e
  | n + 1, a, b, us, fl, ha, hd, hb, g, r, g', e => by
    rw [asg, hd] at e
    dsimp only at e
    rw [Option.map_eq_some_iff] at e
    obtain ⟨r1, e1, e2⟩ := e
    simp only [Prod.mk.injEq] at e2
    obtain ⟨rfl, rfl⟩ := e2
    refine ⟨rfl, ?_⟩
    rintro rfl
    refine leafAsg_sound ha hb (fun ts ne ho u hu h => ?_) e1
    rw [Option.map_eq_some_iff] at h
    obtain ⟨⟨r2, g2⟩, e3, rfl⟩ := h
    have := (leafL n a u [u] false ha hd (.plain (hb.operands ho u hu)) none _ _ e3).2 rfl
    exact this u (by simp)

/-- A type with parts on the left, and on the right a type that is what it is -/
theorem deepAsg_plain {F : Feat} {n : Nat} {rec : G → Ty → Ty → Check} {ins : G → Ty → Oid × Val → Check} {J J' : G → Prop} {a b : Ty} {o : Oid}
    (ha : Left F a) (hd : a.deep? = some o) (hb : Right F b) (hs : ∀ g, J g → J' (g.map Guard.swap))
    (hA : isTernary a = false → ∀ c ∈ parts a, ∀ d us fl, Kid b d us fl → d.depth ≤ b.depth → (fl = true → AndFree c) → Call (fun g => rec g c d) J (∀ u ∈ us, Incl E u c))
    (hN : ∀ c ∈ parts a, ∀ d us fl, Kid b d us fl → d.depth ≤ b.depth → (fl = true → AndFree c) → ∀ g', rec none c d = some (true, g') → ∀ u ∈ us, Incl E u c)
    (hL : isTernary a = true → ∀ c ∈ parts a, Call (fun g => rec g c b) J (Incl E b c))
    (hLR : isTernary a = true → ∀ c ∈ parts a, ∀ ts ne, b.operands? = some (ts, ne) → ∀ u ∈ ts, Call (fun g => rec g c u) J (Incl E u c))
    (hR : ∀ ts ne, b.operands? = some (ts, ne) → ∀ u ∈ ts, Call (fun g => rec g a u) J' (Incl E u a))
    (hI : isTupleStruct a = true → ∀ o' v, b = .exactD o' v → Call (fun g => ins g a (o', v)) J (has E a v = true)) :
    Call (fun g => deepAsg E (tyEq n []) rec ins g a b) J (Incl E b a) := by
  have hl := ha.every.here
  have hr := hb.every.here
  have hC : Call (fun g => checkTo rec g a b) J (Incl E b a) :=
    (checkTo_call hs hR).mono fun h => (View.plain hb).checked h b (by simp)
  have hE : ∀ o' v, b = .exactD o' v → isTupleStruct a = true → Call (fun g => ins g a (o', v)) J (Incl E b a) := by
    intro o' v hbe ht
    refine (hI ht o' v hbe).mono fun hh w hw hf hwb => ?_
    subst hbe
    have hok := hb.ok
    rw [Ty.Ok] at hok
    simp only [has, hasP] at hwb
    rw [← has_congr ha.ok hok.2 hw hwb]
    exact hh
  intro g r g' hg e
  cases a <;> simp only [Ty.deep?, reduceCtorEq] at hd <;> simp only [deepAsg] at e
  case exactD o v =>
    split at e
    · rename_i o' w
      cases e
      refine ⟨hg, fun h x hx hf hh => ?_⟩
      simp only [has, hasP] at hh ⊢
      have h1 := ha.ok
      have h2 := hb.ok
      rw [Ty.Ok] at h1 h2
      exact laws.trans _ _ _ h1.2 h2.2 hx h hh
    · exact hC g r g' hg e
  case sizedArr o c lo hi =>
    split at e
    · cases e; exact ⟨hg, by simp⟩
    · split at e
      · rename_i lo' hi' d hty
        obtain ⟨us, fl, hk, hu⟩ := array_kid hb hty
        split at e
        · rename_i hsz
          rw [Option.map_eq_some_iff] at e
          obtain ⟨⟨r1, g1⟩, e1, e2⟩ := e
          simp only [Prod.mk.injEq] at e2
          obtain ⟨rfl, rfl⟩ := e2
          refine ⟨hg, ?_⟩
          rintro rfl v hv hf hh
          have h1 := hN c (by simp [parts]) d us fl hk (arrayType_depth hty) (fun _ => hl) g1 e1
          obtain ⟨vs, rfl, h2, h3, h4⟩ := hu v hv hf hh
          rw [has_sizedArr]
          refine ⟨vs, rfl, by omega, by omega, fun x hx => ?_⟩
          obtain ⟨u, hu, hux⟩ := h4 x hx
          rw [Fits, FitsAll_iff] at hf
          exact h1 u hu x (WF_arr hv x hx) (hf.2 x hx) hux
        · cases e; exact ⟨hg, by simp⟩
      · exact hC g r g' hg e
  case tuple o ts var =>
    split at e
    · cases e; exact ⟨hg, by simp⟩
    · exact hE _ _ rfl rfl g r g' hg e
    · rename_i o' us var'
      refine tupleTuple_call (fun h => (hl h).1) (fun h => (hr.2 h).1) (fun h => ?_) (fun t ht u hu => ?_) g r g' hg e
      · cases var' with
        | false => rfl
        | true => have h1 := (hl h).2; have h2 := (hr.2 rfl).2; rw [h1] at h2; cases h2
      · exact (hA rfl t ht u [u] false (.part rfl hu) (Nat.le_of_lt (part_depth (t := .tuple o' us var') hu)) (by simp)).mono fun h => h u (by simp)
    · rename_i o' d lo hi
      exact tupleArray_call (fun h => (hl h).1) (fun t ht => (hA rfl t ht d [d] false (.part rfl (by simp [parts])) (Nat.le_of_lt (part_depth (t := .sizedArr o' d lo hi) (by simp [parts]))) (by simp)).mono fun h => h d (by simp)) g r g' hg e
    · exact hC g r g' hg e
  case sizedMap o k c lo hi =>
    split at e
    · rename_i lo' hi' k' d hty
      obtain ⟨us, fl, us', fl', hk, hk', hu⟩ := map_kid (E := E) hb hl.2.2 hty
      split at e
      · rename_i hsz
        have h1 := andG_call (hA rfl k (by simp [parts]) k' us fl hk (mapType_depth hty).1 fun _ => hl.1) (hA rfl c (by simp [parts]) d us' fl' hk' (mapType_depth hty).2 fun _ => hl.2.1) g r g' hg e
        refine ⟨h1.1, fun hr v hv hf hh => ?_⟩
        obtain ⟨i1, i2⟩ := h1.2 hr
        obtain ⟨es, rfl, h2, h3, h4⟩ := hu v hv hf hh
        rw [has_sizedMap]
        refine ⟨es, rfl, by omega, by omega, fun x hx => ?_⟩
        rw [Fits, FitsEntries_iff] at hf
        obtain ⟨⟨u, hu, hux⟩, ⟨u', hu', hux'⟩⟩ := h4 x hx
        exact ⟨i1 u hu _ (WF_map hv x hx).1 (hf.2 x hx).1 hux, i2 u' hu' _ (WF_map hv x hx).2 (hf.2 x hx).2 hux'⟩
      · cases e; exact ⟨hg, by simp⟩
    · exact hC g r g' hg e
  case struct o add fs =>
    split at e
    · rename_i o' add' us
      have hc := @structAsg_call rec J (fun t u => Incl E u t) add' us fs (fun f hf u hu =>
        (hA rfl f.2.2 (by simp only [parts, List.mem_map]; exact ⟨f, hf, rfl⟩) u.2.2 [u.2.2] false
          (.part rfl (by simp only [parts, List.mem_map]; exact ⟨u, hu, rfl⟩))
          (Nat.le_of_lt (part_depth (t := .struct o' add' us) (by simp only [parts, List.mem_map]; exact ⟨u, hu, rfl⟩))) (by simp)).mono fun h => h _ (by simp))
      split at e
      · cases e
      · rename_i g1 e1
        cases e
        exact ⟨(hc hg e1).1, by simp⟩
      · rename_i oc g1 e1
        cases e
        have h1 := hc hg e1
        refine ⟨h1.1, fun hr' => ?_⟩
        have h2 := h1.2 oc rfl
        refine struct_incl ha.ok hb.ok hl.1 hr.1 (fun h => ?_) h2.1 ?_
        · cases add' with
          | false => rfl
          | true => have h3 := hl.2 h; have h4 := hr.2.2 rfl; rw [h3] at h4; cases h4
        · simp only [Bool.or_eq_true, beq_iff_eq] at hr'
          rcases hr' with h | h
          · exact .inl h
          · right; omega
    · exact hE _ _ rfl rfl g r g' hg e
    · exact hC g r g' hg e
  case allOf o ts =>
    split at e
    · rename_i o' us
      have h1 := lessRestrictive_call (P := fun c u => Incl E u c) (fun c hc u hu => hLR rfl c hc us false rfl u hu) g r g' hg e
      refine ⟨h1.1, fun hr v hv hf hh => ?_⟩
      rw [has_allOf] at hh ⊢
      intro t ht
      obtain ⟨u, hu, hi⟩ := h1.2 hr t ht
      exact hi v hv hf (hh u hu)
    · rename_i o' vs
      have h1 := lessRestrictive_call (P := fun c u => Incl E u c) (fun c hc u hu => hLR rfl c hc _ false rfl u hu) g r g' hg e
      refine ⟨h1.1, fun hr v hv hf hh => ?_⟩
      rw [has_allOfVal, List.all_eq_true] at hh
      rw [has_allOf]
      intro t ht
      obtain ⟨u, hu, hi⟩ := h1.2 hr t ht
      exact hi v hv hf (hh u hu)
    · have h0 := allG_call (P := fun c => Incl E b c) (fun c hc => hL rfl c hc)
      split at e
      · cases e
      · rename_i g1 e1
        cases e
        have h1 := h0 g _ _ hg e1
        refine ⟨h1.1, fun hr v hv hf hh => ?_⟩
        rw [has_allOf]
        exact fun t ht => h1.2 rfl t ht v hv hf hh
      · rename_i g1 e1
        exact hC g1 r g' (h0 g _ _ hg e1).1 e
  case allOfVal => exact hl.elim
  case anyOf o ts =>
    split at e
    · rename_i hemp
      exact absurd (List.isEmpty_iff.1 hemp) hl
    · have h0 := anyG_call (P := fun c => Incl E b c) (fun c hc => hL rfl c hc)
      split at e
      · cases e
      · rename_i g1 e1
        cases e
        have h1 := h0 g _ _ hg e1
        refine ⟨h1.1, fun hr v hv hf hh => ?_⟩
        obtain ⟨t, ht, hi⟩ := h1.2 rfl
        rw [has_anyOf]
        exact ⟨t, ht, hi v hv hf hh⟩
      · rename_i g1 e1
        exact hC g1 r g' (h0 g _ _ hg e1).1 e
  case oneOf => exact hl.elim
  case sens o c =>
    split at e
    · rename_i o' d
      have h1 := hA rfl c (by simp [parts]) d [d] false (.part rfl (by simp [parts])) (Nat.le_of_lt (part_depth (t := .sens o' d) (by simp [parts]))) (by simp) g r g' hg e
      refine ⟨h1.1, fun hr v hv hf hh => ?_⟩
      rw [has_sens] at hh ⊢
      obtain ⟨w, rfl, hh⟩ := hh
      rw [Value.WF] at hv
      rw [Fits] at hf
      exact ⟨w, rfl, h1.2 hr d (by simp) w hv hf hh⟩
    · exact hC g r g' hg e

/-- A tuple or struct type on the left, an exact type on the right -/
theorem deepAsg_exact {F : Feat} {eqT : Ty → Ty → Bool} {rec : G → Ty → Ty → Check} {ins : G → Ty → Oid × Val → Check} {a : Ty} {o : Oid} {v : Val} {g : G}
    (ha : Left F a) (ht : isTupleStruct a = true) (hb : Right F (.exactD o v)) (hI : ∀ g', ins g a (o, v) = some (true, g') → has E a v = true) {g' : G}
    (e : deepAsg E eqT rec ins g a (.exactD o v) = some (true, g')) : Incl E (.exactD o v) a := by
  have hE : ins g a (o, v) = some (true, g') → Incl E (.exactD o v) a := by
    intro h w hw hf hwb
    have hok := hb.ok
    rw [Ty.Ok] at hok
    simp only [has, hasP] at hwb
    rw [← has_congr ha.ok hok.2 hw hwb]
    exact hI g' h
  cases a <;> simp only [isTupleStruct, Bool.false_eq_true] at ht <;> cases v <;>
    first
    | exact hE (by simpa only [deepAsg] using e)
    | simp [deepAsg, checkTo, Ty.operands?] at e

/-- A type with parts on the left, and on the right a type that stands for a union -/
theorem deepAsg_union {F : Feat} {eqT : Ty → Ty → Bool} {rec : G → Ty → Ty → Check} {ins : G → Ty → Oid × Val → Check} {J J' : G → Prop} {a b : Ty} {o : Oid} {us : List Ty}
    (ha : Left F a) (hd : a.deep? = some o) (hb : View F b us true) (hf : AndFree a) (hs : ∀ g, J g → J' (g.map Guard.swap))
    (hL : isTernary a = true → ∀ c ∈ parts a, AndFree c → Call (fun g => rec g c b) J (∀ u ∈ us, Incl E u c))
    (hR : ∀ ts ne, b.operands? = some (ts, ne) → ∀ u ∈ ts, Call (fun g => rec g a u) J' (Incl E u a)) :
    Call (fun g => deepAsg E eqT rec ins g a b) J (∀ u ∈ us, Incl E u a) := by
  have hl := ha.every.here
  have hC : Call (fun g => checkTo rec g a b) J (∀ u ∈ us, Incl E u a) := (checkTo_call hs hR).mono hb.checked
  have hbu : (∃ o', b = .allOf o' us) ∨ ∃ o' vs, b = .allOfVal o' vs := by
    cases hb with
    | union h => exact .inl ⟨_, rfl⟩
    | unionVal h => exact .inr ⟨_, _, rfl⟩
  intro g r g' hg e
  cases hf with
  | mk hf1 hf2 hf3 =>
    cases a <;> simp only [Ty.deep?, reduceCtorEq] at hd
    case allOf => exact absurd rfl (hf1 _ _)
    case allOfVal => exact absurd rfl (hf2 _ _)
    case oneOf => exact hl.elim
    case anyOf o ts =>
      simp only [deepAsg] at e
      split at e
      · rename_i hemp
        exact absurd (List.isEmpty_iff.1 hemp) hl
      · have h0 := anyG_call (P := fun c => ∀ u ∈ us, Incl E u c) (fun c hc => hL rfl c hc (hf3 _ _ rfl c hc))
        split at e
        · cases e
        · rename_i g1 e1
          cases e
          have h1 := h0 g _ _ hg e1
          refine ⟨h1.1, fun hr u hu v hv hf hh => ?_⟩
          obtain ⟨t, ht, hi⟩ := h1.2 rfl
          rw [has_anyOf]
          exact ⟨t, ht, hi u hu v hv hf hh⟩
        · rename_i g1 e1
          exact hC g1 r g' (h0 g _ _ hg e1).1 e
    all_goals
      rcases hbu with ⟨o', rfl⟩ | ⟨o', vs, rfl⟩ <;> simp only [deepAsg, Ty.arrayType?, Ty.mapType?] at e <;> exact hC g r g' hg e

/-- A type without parts on the right -/
theorem leafR {F : Feat} : ∀ (n : Nat) (a b : Ty), Left F a → Right F b → b.deep? = none → ∀ (g : G) (r : Bool) (g' : G),
    asg E n g a b = some (r, g') → g' = g ∧ (r = true → Incl E b a)
  | 0, _, _, _, _, _, _, _, _, e => by simp [asg] at e
  | n + 1, a, b, ha, hb, hd, g, r, g', e => by
    cases ho : a.deep? with
    | none =>
      have := leafL (n + 1) a b [b] false ha ho (.plain hb) g r g' e
      exact ⟨this.1, fun h => this.2 h b (by simp)⟩
    | some o =>
      rw [asg, ho, hd] at e
      dsimp only at e
      have hop : b.operands? = none := by cases b <;> simp [Ty.deep?] at hd <;> rfl
      refine deepAsg_plain (J := fun x => x = g) (J' := fun _ => True) ha ho hb (fun _ _ => trivial) ?_ ?_ ?_ ?_ ?_ ?_ g r g' rfl e
      · intro _ c hc d us fl hk _ _ g r g' hg e
        cases hk with
        | part ho' _ => rw [hd] at ho'; cases ho'
        | typ ho' _ _ => rw [hd] at ho'; cases ho'
        | any =>
          have := leafR n c .any (ha.part hc) .any rfl g r g' e
          exact ⟨this.1.trans hg, by simpa using this.2⟩
        | union _ ho' => rw [hd] at ho'; cases ho'
        | unionVal ho' => rw [hd] at ho'; cases ho'
      · intro c hc d us fl hk _ _ g' e
        cases hk with
        | part ho' _ => rw [hd] at ho'; cases ho'
        | typ ho' _ _ => rw [hd] at ho'; cases ho'
        | any =>
          have := leafR n c .any (ha.part hc) .any rfl _ _ g' e
          simpa using this.2
        | union _ ho' => rw [hd] at ho'; cases ho'
        | unionVal ho' => rw [hd] at ho'; cases ho'
      · intro _ c hc g r g' hg e
        have := leafR n c b (ha.part hc) hb hd g r g' e
        exact ⟨this.1.trans hg, this.2⟩
      · intro _ c hc ts ne ho'; rw [hop] at ho'; cases ho'
      · intro ts ne ho'; rw [hop] at ho'; cases ho'
      · rintro _ o' v rfl; cases hd

end Verif.Types
