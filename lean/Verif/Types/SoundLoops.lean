import Verif.Types.SoundCases
/-!
# Assignable: the loops, and the cases without parts
-/
set_option autoImplicit false
set_option linter.unusedVariables false
set_option linter.unusedSimpArgs false
set_option linter.unnecessarySeqFocus false
set_option linter.unusedSectionVars false
namespace Verif.Types
open Verif.Value

variable {E : Env}

/-- A check keeps `J` of the guard, and when it passes, `P` holds. -/
def Call (f : G → Check) (J : G → Prop) (P : Prop) : Prop := ∀ g r g', J g → f g = some (r, g') → J g' ∧ (r = true → P)

theorem Call.mono {f : G → Check} {J : G → Prop} {P Q : Prop} (h : Call f J P) (hpq : P → Q) : Call f J Q := fun g r g' hg e =>
  ⟨(h g r g' hg e).1, fun hr => hpq ((h g r g' hg e).2 hr)⟩

section
variable {α : Type} {f : G → α → Check} {J : G → Prop} {P : α → Prop}

theorem allG_call {xs : List α} (h : ∀ x ∈ xs, Call (fun g => f g x) J (P x)) : Call (fun g => allG f g xs) J (∀ x ∈ xs, P x) := by
  induction xs with
  | nil => intro g r g' hg e; simp only [allG, Option.some.injEq, Prod.mk.injEq] at e; exact ⟨e.2 ▸ hg, by simp⟩
  | cons x xs ih =>
    intro g r g' hg e
    dsimp only [allG] at e
    split at e
    · cases e
    · rename_i g1 e1
      cases e
      exact ⟨(h x (by simp) g _ _ hg e1).1, by simp⟩
    · rename_i g1 e1
      have h1 := h x (by simp) g _ _ hg e1
      have h2 := ih (fun y hy => h y (by simp [hy])) g1 r g' h1.1 e
      refine ⟨h2.1, fun hr y hy => ?_⟩
      rcases List.mem_cons.1 hy with rfl | hy
      · exact h1.2 rfl
      · exact h2.2 hr y hy

theorem anyG_call {xs : List α} (h : ∀ x ∈ xs, Call (fun g => f g x) J (P x)) : Call (fun g => anyG f g xs) J (∃ x ∈ xs, P x) := by
  induction xs with
  | nil => intro g r g' hg e; simp only [anyG, Option.some.injEq, Prod.mk.injEq] at e; exact ⟨e.2 ▸ hg, by simp [← e.1]⟩
  | cons x xs ih =>
    intro g r g' hg e
    dsimp only [anyG] at e
    split at e
    · cases e
    · rename_i g1 e1
      cases e
      have h1 := h x (by simp) g _ _ hg e1
      exact ⟨h1.1, fun _ => ⟨x, by simp, h1.2 rfl⟩⟩
    · rename_i g1 e1
      have h1 := h x (by simp) g _ _ hg e1
      have h2 := ih (fun y hy => h y (by simp [hy])) g1 r g' h1.1 e
      refine ⟨h2.1, fun hr => ?_⟩
      obtain ⟨y, hy, hp⟩ := h2.2 hr
      exact ⟨y, by simp [hy], hp⟩
end

theorem andG_call {f f' : G → Check} {J : G → Prop} {P Q : Prop} (h : Call f J P) (h' : Call f' J Q) : Call (fun g => andG (f g) f') J (P ∧ Q) := by
  intro g r g' hg e
  dsimp only [andG] at e
  split at e
  · cases e
  · rename_i g1 e1
    cases e
    exact ⟨(h g _ _ hg e1).1, by simp⟩
  · rename_i g1 e1
    have h1 := h g _ _ hg e1
    have h2 := h' g1 r g' h1.1 e
    exact ⟨h2.1, fun hr => ⟨h1.2 rfl, h2.2 hr⟩⟩

theorem checkTo_call {rec : G → Ty → Ty → Check} {J J' : G → Prop} {a b : Ty} {P : Ty → Prop} (hs : ∀ g, J g → J' (g.map Guard.swap))
    (h : ∀ ts ne, b.operands? = some (ts, ne) → ∀ u ∈ ts, Call (fun g => rec g a u) J' (P u)) :
    Call (fun g => checkTo rec g a b) J (∃ ts ne, b.operands? = some (ts, ne) ∧ (ne = true → ts ≠ []) ∧ ∀ u ∈ ts, P u) := by
  intro g r g' hg e
  dsimp only [checkTo] at e
  split at e
  · cases e; exact ⟨hg, by simp⟩
  · rename_i ts ne ho
    rw [Option.map_eq_some_iff] at e
    obtain ⟨⟨r1, g1⟩, e1, e2⟩ := e
    simp only [Prod.mk.injEq] at e2
    obtain ⟨rfl, rfl⟩ := e2
    have h1 := allG_call (J := J') (P := P) (fun u hu => h ts ne ho u hu) _ _ _ (hs g hg) e1
    refine ⟨hg, fun hr => ?_⟩
    simp only [Bool.and_eq_true, Bool.not_eq_true', Bool.and_eq_false_iff, List.isEmpty_eq_false_iff] at hr
    refine ⟨ts, ne, ho, fun hn => ?_, h1.2 hr.1⟩
    rcases hr.2 with h | h
    · rw [hn] at h; cases h
    · exact h

theorem markFirst_call {f : G → Ty → Check} {J : G → Prop} {P : Ty → Prop} {m : Bool} {bs : List (Ty × Bool)}
    (h : ∀ b ∈ bs.map (·.1), Call (fun g => f g b) J (P b)) : ∀ {g g' : G} {r}, J g → markFirst f m g bs = some (r, g') →
    J g' ∧ ∀ bs', r = some bs' → (∃ b ∈ bs.map (·.1), P b) ∧ bs'.map (·.1) = bs.map (·.1) := by
  induction bs with
  | nil => intro g g' r hg e; simp only [markFirst, Option.some.injEq, Prod.mk.injEq] at e; exact ⟨e.2 ▸ hg, by simp [← e.1]⟩
  | cons x bs ih =>
    obtain ⟨t, b⟩ := x
    intro g g' r hg e
    have ih := @ih fun y hy => h y (by simp at hy ⊢; exact .inr hy)
    have tail : ∀ {g1 : G}, J g1 → (markFirst f m g1 bs).map (fun x => (x.1.map ((t, b) :: ·), x.2)) = some (r, g') →
        J g' ∧ ∀ bs', r = some bs' → (∃ y ∈ ((t, b) :: bs).map (fun z => z.1), P y) ∧ bs'.map (·.1) = ((t, b) :: bs).map (·.1) := by
      intro g1 hg1 e
      rw [Option.map_eq_some_iff] at e
      obtain ⟨⟨r1, g2⟩, e1, e2⟩ := e
      simp only [Prod.mk.injEq] at e2
      obtain ⟨rfl, rfl⟩ := e2
      have h1 := ih hg1 e1
      refine ⟨h1.1, fun bs' hb => ?_⟩
      rw [Option.map_eq_some_iff] at hb
      obtain ⟨bs1, hb1, rfl⟩ := hb
      obtain ⟨⟨y, hy, hp⟩, h3⟩ := h1.2 bs1 hb1
      exact ⟨⟨y, by simp at hy ⊢; exact .inr hy, hp⟩, by simp [h3]⟩
    rw [markFirst] at e
    split at e
    · split at e
      · cases e
      · rename_i g1 e1
        cases e
        have h1 := h t (by simp) g _ _ hg e1
        refine ⟨h1.1, fun bs' hb => ?_⟩
        cases hb
        exact ⟨⟨t, by simp, h1.2 rfl⟩, by simp⟩
      · rename_i g1 e1
        exact tail (h t (by simp) g _ _ hg e1).1 e
    · exact tail hg e

theorem lessLoop_call {rec : G → Ty → Ty → Check} {J : G → Prop} {P : Ty → Ty → Prop} {as : List Ty} : ∀ {bs : List (Ty × Bool)},
    (∀ a ∈ as, ∀ b ∈ bs.map (·.1), Call (fun g => rec g a b) J (P a b)) → ∀ {g g' : G} {r}, J g → lessLoop rec g as bs = some (r, g') →
    J g' ∧ ∀ bs', r = some bs' → ∀ a ∈ as, ∃ b ∈ bs.map (·.1), P a b := by
  induction as with
  | nil => intro bs h g g' r hg e; simp only [lessLoop, Option.some.injEq, Prod.mk.injEq] at e; exact ⟨e.2 ▸ hg, by simp⟩
  | cons a as ih =>
    intro bs h g g' r hg e
    rw [lessLoop] at e
    have hm : ∀ {bs1 : List (Ty × Bool)} {g1 : G}, bs1.map (·.1) = bs.map (·.1) → J g1 → lessLoop rec g1 as bs1 = some (r, g') → (∃ b ∈ bs.map (·.1), P a b) →
        J g' ∧ ∀ bs', r = some bs' → ∀ x ∈ a :: as, ∃ b ∈ bs.map (·.1), P x b := by
      intro bs1 g1 hb hg1 e hp
      have h1 := ih (bs := bs1) (fun x hx b hb' => h x (by simp [hx]) b (hb ▸ hb')) hg1 e
      refine ⟨h1.1, fun bs' hr x hx => ?_⟩
      rcases List.mem_cons.1 hx with rfl | hx
      · exact hp
      · rw [← hb]; exact h1.2 bs' hr x hx
    split at e
    · cases e
    · rename_i bs1 g1 e1
      have h1 := markFirst_call (h a (by simp)) hg e1
      exact hm (h1.2 _ rfl).2 h1.1 e (h1.2 _ rfl).1
    · rename_i g1 e1
      have h1 := markFirst_call (h a (by simp)) hg e1
      split at e
      · cases e
      · rename_i bs2 g2 e2
        have h2 := markFirst_call (h a (by simp)) h1.1 e2
        exact hm (h2.2 _ rfl).2 h2.1 e (h2.2 _ rfl).1
      · rename_i g2 e2
        cases e
        exact ⟨(markFirst_call (h a (by simp)) h1.1 e2).1, by simp⟩

theorem lessRestrictive_call {rec : G → Ty → Ty → Check} {J : G → Prop} {P : Ty → Ty → Prop} {as bs : List Ty}
    (h : ∀ a ∈ as, ∀ b ∈ bs, Call (fun g => rec g a b) J (P a b)) :
    Call (fun g => lessRestrictive rec g as bs) J (∀ a ∈ as, ∃ b ∈ bs, P a b) := by
  intro g r g' hg e
  dsimp only [lessRestrictive] at e
  have hm : (bs.map fun b => (b, false)).map (·.1) = bs := by simp [List.map_map, Function.comp_def]
  split at e
  · cases e
  · rename_i g1 e1
    cases e
    exact ⟨(lessLoop_call (fun a ha b hb => h a ha b (hm ▸ hb)) hg e1).1, by simp⟩
  · rename_i bs1 g1 e1
    have h1 := lessLoop_call (J := J) (P := P) (fun a ha b hb => h a ha b (hm ▸ hb)) hg e1
    rw [Option.map_eq_some_iff] at e
    obtain ⟨x, _, e2⟩ := e
    simp only [Prod.mk.injEq] at e2
    obtain ⟨rfl, rfl⟩ := e2
    exact ⟨h1.1, fun _ => hm ▸ h1.2 _ rfl⟩

/-! ## Struct types -/

/-- What the loop over the fields has found out about a field -/
def FieldOk (P : Ty → Ty → Prop) (add : Bool) (us : List (Val × Bool × Ty)) (f : Val × Bool × Ty) : Prop :=
  (∃ u ∈ us, eq f.1 u.1 = true ∧ (f.2.1 = true → u.2.1 = true) ∧ P f.2.2 u.2.2) ∨ ((∀ u ∈ us, eq f.1 u.1 = false) ∧ f.2.1 = false ∧ add = false)

theorem structAsg_call {rec : G → Ty → Ty → Check} {J : G → Prop} {P : Ty → Ty → Prop} {add : Bool} {us fs : List (Val × Bool × Ty)}
    (h : ∀ f ∈ fs, ∀ u ∈ us, Call (fun g => rec g f.2.2 u.2.2) J (P f.2.2 u.2.2)) : ∀ {g g' : G} {oc : Nat} {r}, J g →
    structAsg rec add us g oc fs = some (r, g') →
    J g' ∧ ∀ m, r = some m → (∀ f ∈ fs, FieldOk P add us f) ∧ m = oc + countFields fs (us.map fun u => (u.1, .nil)) := by
  have hg' : ∀ k, (mapGet (us.map fun u => (u.1, Val.nil)) k).isSome = us.any fun u => eq k u.1 := by
    intro k; rw [mapGet_isSome, List.any_map]; rfl
  induction fs with
  | nil => intro g g' oc r hg e; simp only [structAsg, Option.some.injEq, Prod.mk.injEq] at e; exact ⟨e.2 ▸ hg, by simp [← e.1, countFields]⟩
  | cons f fs ih =>
    obtain ⟨k, rq, t⟩ := f
    intro g g' oc r hg e
    have ih := @ih fun f hf u hu => h f (by simp [hf]) u hu
    rw [structAsg] at e
    split at e
    · rename_i k' rq' u hu
      have hmem := List.mem_of_find?_eq_some hu
      have hk := List.find?_some hu
      split at e
      · cases e; exact ⟨hg, by simp⟩
      · rename_i hrq
        have h0 := h (k, rq, t) (by simp) _ hmem
        split at e
        · cases e
        · rename_i g1 e1
          cases e
          exact ⟨(h0 g _ _ hg e1).1, by simp⟩
        · rename_i g1 e1
          have h1 := h0 g _ _ hg e1
          have h2 := ih h1.1 e
          refine ⟨h2.1, fun m hm => ?_⟩
          have h3 := h2.2 m hm
          refine ⟨fun f hf => ?_, ?_⟩
          · rcases List.mem_cons.1 hf with rfl | hf
            · refine .inl ⟨_, hmem, hk, ?_, h1.2 rfl⟩
              intro hr; simp only at hr; subst hr; simpa using hrq
            · exact h3.1 f hf
          · rw [countFields, hg', if_pos (by rw [List.any_eq_true]; exact ⟨_, hmem, hk⟩)]; omega
    · rename_i hu
      rw [List.find?_eq_none] at hu
      split at e
      · cases e; exact ⟨hg, by simp⟩
      · rename_i hrq
        have h2 := ih hg e
        refine ⟨h2.1, fun m hm => ?_⟩
        have h3 := h2.2 m hm
        refine ⟨fun f hf => ?_, ?_⟩
        · rcases List.mem_cons.1 hf with rfl | hf
          · simp only [Bool.or_eq_true, not_or, Bool.not_eq_true] at hrq
            exact .inr ⟨fun u hu' => by simpa using hu u hu', hrq.1, hrq.2⟩
          · exact h3.1 f hf
        · rw [countFields, hg', if_neg]
          · omega
          · rw [List.any_eq_true]; rintro ⟨u, h1, h2⟩; exact hu u h1 h2

theorem struct_incl {o o' : Oid} {add add' : Bool} {fs us : List (Val × Bool × Ty)} (hfo : OkFields fs) (huo : OkFields us) (hfd : DistinctKeys fs)
    (hud : DistinctKeys us) (hadd : add = false → add' = false) (hf : ∀ f ∈ fs, FieldOk (fun t u => Incl E u t) add' us f)
    (hc : add = true ∨ countFields fs (us.map fun u => (u.1, .nil)) = us.length) : Incl E (.struct o' add' us) (.struct o add fs) := by
  intro v hv hfits hh
  have hfo := OkFields_iff.1 hfo
  have huo := OkFields_iff.1 huo
  cases v with
  | map es =>
    have hd : DistinctKeys es := by rw [Value.WF] at hv; exact hv.2
    have hv' := WF_map hv
    rw [Fits, FitsEntries_iff] at hfits
    rw [has_struct (fun f hf => (huo f hf).2.1) (fun e he => (hv' e he).1) hud hd] at hh
    rw [has_struct (fun f hf => (hfo f hf).2.1) (fun e he => (hv' e he).1) hfd hd]
    refine ⟨fun f hf' => ?_, ?_⟩
    · rcases hf f hf' with ⟨u, hu, hk, hrq, hi⟩ | ⟨hno, hrq, had⟩
      · have hg : mapGet es f.1 = mapGet es u.1 := mapGet_key (fun e he => (hv' e he).1) (hfo f hf').2.1 (huo u hu).2.1 hk
        have h1 := hh.1 u hu
        rw [hg]
        refine ⟨fun hr => h1.1 (hrq hr), fun w hw => ?_⟩
        obtain ⟨e, he, _, rfl⟩ := (mapGet_some_iff (fun e he => (hv' e he).1) hd (huo u hu).2.1).1 hw
        exact hi _ (hv' e he).2 (hfits.2 e he).2 (h1.2 _ hw)
      · refine ⟨fun hr => absurd (hrq.symm.trans hr) (by simp), fun w hw => ?_⟩
        obtain ⟨e, he, hke, rfl⟩ := (mapGet_some_iff (fun e he => (hv' e he).1) hd (hfo f hf').2.1).1 hw
        rcases hh.2 with h | h
        · rw [had] at h; cases h
        · have := h e he
          rw [hasEntry, List.any_eq_true] at this
          obtain ⟨u, hu, hue⟩ := this
          have h2 := laws.trans f.1 e.1 u.1 (hfo f hf').2.1 (hv' e he).1 (huo u hu).2.1 hke (laws.symm _ _ (huo u hu).2.1 (hv' e he).1 hue)
          rw [hno u hu] at h2; cases h2
    · cases hadd' : add with
      | true => exact .inl rfl
      | false =>
        right
        intro e he
        have had := hadd hadd'
        have hcc : countFields fs (us.map fun u => (u.1, .nil)) = us.length := by rcases hc with h | h; rw [hadd'] at h; cases h; exact h
        have hdk : DistinctKeys (us.map fun u => (u.1, Val.nil)) := by
          unfold DistinctKeys at hud ⊢
          rw [List.pairwise_map]
          exact hud
        rw [countFields_eq (fun f hf => (hfo f hf).2.1) (by
            intro e he; obtain ⟨u, hu, rfl⟩ := List.mem_map.1 he; exact (huo u hu).2.1) hfd hdk, List.countP_map,
          List.countP_eq_length] at hcc
        rcases hh.2 with h | h
        · rw [had] at h; cases h
        · have := h e he
          rw [hasEntry, List.any_eq_true] at this
          obtain ⟨u, hu, hue⟩ := this
          have h3 := hcc u hu
          simp only [Function.comp_apply, hasEntry, List.any_eq_true] at h3
          obtain ⟨f, hf', hfu⟩ := h3
          rw [hasEntry, List.any_eq_true]
          exact ⟨f, hf', laws.trans _ _ _ (hfo f hf').2.1 (huo u hu).2.1 (hv' e he).1 hfu hue⟩
  | _ => simp [has, hasP] at hh

/-! ## Tuples -/

theorem tupleTuple_call {rec : G → Ty → Ty → Check} {J : G → Prop} {o o' : Oid} {ts us : List Ty} {var var' : Bool} (hv : var = true → ts ≠ [])
    (hv' : var' = true → us ≠ []) (hvv : var = true → var' = false) (h : ∀ t ∈ ts, ∀ u ∈ us, Call (fun g => rec g t u) J (Incl E u t)) :
    Call (fun g => tupleTuple rec g ts var us var') J (Incl E (.tuple o' us var') (.tuple o ts var)) := by
  intro g r g' hg e
  by_cases hc : (if var then ts.length - 1 else ts.length) > (if var' then us.length - 1 else us.length) ∨
      (if var' then maxInt else len us) > (if var then maxInt else len ts)
  · simp only [tupleTuple, if_pos hc] at e
    cases e; exact ⟨hg, by simp⟩
  · simp only [tupleTuple, if_neg hc] at e
    rw [not_or, not_lt, not_lt] at hc
    have h1 := allG_call (J := J) (xs := List.range (max (if var then ts.length - 1 else ts.length) (if var' then us.length - 1 else us.length)))
      (P := fun i => ∃ t u, elemAt ts var i = some t ∧ elemAt us var' i = some u ∧ Incl E u t) (fun i _ => by
        intro g r g' hg e
        dsimp only at e
        split at e
        · rename_i t u ht hu
          have := h t (elemAt_mem ht) u (elemAt_mem hu) g r g' hg e
          exact ⟨this.1, fun hr => ⟨t, u, ht, hu, this.2 hr⟩⟩
        · cases e; exact ⟨hg, by simp⟩) g r g' hg e
    refine ⟨h1.1, fun hr v hw hfits hh => ?_⟩
    have h2 := h1.2 hr
    rw [has_tuple_at hv'] at hh
    rw [has_tuple_at hv]
    obtain ⟨vs, rfl, hl, hh⟩ := hh
    rw [Fits, FitsAll_iff] at hfits
    have hfl := hfits.1
    simp only [len] at hc hfl
    refine ⟨vs, rfl, ?_, fun i x hx => ?_⟩
    · cases var <;> cases var' <;> simp only [if_true, Bool.false_eq_true, if_false] at hl hc ⊢
      · omega
      · have := List.length_pos_iff.2 (hv' rfl); omega
      · have := List.length_pos_iff.2 (hv rfl); omega
      · exact absurd (hvv rfl) (by simp)
    · obtain ⟨u, hu, hux⟩ := hh i x hx
      have hi : i < vs.length := (List.getElem?_eq_some_iff.1 hx).1
      obtain ⟨t, u', ht, hu', hi'⟩ := h2 i (by
        rw [List.mem_range]
        cases var <;> cases var' <;> simp only [if_true, Bool.false_eq_true, if_false] at hl hc ⊢
        · omega
        · have := List.length_pos_iff.2 (hv' rfl); omega
        · omega
        · exact absurd (hvv rfl) (by simp))
      rw [hu] at hu'; cases hu'
      have hm := List.mem_of_getElem? hx
      exact ⟨t, ht, hi' x (WF_arr hw x hm) (hfits.2 x hm) hux⟩

theorem tupleArray_call {rec : G → Ty → Ty → Check} {J : G → Prop} {o o' : Oid} {ts : List Ty} {var : Bool} {e : Ty} {lo hi : Int}
    (hv : var = true → ts ≠ []) (h : ∀ t ∈ ts, Call (fun g => rec g t e) J (Incl E e t)) :
    Call (fun g => tupleArray rec g ts var e lo hi) J (Incl E (.sizedArr o' e lo hi) (.tuple o ts var)) := by
  intro g r g' hg e'
  by_cases hc : (if var then len ts - 1 else len ts) ≤ lo ∧ hi ≤ (if var then maxInt else len ts)
  · simp only [tupleArray, if_pos hc] at e'
    have h1 := allG_call h g r g' hg e'
    refine ⟨h1.1, fun hr v hw hfits hh => ?_⟩
    have h2 := h1.2 hr
    rw [has_sizedArr] at hh
    obtain ⟨vs, rfl, hlo, hhi, hh⟩ := hh
    rw [Fits, FitsAll_iff] at hfits
    rw [has_tuple_at hv]
    simp only [len] at hc hlo hhi
    refine ⟨vs, rfl, ?_, fun i x hx => ?_⟩
    · cases var <;> simp only [if_true, Bool.false_eq_true, if_false] at hc ⊢ <;> omega
    · have hi : i < vs.length := (List.getElem?_eq_some_iff.1 hx).1
      obtain ⟨t, ht⟩ := elemAt_lt (i := i) hv (by rintro rfl; simp only [Bool.false_eq_true, if_false] at hc; omega)
      have hm := List.mem_of_getElem? hx
      exact ⟨t, ht, h2 t (elemAt_mem ht) x (WF_arr hw x hm) (hfits.2 x hm) (hh x hm)⟩
  · simp only [tupleArray, if_neg hc] at e'
    cases e'; exact ⟨hg, by simp⟩

/-! ## Types without parts -/

theorem intRange_incl {min max min' max' : BitVec 64} {incl incl' : Bool} (hl : incl = true ∨ max ≠ minI64) (h1 : min'.slt min = false)
    (h2 : (if incl' then max' else max' - 1).sle (if incl then max else max - 1) = true) {i : BitVec 64} (h3 : min'.sle i = true)
    (h4 : (if incl' then i.sle max' else i.slt max') = true) : min.sle i = true ∧ (if incl then i.sle max else i.slt max) = true := by
  have key : ∀ x : BitVec 64, x ≠ minI64 → (x - 1).toInt = x.toInt - 1 := by
    intro x hx
    have h0 : x.toInt ≠ minI64.toInt := fun h => hx (BitVec.eq_of_toInt_eq h)
    have hm : minI64.toInt = -9223372036854775808 := by decide
    have := x.toInt_lt
    have := x.le_toInt
    rw [BitVec.toInt_sub, Int.bmod_eq_of_le] <;> simp only [show (1 : BitVec 64).toInt = 1 by decide] <;> omega
  simp only [BitVec.sle_eq_decide, BitVec.slt_eq_decide, decide_eq_true_eq, decide_eq_false_iff_not] at *
  have hi1 := i.toInt_lt
  have hi2 := i.le_toInt
  have hm : minI64.toInt = -9223372036854775808 := by decide
  refine ⟨by omega, ?_⟩
  have hr : incl' = false → max' ≠ minI64 := by
    rintro rfl rfl
    simp only [Bool.false_eq_true, if_false, decide_eq_true_eq] at h4
    omega
  cases incl <;> cases incl' <;> simp only [if_true, Bool.false_eq_true, if_false, decide_eq_true_eq] at h2 h4 ⊢
  · rw [key max (by simpa using hl), key max' (hr rfl)] at h2; omega
  · rw [key max (by simpa using hl)] at h2; omega
  · rw [key max' (hr rfl)] at h2; omega
  · omega

theorem floatRange_incl {min max min' max' : F64} {incl incl' : Bool} (hn : Value.F64.isNaN min = false) (h1 : Value.F64.lt min' min = false)
    (h2 : (if incl || incl == incl' then F64.le max' max else Value.F64.lt max' max) = true) {f : F64} (h3 : F64.le min' f = true)
    (h4 : (if incl' then F64.le f max' else Value.F64.lt f max') = true) :
    F64.le min f = true ∧ (if incl then F64.le f max else Value.F64.lt f max) = true := by
  unfold F64.le Value.F64.lt Value.F64.eq at *
  cases incl <;> cases incl' <;>
    simp only [hn, if_true, Bool.false_eq_true, if_false, Bool.or_true, Bool.true_or, Bool.or_false, Bool.false_or, beq_self_eq_true, Bool.or_eq_true, Bool.and_eq_true,
      Bool.not_eq_true', decide_eq_true_eq, beq_iff_eq, Bool.and_eq_false_iff, decide_eq_false_iff_not, Bool.not_eq_false', Bool.false_eq_true, Bool.true_eq_false, beq_eq_false_iff_ne, Bool.not_false] at * <;>
    grind

theorem eq_int {i : BitVec 64} {w : Val} (h : eq (.int i) w = true) : w = .int i := by
  cases w <;> simp [eq] at h; rw [h]
theorem eq_str {s : Str} {w : Val} (h : eq (.str s) w = true) : w = .str s := by
  cases w <;> simp [eq] at h; rw [h]
theorem eq_bin {s : _} {w : Val} (h : eq (.bin s) w = true) : w = .bin s := by
  cases w <;> simp [eq] at h; rw [h]
theorem eq_float {f : F64} {w : Val} (h : eq (.float f) w = true) : ∃ f', w = .float f' ∧ Value.F64.eq f f' = true := by
  cases w <;> simp [eq] at h; exact ⟨_, rfl, h⟩

theorem leafCase_sound {F : Feat} {eqT : Ty → Ty → Bool} {a b : Ty} (ha : Left F a) (hb : Right F b) (h : leafCase E eqT a b = some true) :
    Incl E b a := by
  intro v hv hf hh
  have hl := ha.every.here
  have hr := hb.every.here
  have hoa := ha.ok
  have hob := hb.ok
  unfold leafCase at h
  split at h <;> first
    | (simp only [Option.some.injEq, Bool.false_eq_true, reduceCtorEq] at h; done)
    | skip
  all_goals try (cases v <;> simp_all [has, hasP]; done)
  all_goals try (cases v <;> simp_all [has, hasP, eq]; done)
  case h_28 u w =>
    split at h
    · rename_i hvw
      simp only [has, hasP] at hh ⊢
      rw [Ty.Ok] at hoa hob
      exact laws.trans _ _ _ hoa.2 hob.2 hv hvw hh
    · cases h
  case h_30 min max incl min' max' incl' =>
    cases v <;> simp only [has, hasP, Bool.false_eq_true] at hh ⊢
    simp only [Option.some.injEq] at h
    split at h
    · cases h
    · rename_i h1
      rw [Bool.and_eq_true] at hh ⊢
      exact intRange_incl hl (by simpa using h1) h hh.1 hh.2
  case h_31 min max incl f =>
    simp only [has, hasP] at hh
    obtain ⟨f', rfl, hff⟩ := eq_float hh
    simp only [has, hasP]
    rw [Option.some.injEq] at h
    have h1 := F64.le_congr (a := min) hff
    have h2 := F64.le_congr (a := max) hff
    rw [← h1.1, ← h2.2.1, ← h2.2.2]
    exact h
  case h_32 min max incl min' max' incl' =>
    cases v <;> simp only [has, hasP, Bool.false_eq_true] at hh ⊢
    simp only [Option.some.injEq] at h
    split at h
    · cases h
    · rename_i h1
      rw [Bool.and_eq_true] at hh ⊢
      exact floatRange_incl hl (by simpa using h1) h hh.1 hh.2
  case h_34 => simp only [Lnode, Rnode] at hl hr; rw [hl] at hr; cases hr
  all_goals
    cases v <;> simp only [has, hasP, Bool.false_eq_true] at hh ⊢
    simp only [Option.some.injEq, Bool.and_eq_true, decide_eq_true_eq] at h hh ⊢
    omega

end Verif.Types
