import Verif.Arr.EachSpec
import Verif.Arr.Props
/-! Lemmas for C109. -/
set_option autoImplicit false
set_option linter.unusedSectionVars false
set_option linter.unusedVariables false
namespace Verif.Arr
open HMap (KeyOps)

variable {V S : Type} [ElemOps V] {grow : Nat → Nat → Nat}

theorem run_inv {I : World V → Prop} {Q : Op V → Prop} (hstep : ∀ {w op}, I w → Q op → I (exec grow w op).2) {P : Prog V S} {w : World V}
    (hq : P.Calls Q) (hi : I w) : I (P.run grow w).2 := by
  induction P generalizing w with
  | ret => exact hi
  | call op cont ih => exact ih _ (hq.2 _) (hstep hi hq.1)

theorem run_goes {P : Prog V S} {w : World V} (h : P.Goes) : (P.run grow w).1.2 = true := by
  induction P generalizing w with
  | ret => exact h
  | call op cont ih => exact ih _ (h _)

theorem run_map {T : Type} {f : S → T} {P : Prog V S} {w : World V} :
    ((P.map f).run grow w) = ((f (P.run grow w).1.1, (P.run grow w).1.2), (P.run grow w).2) := by
  induction P generalizing w with
  | ret => rfl
  | call op cont ih => exact ih _

theorem Prog.Calls.top {P : Prog V S} : P.Calls fun _ => True := by
  induction P with
  | ret => trivial
  | call op cont ih => exact ⟨trivial, ih⟩

/-- Storage never shrinks. -/
theorem inside_exec {w : World V} (hw : Bnd w) {s : Sl} (hs : Inside w.stores s) (op : Op V) : Inside (exec grow w op).2.stores s := by
  have := exec_change (grow := grow) hw op
  generalize (exec grow w op).2 = w' at this
  cases this with
  | same => exact hs
  | upd a g s' st hg hfr ht hin lim hf hp => exact hf.inside hs
  | new s' st fr ht hin hp =>
    obtain ⟨k, lim, hf⟩ := hp.frame
    exact hf.inside hs
  | froze => exact hs
  | rawCopy s' st ht hin h hf => exact (hf 0 0).inside hs
  | rawShare => exact hs
  | rawWrite r s' st hr ht lim hf ho => exact hf.inside hs

/-- The slice of an array that a call doesn't change. -/
theorem header_change {w w' : World V} {op : Op V} (h : Change w op w') {a : Nat} {g : Obj} (hg : w.arrs[a]? = some g)
    (hn : g.frozen = true ∨ target op ≠ some a) : ∃ g', w'.arrs[a]? = some g' ∧ g'.sl = g.sl ∧ (g.frozen = true → g'.frozen = true) := by
  have hl := (List.getElem?_eq_some_iff.1 hg).1
  cases h with
  | same => exact ⟨g, hg, rfl, id⟩
  | upd b g' s st hg' hfr ht hin lim hf hp =>
    have hne : b ≠ a := by
      rintro rfl
      rw [hg] at hg'; cases hg'
      rcases hn with h | h
      · rw [h] at hfr; cases hfr
      · exact h ht
    exact ⟨g, by simp only [setSlice]; rw [List.getElem?_set_ne hne, hg], rfl, id⟩
  | new s st fr ht hin hp => exact ⟨g, by simp only [newArr]; rw [List.getElem?_append_left hl, hg], rfl, id⟩
  | froze b g' hg' ht =>
    by_cases e : b = a
    · subst e
      rw [hg] at hg'; cases hg'
      exact ⟨{ g with frozen := true }, by rw [List.getElem?_set_self hl], rfl, fun _ => rfl⟩
    · exact ⟨g, by rw [List.getElem?_set_ne e, hg], rfl, id⟩
  | rawCopy => exact ⟨g, hg, rfl, id⟩
  | rawShare => exact ⟨g, hg, rfl, id⟩
  | rawWrite => exact ⟨g, hg, rfl, id⟩

theorem header_exec {w : World V} (hw : Bnd w) {op : Op V} {a : Nat} {g : Obj} (hg : w.arrs[a]? = some g) (hk : KeepsLength a op) :
    ∃ g', (exec grow w op).2.arrs[a]? = some g' ∧ g'.sl = g.sl := by
  by_cases ht : target op = some a
  · cases op with
    | set b pos x =>
      cases ht
      simp only [exec, onMutable, onArr, hg]
      split
      · exact ⟨g, hg, rfl⟩
      · split
        · exact ⟨g, hg, rfl⟩
        · exact ⟨g, hg, rfl⟩
    | freeze b =>
      cases ht
      simp only [exec, onArr, hg]
      exact ⟨{ g with frozen := true }, by rw [List.getElem?_set_self (List.getElem?_eq_some_iff.1 hg).1], rfl⟩
    | add b => cases ht; exact absurd rfl hk
    | addAll b => cases ht; exact absurd rfl hk
    | addValues b => cases ht; exact absurd rfl hk
    | insert b => cases ht; exact absurd rfl hk
    | remove b => cases ht; exact absurd rfl hk
    | removeValue b => cases ht; exact absurd rfl hk
    | pop b => cases ht; exact absurd rfl hk
    | _ => cases ht
  · obtain ⟨g', h1, h2, _⟩ := header_change (exec_change hw op) hg (.inr ht)
    exact ⟨g', h1, h2⟩

/-! ### Loops -/

/-- The loop reads the cells of the slice it began with. -/
theorem visit_ok {actor : S → Nat → Option V → Prog V S} {a : Sl} {n i : Nat} {s : S} {w : World V} (hw : Bnd w) (ha : Inside w.stores a)
    (hn : i + n = a.len) : ∃ x w', visit grow actor a n i s w = some (x, w') ∧ Bnd w' ∧ x.seen.map (·.1) <+: List.range' i n ∧
      ((∀ s i c, (actor s i c).Goes) → x.seen.map (·.1) = List.range' i n) := by
  induction n generalizing i s w with
  | zero => exact ⟨_, w, rfl, hw, by simp, fun _ => rfl⟩
  | succ n ih =>
    have hi : i < (read w.stores a).length := by rw [read_length ha]; omega
    obtain ⟨h1, h2⟩ := run_inv (grow := grow) (I := fun w => Bnd w ∧ Inside w.stores a) (Q := fun _ => True)
      (fun h _ => ⟨exec_bnd h.1 _, inside_exec h.1 h.2 _⟩) (P := actor s i (read w.stores a)[i]) Prog.Calls.top ⟨hw, ha⟩
    rw [visit, List.getElem?_eq_getElem hi]
    simp only
    split
    · obtain ⟨x, w', e1, e2, e3, e4⟩ := ih (s := ((actor s i (read w.stores a)[i]).run grow w).1.1) h1 h2 (i := i + 1) (by omega)
      refine ⟨_, w', by rw [e1]; rfl, e2, ?_, fun hg => ?_⟩
      · simp only [List.map_cons, List.range'_succ, List.cons_prefix_cons, true_and]; exact e3
      · simp only [List.map_cons, List.range'_succ, e4 hg]
    · rename_i hgo
      refine ⟨_, _, rfl, h1, ?_, fun hg => absurd (run_goes (hg _ _ _)) hgo⟩
      simp only [List.map_cons, List.map_nil, List.range'_succ, List.cons_prefix_cons, List.nil_prefix, and_self]

/-- The cells don't change if all calls leave them alone. -/
theorem visit_same {actor : S → Nat → Option V → Prog V S} {a : Sl} {Q : Op V → Prop} {I : World V → Prop} {l : List (Option V)}
    (hstep : ∀ {w op}, I w → Q op → I (exec grow w op).2) (hread : ∀ {w}, I w → read w.stores a = l)
    (hq : ∀ s i c, (actor s i c).Calls Q) (hg : ∀ s i c, (actor s i c).Goes) {n i : Nat} {s : S} {w : World V} (hi : I w) (hn : i + n = l.length) :
    ∃ x w', visit grow actor a n i s w = some (x, w') ∧ I w' ∧ x.seen.map (·.2) = l.drop i := by
  induction n generalizing i s w with
  | zero => exact ⟨_, w, rfl, hi, by rw [List.drop_eq_nil_of_le (by omega)]; rfl⟩
  | succ n ih =>
    have hil : i < l.length := by omega
    rw [visit, hread hi, List.getElem?_eq_getElem hil]
    simp only [run_goes (hg _ _ _), if_true]
    obtain ⟨x, w', e1, e2, e3⟩ := ih (s := ((actor s i l[i]).run grow w).1.1) (run_inv hstep (hq s i l[i]) hi) (i := i + 1) (by omega)
    refine ⟨_, w', by rw [e1]; rfl, e2, ?_⟩
    simp only [List.map_cons, e3]
    rw [List.drop_eq_getElem_cons hil]

/-- What is read is what `Get` returns as long as the array has its slice. -/
theorem visit_checked {actor : S → Nat → Option V → Prog V S} {a : Nat} {sl : Sl} (hq : ∀ s i c, (actor s i c).Calls (KeepsLength a))
    {n i : Nat} {s : S × Prop} {w : World V} (hw : Bnd w) (ha : ∃ g, w.arrs[a]? = some g ∧ g.sl = sl) (hn : i + n = sl.len) (hs : s.2) :
    ∃ x w', visit grow (checked a actor) sl n i s w = some (x, w') ∧ x.state.2 := by
  induction n generalizing i s w with
  | zero => exact ⟨_, w, rfl, hs⟩
  | succ n ih =>
    obtain ⟨g, hg, rfl⟩ := ha
    have hi : i < (read w.stores g.sl).length := by rw [read_length (hw.arrs a g hg)]; omega
    have hget : exec grow w (.get a i) = (.val (read w.stores g.sl)[i], w) := by
      simp only [exec, onArr, hg]
      rw [if_pos (by omega), Int.toNat_natCast, List.getElem?_eq_getElem hi]
      rfl
    rw [visit, List.getElem?_eq_getElem hi]
    simp only [checked, Prog.run, hget, run_map]
    obtain ⟨h1, h2⟩ := run_inv (grow := grow) (I := fun w => Bnd w ∧ ∃ g', w.arrs[a]? = some g' ∧ g'.sl = g.sl) (Q := KeepsLength a)
      (fun ⟨h1, g', h2, h3⟩ hk => ⟨exec_bnd h1 _, by obtain ⟨g2, h4, h5⟩ := header_exec h1 h2 hk; exact ⟨g2, h4, h5.trans h3⟩⟩)
      (hq s.1 i (read w.stores g.sl)[i]) ⟨hw, g, hg, rfl⟩
    split
    · obtain ⟨x, w', e1, e2⟩ := ih (s := (((actor s.1 i (read w.stores g.sl)[i]).run grow w).1.1, s.2 ∧ True)) h1 h2 (i := i + 1) (by omega) ⟨hs, trivial⟩
      refine ⟨⟨(i, (read w.stores g.sl)[i]) :: x.seen, x.state⟩, w', ?_, e2⟩
      simp only [and_true] at e1 ⊢
      rw [e1]; rfl
    · exact ⟨_, _, rfl, hs, trivial⟩

/-! ### Calls that only add -/

/-- The slice `s`, with the elements `l`, is in front of what is written when elements are added to the array `a`. -/
structure Before (w : World V) (a : Nat) (s : Sl) (l : List (Option V)) : Prop where
  inside : Inside w.stores s
  ex : ∃ g, w.arrs[a]? = some g ∧ (g.sl.store ≠ s.store ∨ s.off + s.len ≤ g.sl.off + g.sl.len)
  same : read w.stores s = l

theorem Before.append {w : World V} {a : Nat} {s : Sl} {l : List (Option V)} (h : Before w a s l) (hw : Bnd w) {g : Obj} (hg : w.arrs[a]? = some g)
    (xs : List (Option V)) : Before (setSlice w a g (append grow w.stores g.sl xs)) a s l ∧
      ∀ f, Before (newArr w (append grow w.stores g.sl xs) f).2 a s l := by
  obtain ⟨g', hg', hp⟩ := h.ex
  rw [hg] at hg'; cases hg'
  have hs := append_spec grow xs (hw.arrs a g hg)
  have h1 := hs.frame.inside h.inside
  have h2 : read (Arr.append grow w.stores g.sl xs).2 s = l := by rw [hs.frame.read s h.inside (by omega), h.same]
  have hl := (List.getElem?_eq_some_iff.1 hg).1
  refine ⟨⟨h1, ⟨_, by simp only [setSlice]; rw [List.getElem?_set_self hl], ?_⟩, h2⟩, fun f =>
    ⟨h1, ⟨g, by simp only [newArr]; rw [List.getElem?_append_left hl, hg], hp⟩, h2⟩⟩
  have := h.inside.1
  simp only
  rcases hs.place with ⟨p1, p2, p3, _⟩ | p
  · rw [p1, p2, p3]; omega
  · left; have := p.1; omega

theorem Before.exec {w : World V} {a : Nat} {s : Sl} {l : List (Option V)} (h : Before w a s l) (hw : Bnd w) {op : Op V} (hq : OnlyAdds a op) :
    Before (exec grow w op).2 a s l := by
  obtain ⟨g, hg, hp⟩ := h.ex
  have quiet : target op = none → extension op = none → Before (Arr.exec grow w op).2 a s l := by
    intro ht he
    have hc := exec_change (grow := grow) hw op
    obtain ⟨g', e1, e2, _⟩ := header_change hc hg (.inr (by rw [ht]; intro h; cases h))
    have hp' : g'.sl.store ≠ s.store ∨ s.off + s.len ≤ g'.sl.off + g'.sl.len := by rw [e2]; exact hp
    generalize (Arr.exec grow w op).2 = w' at hc e1
    cases hc with
    | same => exact h
    | upd b g' s st hg' hfr ht' => rw [ht] at ht'; cases ht'
    | new s' st fr _ hin hpl =>
      cases hpl with
      | fresh hs hf => exact ⟨(hf 0 0).inside h.inside, ⟨g', e1, hp'⟩, by
          rw [← h.same]; exact (hf s.store (s.off + s.len)).read s h.inside (.inr (Nat.le_refl _))⟩
      | behind b g2 n hg2 hfr hs hcap he' => rw [he] at he'; cases he'
      | shared b g2 hg2 hfr hfr' hs hst => subst hst; exact ⟨h.inside, ⟨g', e1, hp'⟩, h.same⟩
      | wrapped r t hr ho hs hst => subst hst; exact ⟨h.inside, ⟨g', e1, hp'⟩, h.same⟩
    | froze b g2 hg2 ht' => rw [ht] at ht'; cases ht'
    | rawCopy s' st _ hin hs hf => exact ⟨(hf 0 0).inside h.inside, ⟨g', e1, hp'⟩, by
          rw [← h.same]; exact (hf s.store (s.off + s.len)).read s h.inside (.inr (Nat.le_refl _))⟩
    | rawShare => exact ⟨h.inside, ⟨g', e1, hp'⟩, h.same⟩
    | rawWrite r s' st hr _ lim hf ho =>
      obtain ⟨i, x, rfl⟩ := ho
      cases hq
  cases op with
  | add b x =>
    cases hq
    simp only [Arr.exec, onMutable, onArr, hg]
    split
    · exact h
    · exact (h.append hw hg _).1
  | addAll b c =>
    cases hq
    simp only [Arr.exec, onMutable, onArr, hg]
    split
    · exact h
    · split
      · exact (h.append hw hg _).1
      · exact h
  | addValues b xs =>
    cases hq
    simp only [Arr.exec, onMutable, onArr, hg]
    split
    · exact h
    · exact (h.append hw hg _).1
  | «with» b x =>
    cases hq
    simp only [Arr.exec, onArr, hg]
    exact (h.append hw hg _).2 _
  | withValues b xs =>
    cases hq
    simp only [Arr.exec, onArr, hg]
    split
    · exact h
    · exact (h.append hw hg _).2 _
  | freeze b =>
    simp only [Arr.exec, onArr]
    split
    · rename_i g2 hg2
      refine ⟨h.inside, ?_, h.same⟩
      by_cases e : b = a
      · subst e
        rw [hg] at hg2; cases hg2
        exact ⟨_, List.getElem?_set_self (List.getElem?_eq_some_iff.1 hg).1, hp⟩
      · exact ⟨g, by simp only; rw [List.getElem?_set_ne e, hg], hp⟩
    · exact h
  | insert | set | remove | removeValue | pop | rawSet => cases hq
  | _ => exact quiet rfl rfl

/-! ### Other arrays -/

theorem safe_apart {w : World V} {op : Op V} (h : KeepsApart op) : Safe w op := by
  cases op with
  | «with» | withValues | goSlice | wrapSlice => cases h
  | _ => trivial

/-- The slice and the elements of the array `a` are as they were. -/
structure Still (w : World V) (a : Nat) (s : Sl) (l : List (Option V)) (fr : Bool) : Prop where
  sep : Sep w
  ex : ∃ g, w.arrs[a]? = some g ∧ g.sl = s ∧ (fr = true → g.frozen = true)
  same : read w.stores s = l

theorem Still.exec {w : World V} {a : Nat} {s : Sl} {l : List (Option V)} {fr : Bool} (h : Still w a s l fr) {op : Op V} (hq : KeepsApart op)
    (hn : fr = true ∨ ¬ Changes a op) : Still (exec grow w op).2 a s l fr := by
  obtain ⟨hsep, ⟨g, hg, rfl, hfr⟩, hr⟩ := h
  obtain ⟨h1, h2⟩ := exec_sep (grow := grow) hsep op (safe_apart hq)
  by_cases ht : target op = some a
  · by_cases hz : op = .freeze a
    · subst hz
      simp only [Arr.exec, onArr, hg] at h1 ⊢
      exact ⟨h1, ⟨_, List.getElem?_set_self (List.getElem?_eq_some_iff.1 hg).1, rfl, fun _ => rfl⟩, hr⟩
    · have hch : Changes a op := by
        cases op <;> simp only [target, Option.some.injEq, reduceCtorEq] at ht <;> first
          | exact ht
          | exact absurd (by rw [ht]) hz
      have hf := hfr (hn.resolve_right (fun h => h hch))
      have : (Arr.exec grow w op).2 = w := by
        cases op <;> simp only [Changes] at hch <;> subst hch <;> simp only [Arr.exec, onMutable, onArr, hg, hf, if_true]
      rw [this]
      exact ⟨hsep, ⟨g, hg, rfl, hfr⟩, hr⟩
  · obtain ⟨g', e1, e2, e3⟩ := header_change (exec_change (grow := grow) hsep.bnd op) hg (.inr ht)
    have hv := h2 a ht (List.getElem?_eq_some_iff.1 hg).1
    simp only [view, hg, e1, Option.map_some, Option.some.injEq, Prod.mk.injEq, e2] at hv
    exact ⟨h1, ⟨g', e1, e2, fun h => e3 (hfr h)⟩, by rw [hv.1, hr]⟩

end Verif.Arr
