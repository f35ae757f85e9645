import Verif.Value.Props
/-!
# C11: sorting arrays with values of different types
-/
set_option autoImplicit false
set_option linter.unusedVariables false
set_option linter.unusedSimpArgs false
namespace Verif.Value

/-- The values of an array that `Sort` puts in order: booleans, strings and binaries; integers or floats, but not both (`num`), and no NaN; arrays, all of them
with elements of the kind `ak`; and nil, if `withNil`, or values that cannot be compared (maps, times, regular expressions, ...), but not both. -/
def Mixed (num ak : Kind) (withNil : Bool) : Val → Prop
  | .bool _ | .str _ | .bin _ => True
  | .int _ => num = .int
  | .float f => num = .float ∧ f.isNaN = false
  | .arr vs => ∀ v ∈ vs, HasKind ak v
  | .nil => withNil = true
  | _ => withNil = false

/-- nil first, then by the identifiers of the types: sensitive values, arrays, binaries, booleans, floats, integers, maps, entries, regular expressions,
strings, times -/
def sortRank (v : Val) : Nat := match v with | .nil => 0 | v => typeId v

/-- The kind that all values of the rank have. -/
def rankKind (ak : Kind) : Val → Kind
  | .int _ => .int
  | .float _ => .float
  | .str _ => .str
  | .bin _ => .bin
  | .arr _ => .arr ak
  | _ => .bool

theorem sortLess_mixed {num ak : Kind} {n : Bool} {a b : Val} (ha : Mixed num ak n a) (hb : Mixed num ak n b) :
    sortLess a b = (decide (sortRank a < sortRank b) || (decide (sortRank a = sortRank b) && a.comparable && decide (cmp a b = some .lt))) := by
  have hb' : ∀ o : Ordering, (o == .lt) = decide (o = .lt) := by intro o; cases o <;> rfl
  have hs : ∀ o : Option Ordering, (match o with | some c => c == .lt | none => false) = decide (o = some .lt) := by
    intro o; cases o with
    | none => rfl
    | some c => cases c <;> rfl
  cases a <;> cases b <;> simp [Mixed] at ha hb <;> simp [sortLess, Val.comparable, sortRank, typeId, cmp, ha, hb] <;>
    first
    | (subst ha; simp at hb; done)
    | (obtain ⟨rfl, _⟩ := ha; simp at hb; done)
    | (obtain ⟨rfl, _⟩ := hb; simp at ha; done)
    | skip
  all_goals first | exact hb' _ | exact hs _

theorem Mixed.kinds {num ak : Kind} {n : Bool} {a b : Val} (ha : Mixed num ak n a) (hb : Mixed num ak n b) (hr : sortRank a = sortRank b)
    (hc : a.comparable = true) : HasKind (rankKind ak a) a ∧ HasKind (rankKind ak a) b ∧ rankKind ak b = rankKind ak a ∧ b.comparable = true := by
  cases a <;> cases b <;> simp [sortRank, typeId] at hr <;> simp [Val.comparable] at hc <;> simp [Mixed] at ha hb <;>
    simp [rankKind, HasKind, Val.comparable, ha, hb]
  · exact ⟨ha, hb⟩

theorem sortLess_rank {num ak : Kind} {n : Bool} {a b : Val} (ha : Mixed num ak n a) (hb : Mixed num ak n b) (hr : sortRank a = sortRank b)
    (hc : a.comparable = true) : sortLess a b = decide (cmp a b = some .lt) :=
  have h := ha.kinds hb hr hc
  sortLess_kind h.1 h.2.1

theorem mixed_comparable {num ak : Kind} {n : Bool} {a b : Val} (ha : Mixed num ak n a) (hb : Mixed num ak n b) (hr : sortRank a = sortRank b) :
    a.comparable = b.comparable := by
  cases hc : a.comparable with
  | true => exact (ha.kinds hb hr hc).2.2.2.symm
  | false =>
    cases hc' : b.comparable with
    | false => rfl
    | true => rw [(hb.kinds ha hr.symm hc').2.2.2] at hc; cases hc

theorem mixed_weak (num ak : Kind) (n : Bool) : WeakOrder (Mixed num ak n) sortLess where
  irr a ha := by
    cases hc : a.comparable with
    | true => exact (kind_weak _).irr a (ha.kinds ha rfl hc).1
    | false => rw [sortLess_mixed ha ha, hc]; simp
  asymm a b ha hb h := by
    rcases Nat.lt_trichotomy (sortRank a) (sortRank b) with hr | hr | hr
    · rw [sortLess_mixed hb ha]
      simp only [Bool.or_eq_false_iff, Bool.and_eq_false_iff, decide_eq_false_iff_not]
      exact ⟨by omega, .inl (.inl (by omega))⟩
    · cases hc : a.comparable with
      | true =>
        have hk := ha.kinds hb hr hc
        exact (kind_weak _).asymm a b hk.1 hk.2.1 h
      | false =>
        rw [sortLess_mixed hb ha, ← mixed_comparable ha hb hr, hc, hr]; simp
    · rw [sortLess_mixed ha hb] at h
      simp only [Bool.or_eq_true, Bool.and_eq_true, decide_eq_true_eq] at h
      omega
  trans a b c ha hb hc h1 h2 := by
    have le1 : sortRank a ≤ sortRank b := by
      rw [sortLess_mixed hb ha] at h1
      simp only [Bool.or_eq_false_iff, decide_eq_false_iff_not] at h1
      omega
    have le2 : sortRank b ≤ sortRank c := by
      rw [sortLess_mixed hc hb] at h2
      simp only [Bool.or_eq_false_iff, decide_eq_false_iff_not] at h2
      omega
    by_cases hr : sortRank c = sortRank a
    · have e1 : sortRank a = sortRank b := by omega
      have e2 : sortRank b = sortRank c := by omega
      cases hcmp : a.comparable with
      | true =>
        have hk := ha.kinds hb e1 hcmp
        have hk' := ha.kinds hc hr.symm hcmp
        exact (kind_weak _).trans a b c hk.1 hk.2.1 hk'.2.1 h1 h2
      | false =>
        rw [sortLess_mixed hc ha, mixed_comparable hc ha hr, hcmp, hr]; simp
    · rw [sortLess_mixed hc ha]
      simp only [Bool.or_eq_false_iff, Bool.and_eq_false_iff, decide_eq_false_iff_not]
      exact ⟨by omega, .inl (.inl hr)⟩

/-- **C11, for values of different types.**  Sorted, they stand in the order of the types, and those of the same type in their order; those that cannot be compared
keep the order that they had.  (`Sort` keeps the elements of every array: `C11_sort_keeps_elements`.) -/
theorem C11_mixed_partial (num ak : Kind) (n : Bool) (as : List Val) (h : ∀ a ∈ as, Mixed num ak n a) :
    (sortArr as).Pairwise (fun a b => sortRank a ≤ sortRank b ∧ (sortRank a = sortRank b → a.comparable = true → cmp a b ≠ some .gt)) ∧
    ∀ v, Mixed num ak n v → (sortArr as).filter (fun a => sortRank a = sortRank v ∧ (a.comparable = true → cmp a v = some .eq)) =
      as.filter (fun a => sortRank a = sortRank v ∧ (a.comparable = true → cmp a v = some .eq)) := by
  have hmem : ∀ x ∈ stableSort sortLess as, Mixed num ak n x := fun x hx => h x ((stableSort_perm as).mem_iff.1 hx)
  unfold sortArr
  split
  · refine ⟨?_, fun v hv => rfl⟩
    match as with
    | [] => exact .nil
    | [a] => exact List.pairwise_singleton _ _
  · constructor
    · refine (stableSort_sorted (mixed_weak num ak n) h).imp_of_mem ?_
      intro a b ha hb hl
      have ha := hmem a ha
      have hb := hmem b hb
      have hl' := hl
      rw [sortLess_mixed hb ha] at hl
      simp only [Bool.or_eq_false_iff, decide_eq_false_iff_not] at hl
      refine ⟨by omega, fun hr hc => ?_⟩
      have hk := ha.kinds hb hr hc
      exact (not_lt_iff hk.2.1 hk.1).1 hl'
    · intro v hv
      have e : ∀ x, Mixed num ak n x → decide (sortRank x = sortRank v ∧ (x.comparable = true → cmp x v = some .eq)) = (!sortLess x v && !sortLess v x) := by
        intro x hx
        by_cases hr : sortRank x = sortRank v
        · cases hc : x.comparable with
          | true =>
            have hk := hx.kinds hv hr hc
            rw [sortLess_kind hk.1 hk.2.1, sortLess_kind hk.2.1 hk.1, (kind_laws _).swap x v hk.1 hk.2.1]
            match hc : cmp x v with
            | none => have := (kind_laws _).dec x v hk.1 hk.2.1; rw [hc] at this; cases this
            | some o => cases o <;> simp [hr]
          | false =>
            rw [sortLess_mixed hx hv, sortLess_mixed hv hx, ← mixed_comparable hx hv hr, hc, hr]; simp
        · rw [sortLess_mixed hx hv, sortLess_mixed hv hx]
          have : (sortRank x < sortRank v ∨ sortRank v < sortRank x) := by omega
          rcases this with h | h <;> simp [h, hr]
      rw [List.filter_congr (q := fun a => !sortLess a v && !sortLess v a) (fun x hx => e x (h x hx)),
        ← stableSort_stable (mixed_weak num ak n) hv h]
      exact List.filter_congr fun x hx => e x (hmem x hx)

/-- A string, a map, an integer, another map, an array -/
example : (∀ a ∈ [Ex.s 97, Ex.m1, Ex.i 3, .map [], .arr [Ex.i 1], Ex.i (-3)], Mixed .int .int false a) ∧
    eqSlice (sortArr [Ex.s 97, Ex.m1, Ex.i 3, .map [], .arr [Ex.i 1], Ex.i (-3)]) [.arr [Ex.i 1], Ex.i (-3), Ex.i 3, Ex.m1, .map [], Ex.s 97] = true := by
  refine ⟨?_, by decide +kernel⟩
  simp [Mixed, Ex.s, Ex.m1, Ex.i, HasKind]

/-! ### Any stable sort -/

/-- Lists in order with the same elements, equivalent ones in the same order, are the same. -/
theorem stable_unique {α : Type} {P : α → Prop} {le : α → α → Prop} {eqv : α → α → Bool} (hr : ∀ a, P a → eqv a a = true)
    (ha : ∀ a b, P a → P b → le a b → le b a → eqv b a = true) : ∀ {r s : List α}, (∀ a ∈ r, P a) → r.Perm s → r.Pairwise le → s.Pairwise le →
      (∀ v, P v → r.filter (fun a => eqv a v) = s.filter (fun a => eqv a v)) → r = s
  | [], s, _, hp, _, _, _ => (List.nil_perm.1 hp).symm
  | a :: r, [], _, hp, _, _, _ => absurd hp.length_eq (by simp)
  | a :: r, b :: s, h, hp, h1, h2, hf => by
    have hab : a = b := by
      have pa := h a (by simp)
      have pb := h b (hp.mem_iff.2 (by simp))
      rcases List.mem_cons.1 (hp.mem_iff.1 (List.mem_cons_self (a := a) (l := r))) with e | m1
      · exact e
      · rcases List.mem_cons.1 (hp.mem_iff.2 (List.mem_cons_self (a := b) (l := s))) with e | m2
        · exact e.symm
        · have l1 := (List.pairwise_cons.1 h1).1 b m2
          have l2 := (List.pairwise_cons.1 h2).1 a m1
          have hv := hf a pa
          rw [List.filter_cons_of_pos (p := fun x => eqv x a) (hr a pa), List.filter_cons_of_pos (p := fun x => eqv x a) (ha a b pa pb l1 l2)] at hv
          exact (List.cons.inj hv).1
    subst hab
    congr 1
    refine stable_unique hr ha (fun x hx => h x (List.mem_cons_of_mem _ hx)) (List.Perm.cons_inv hp) (List.pairwise_cons.1 h1).2 (List.pairwise_cons.1 h2).2 ?_
    intro v hv
    have := hf v hv
    rw [List.filter_cons, List.filter_cons] at this
    split at this
    · exact (List.cons.inj this).2
    · exact this

/-- **C11, whatever the algorithm.**  There is one way only to put elements of one comparable kind in order and to keep the order of those that compare
equal: what `Sort` yields does not depend on how `sort.SliceStable` proceeds. -/
theorem C11_any_sort (k : Kind) (as r : List Val) (h : ∀ a ∈ as, HasKind k a) (hp : r.Perm as) (ho : r.Pairwise fun a b => cmp a b ≠ some .gt)
    (hs : ∀ v, HasKind k v → r.filter (fun a => cmp a v == some .eq) = as.filter (fun a => cmp a v == some .eq)) : r = sortArr as := by
  refine stable_unique (P := HasKind k) (le := fun a b => cmp a b ≠ some .gt) (eqv := fun a v => cmp a v == some .eq) ?_ ?_ (fun a ha => h a (hp.mem_iff.1 ha))
    (hp.trans (C11_sort_keeps_elements as).symm) ho (C11_sort_orders k as h) (fun v hv => (hs v hv).trans (C11_sort_is_stable k as h v hv).symm)
  · intro a ha
    rw [(kind_laws k).refl_eq ha]; rfl
  · intro a b ha hb h1 h2
    have hw := (kind_laws k).swap b a hb ha
    have hd := (kind_laws k).dec b a hb ha
    match hc : cmp b a with
    | none => rw [hc] at hd; cases hd
    | some .eq => rfl
    | some .lt => rw [hc] at hw; exact absurd hw h1
    | some .gt => exact absurd hc h2

/-- The two zeros, by another way of sorting: `[-0, 0]` is the only sorted list of the two that has them in the order of `[-0, 0]`. -/
example : [Ex.neg0, Ex.pos0] = sortArr [Ex.neg0, Ex.pos0] :=
  C11_any_sort .float _ _ (by simp [Ex.neg0, Ex.pos0, HasKind]; decide +kernel) (.refl _) (by simp; decide +kernel) (fun v _ => rfl)

/-- The same for values of different types. -/
theorem C11_any_mixed_partial (num ak : Kind) (n : Bool) (as r : List Val) (h : ∀ a ∈ as, Mixed num ak n a) (hp : r.Perm as)
    (ho : r.Pairwise (fun a b => sortRank a ≤ sortRank b ∧ (sortRank a = sortRank b → a.comparable = true → cmp a b ≠ some .gt)))
    (hs : ∀ v, Mixed num ak n v → r.filter (fun a => sortRank a = sortRank v ∧ (a.comparable = true → cmp a v = some .eq)) =
      as.filter (fun a => sortRank a = sortRank v ∧ (a.comparable = true → cmp a v = some .eq))) : r = sortArr as := by
  have hm := C11_mixed_partial num ak n as h
  refine stable_unique (P := Mixed num ak n) (eqv := fun a v => decide (sortRank a = sortRank v ∧ (a.comparable = true → cmp a v = some .eq))) ?_ ?_
    (fun a ha => h a (hp.mem_iff.1 ha)) (hp.trans (C11_sort_keeps_elements as).symm) ho hm.1 (fun v hv => (hs v hv).trans (hm.2 v hv).symm)
  · intro a ha
    simp only [decide_eq_true_eq, true_and]
    intro hc
    exact (kind_laws _).refl_eq (ha.kinds ha rfl hc).1
  · intro a b ha hb h1 h2
    simp only [decide_eq_true_eq]
    have hr : sortRank b = sortRank a := by omega
    refine ⟨hr, fun hc => ?_⟩
    have hk := hb.kinds ha hr hc
    have hw := (kind_laws _).swap b a hk.1 hk.2.1
    have hd := (kind_laws _).dec b a hk.1 hk.2.1
    have g1 := h1.2 hr.symm (by rw [mixed_comparable ha hb hr.symm]; exact hc)
    have g2 := h2.2 hr hc
    match hc : cmp b a with
    | none => rw [hc] at hd; cases hd
    | some .eq => rfl
    | some .lt => rw [hc] at hw; exact absurd hw g1
    | some .gt => exact absurd hc g2

/-- **C11 is violated: nil beside values that cannot be compared.**  nil is less than a map, and the map is less than nil: sorting exchanges them, again and again. -/
theorem C11_nil_violated : sortArr [.nil, .map []] = [.map [], .nil] ∧ sortArr [.map [], .nil] = [.nil, .map []] := by
  constructor <;> rfl

end Verif.Value
