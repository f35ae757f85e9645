import Verif.Value.ListLemmas
import Verif.HMap.Read
/-!
# C07 - C11 and C16 - C19: equality, hash codes, comparison and the reading operations of arrays
-/
set_option linter.unusedSimpArgs false
namespace Verif.Value

/-! ### Values for the examples -/
namespace Ex
def i (n : Int) : Val := .int (BitVec.ofInt 64 n)
/-- the float 1.5 -/
def f15 : Val := .float 0x3ff8000000000000#64
def pos0 : Val := .float 0#64
def neg0 : Val := .float 0x8000000000000000#64
def nan : Val := .float 0x7ff8000000000001#64
/-- the float 2^53 -/
def f53 : Val := .float 0x4340000000000000#64
def s (n : Nat) : Val := .str [n.toUInt8]
/-- `{"a": [1, nil], "b": 0.0}` -/
def m1 : Val := .map [(s 97, .arr [i 1, .nil]), (s 98, pos0)]
/-- `{"b": -0.0, "a": [1, nil]}` -/
def m2 : Val := .map [(s 98, neg0), (s 97, .arr [i 1, .nil])]
theorem wf_m1 : WF m1 := by
  simp only [m1, WF, WFes, WFs, s, i, pos0, true_and, and_true]
  decide +kernel
theorem wf_m2 : WF m2 := by
  simp only [m2, WF, WFes, WFs, s, i, neg0, true_and, and_true]
  decide +kernel
end Ex

/-! ### C07: equality of maps -/

/-- The value a key has in a list of entries. -/
def lookupV (es : List (Val × Val)) (k : Val) : Option Val := (es.find? fun e => eq k e.1).map (·.2)

/-- Both absent, or present with equal values. -/
def SameValue : Option Val → Option Val → Prop
  | none, none => True
  | some v, some w => eq v w = true
  | _, _ => False

theorem find_self {es : List (Val × Val)} (h : ∀ e ∈ es, WF e.1) (hd : Diff es) {e : Val × Val} (he : e ∈ es) :
    es.find? (fun x => eq e.1 x.1) = some e := by
  obtain ⟨p, q, rfl⟩ := List.append_of_mem he
  rw [List.find?_append, List.find?_eq_none.2, Option.none_or, List.find?_cons, laws.refl _ (h e (by simp))]
  intro x hx hc
  have := (List.pairwise_append.1 hd).2.2 x hx e (by simp)
  rw [laws.symm _ _ (h e (by simp)) (h x (by simp [hx])) hc] at this
  cases this

theorem find_congr {α : Type} {p q : α → Bool} {as : List α} (h : ∀ a ∈ as, p a = q a) : as.find? p = as.find? q := by
  induction as with
  | nil => rfl
  | cons a as ih => rw [List.find?_cons, List.find?_cons, h a (by simp), ih fun b hb => h b (by simp [hb])]

theorem wf_map {es : List (Val × Val)} (h : WF (.map es)) : (∀ e ∈ es, WF e.1 ∧ WF e.2) ∧ Diff es := by
  simp only [WF] at h
  exact ⟨(WFes_iff es).1 h.1, h.2⟩

/-- **C07.**  Two maps are equal exactly when every key has the same value in both. -/
theorem C07_equal_iff_same_mapping {as bs : List (Val × Val)} (ha : WF (.map as)) (hb : WF (.map bs)) :
    eq (.map as) (.map bs) = true ↔ ∀ k, WF k → SameValue (lookupV as k) (lookupV bs k) := by
  obtain ⟨ha1, ha2⟩ := wf_map ha
  obtain ⟨hb1, hb2⟩ := wf_map hb
  have sub : ∀ {cs ds : List (Val × Val)}, (∀ e ∈ cs, WF e.1 ∧ WF e.2) → Diff cs → eqMap cs ds = true →
      ∀ k, WF k → (∀ e ∈ ds, WF e.1 ∧ WF e.2) → Diff ds → (lookupV cs k).isSome = true →
      SameValue (lookupV cs k) (lookupV ds k) := by
    intro cs ds hc hdc h k hk hd hdd hs
    unfold lookupV at hs ⊢
    rw [Option.isSome_map, List.find?_isSome] at hs
    match hf : cs.find? (fun e => eq k e.1) with
    | none =>
      rw [List.find?_eq_none] at hf
      obtain ⟨x, hx, hkx⟩ := hs
      exact absurd hkx (hf x hx)
    | some e =>
      have hem := List.mem_of_find?_eq_some hf
      have hke := List.find?_some hf
      obtain ⟨d, hd1, hd2⟩ := (eqMap_iff cs ds).1 h e hem
      have hdm := List.mem_of_find?_eq_some hd1
      have hed := List.find?_some hd1
      have hkd := laws.trans _ _ _ hk (hc e hem).1 (hd d hdm).1 hke hed
      have : ds.find? (fun e => eq k e.1) = some d := by
        rw [← find_self (fun x hx => (hd x hx).1) hdd hdm]
        apply find_congr
        intro x hx
        rw [Bool.eq_iff_iff]
        have hxd := (hd x hx).1
        exact ⟨fun h => laws.trans _ _ _ (hd d hdm).1 hk hxd (laws.symm _ _ hk (hd d hdm).1 hkd) h,
          fun h => laws.trans _ _ _ hk (hd d hdm).1 hxd hkd h⟩
      rw [hf, this]
      exact hd2
  constructor
  · intro h k hk
    have h1 : eqMap as bs = true := by rw [eq, Bool.and_eq_true] at h; exact h.2
    have h2 : eqMap bs as = true := by
      have := laws.symm _ _ ha hb h
      rw [eq, Bool.and_eq_true] at this; exact this.2
    cases hl : lookupV as k with
    | some v =>
      have := sub ha1 ha2 h1 k hk hb1 hb2 (by rw [hl]; rfl)
      rwa [hl] at this
    | none =>
      cases hl' : lookupV bs k with
      | none => trivial
      | some v =>
        have := sub hb1 hb2 h2 k hk ha1 ha2 (by rw [hl']; rfl)
        rw [hl, hl'] at this
        cases this
  · intro h
    have key : ∀ {cs ds : List (Val × Val)}, (∀ e ∈ cs, WF e.1 ∧ WF e.2) → Diff cs →
        (∀ k, WF k → SameValue (lookupV cs k) (lookupV ds k)) → eqMap cs ds = true := by
      intro cs ds hc hdc h
      rw [eqMap_iff]
      intro e he
      have hl := h e.1 (hc e he).1
      unfold lookupV at hl
      rw [find_self (fun x hx => (hc x hx).1) hdc he] at hl
      match hf : ds.find? (fun x => eq e.1 x.1) with
      | none => rw [hf] at hl; cases hl
      | some d => rw [hf] at hl; exact ⟨d, hf, hl⟩
    have h1 := key ha1 ha2 h
    have h2 : eqMap bs as = true := by
      refine key hb1 hb2 fun k hk => ?_
      have := h k hk
      revert this
      cases hx : lookupV as k with
      | none => cases lookupV bs k <;> simp [SameValue]
      | some v =>
        cases hy : lookupV bs k with
        | none => simp [SameValue]
        | some w =>
          simp only [SameValue]
          unfold lookupV at hx hy
          rw [Option.map_eq_some_iff] at hx hy
          obtain ⟨x, hx, rfl⟩ := hx
          obtain ⟨y, hy, rfl⟩ := hy
          exact laws.symm _ _ (ha1 x (List.mem_of_find?_eq_some hx)).2 (hb1 y (List.mem_of_find?_eq_some hy)).2
    obtain ⟨bs', r1, p1, f1⟩ := match_of_eqMap laws (fun e h => (ha1 e h).1) (fun e h => (hb1 e h).1) ha2 h1
    obtain ⟨as', r2, p2, f2⟩ := match_of_eqMap laws (fun e h => (hb1 e h).1) (fun e h => (ha1 e h).1) hb2 h2
    have l1 := f1.length_eq
    have l2 := f2.length_eq
    have q1 := p1.length_eq
    have q2 := p2.length_eq
    rw [List.length_append] at q1 q2
    rw [eq, h1, Bool.and_true, beq_iff_eq]
    omega

/-- The order of the entries and the two zeros make no difference. -/
example : eq Ex.m1 Ex.m2 = true := by decide +kernel
example : lookupV [(Ex.s 98, Ex.neg0), (Ex.s 97, .nil)] (Ex.s 97) = some .nil ∧
    lookupV [(Ex.s 98, Ex.neg0), (Ex.s 97, .nil)] (Ex.s 99) = none := by
  exact ⟨by rfl, by rfl⟩

/-- **C07, order.**  A map is equal to every map with the same entries in another order. -/
theorem C07_order_does_not_matter {as bs : List (Val × Val)} (ha : WF (.map as)) (hp : as.Perm bs) :
    eq (.map as) (.map bs) = true := by
  obtain ⟨ha1, ha2⟩ := wf_map ha
  have hb1 : ∀ e ∈ bs, WF e.1 ∧ WF e.2 := fun e h => ha1 e (hp.mem_iff.2 h)
  have hb2 : Diff bs := by
    unfold Diff at ha2 ⊢
    have : as.Pairwise fun a b => eq a.1 b.1 = false ∧ eq b.1 a.1 = false := by
      refine ha2.imp_of_mem ?_
      intro a b hma hmb h
      refine ⟨h, ?_⟩
      by_contra hc
      rw [laws.symm _ _ (ha1 b hmb).1 (ha1 a hma).1 (by simpa using hc)] at h
      cases h
    refine (List.Pairwise.perm this hp ?_).imp fun h => h.1
    intro x y h; exact ⟨h.2, h.1⟩
  rw [eq, eqMaps_iff laws (fun e h => (ha1 e h).1) (fun e h => (hb1 e h).1) ha2 hb2]
  refine ⟨as, hp, ?_⟩
  rw [List.forall₂_same]
  exact fun e h => ⟨laws.refl _ (ha1 e h).1, laws.refl _ (ha1 e h).2⟩

example : WF (.map [(Ex.i 1, Ex.f15), (Ex.i 2, .nil)]) ∧
    [(Ex.i 1, Ex.f15), (Ex.i 2, .nil)].Perm [(Ex.i 2, .nil), (Ex.i 1, Ex.f15)] := by
  refine ⟨?_, List.Perm.swap _ _ _⟩
  simp only [WF, WFes, Ex.i, Ex.f15, true_and, and_true]
  decide +kernel

/-- **C07, hash codes.**  Equal maps have the same hash code. -/
theorem C07_equal_maps_same_hash {as bs : List (Val × Val)} (ha : WF (.map as)) (hb : WF (.map bs))
    (h : eq (.map as) (.map bs) = true) : hash (.map as) = hash (.map bs) := laws.hash _ _ ha hb h

example : WF Ex.m1 ∧ WF Ex.m2 ∧ eq Ex.m1 Ex.m2 = true := ⟨Ex.wf_m1, Ex.wf_m2, by decide +kernel⟩

/-! ### C08: equality is an equivalence -/

/-- **C08.**  On values of any depth without NaN in which every map has different keys, `Equals` is an equivalence. -/
theorem C08_equals_is_equivalence :
    (∀ a, WF a → eq a a = true) ∧ (∀ a b, WF a → WF b → eq a b = eq b a) ∧
    (∀ a b c, WF a → WF b → WF c → eq a b = true → eq b c = true → eq a c = true) := by
  refine ⟨laws.refl, ?_, laws.trans⟩
  intro a b ha hb
  rw [Bool.eq_iff_iff]
  exact ⟨laws.symm a b ha hb, laws.symm b a hb ha⟩

example : WF (.arr [Ex.m1, .sens (.arr [.nil]), .time 5]) := by
  simp only [WF, WFs, true_and, and_true]
  exact Ex.wf_m1

/-- Different kinds are never equal: the integer 1 and the float 1, the string and the regexp of the same text. -/
example : eq (Ex.i 1) (.float 0x3ff0000000000000#64) = false ∧ eq (.str [97]) (.regexp [97]) = false := by decide +kernel

/-- NaN has to be excluded: it is not equal to itself. -/
theorem C08_nan_is_not_reflexive : eq Ex.nan Ex.nan = false := by decide +kernel

/-- A map with two equal keys has to be excluded: `vf.Map("a", 1, "a", 2)` makes one (theorem `C05_repeated_keys_fail`), and
equality with such a map is not symmetric. -/
theorem C08_repeated_keys_not_symmetric :
    ∃ a b, eq (.map a) (.map b) = true ∧ eq (.map b) (.map a) = false :=
  ⟨[(Ex.s 97, Ex.i 1), (Ex.s 97, Ex.i 1)], [(Ex.s 97, Ex.i 1), (Ex.s 98, Ex.i 2)], by decide +kernel⟩

/-! ### C09: equal values have equal hash codes -/

/-- **C09, values.**  Equal values have the same hash code.  Missing: types used as values (for which the property is
false, see `Verif/Types`). -/
theorem C09_equal_values_same_hash_partial (a b : Val) (ha : WF a) (hb : WF b) (h : eq a b = true) : hash a = hash b :=
  laws.hash a b ha hb h

example : eq (.arr [Ex.pos0, Ex.m1]) (.arr [Ex.neg0, Ex.m2]) = true := by decide +kernel
/-- The hash codes do tell values apart. -/
example : hash (.arr [Ex.i 1, Ex.i 2]) ≠ hash (.arr [Ex.i 2, Ex.i 1]) := by decide +kernel

/-- The values that can be used as keys of the map of `Verif/HMap`. -/
abbrev WVal := {v : Val // WF v}

instance : HMap.KeyOps WVal where
  hash v := hash v.1
  eq a b := eq a.1 b.1
  freeze v := v

/-- The assumptions on keys made in the theorems on maps hold for dgo values. -/
instance : HMap.LawfulKey WVal where
  refl a := laws.refl _ a.2
  symm a b h := laws.symm _ _ a.2 b.2 h
  trans a b c h h' := laws.trans _ _ _ a.2 b.2 c.2 h h'
  hash a b h := laws.hash _ _ a.2 b.2 h
  frz a := laws.refl _ a.2

/-! ### C10: comparison -/

/-- **C10.**  For values of one comparable kind (booleans; integers; non-NaN floats; strings; binaries; arrays of such; nil is
allowed everywhere): `CompareTo` gives an answer, the answer for swapped arguments is the opposite one, "not greater" is
transitive, and the answer is 0 exactly for equal values. -/
theorem C10_comparison_laws (k : Kind) :
    (∀ a b, HasKind k a → HasKind k b → ∃ o, cmp a b = some o ∧ cmp b a = some o.swap ∧ (o = .eq ↔ eq a b = true)) ∧
    (∀ a b c, HasKind k a → HasKind k b → HasKind k c → cmp a b ≠ some .gt → cmp b c ≠ some .gt → cmp a c ≠ some .gt) := by
  have L := kind_laws k
  refine ⟨?_, L.le⟩
  intro a b ha hb
  obtain ⟨o, ho⟩ := Option.isSome_iff_exists.1 (L.dec a b ha hb)
  refine ⟨o, ho, by rw [L.swap a b ha hb, ho]; rfl, ?_⟩
  rw [← L.zero a b ha hb, ho]
  simp

example : HasKind (.arr .int) (.arr [Ex.i 1, .nil, Ex.i (-3)]) := by simp [HasKind, Ex.i]
example : cmp (.arr [Ex.i 1, Ex.i (-3)]) (.arr [Ex.i 1, Ex.i 2]) = some .lt ∧
    cmp (.arr [Ex.i 1]) (.arr [Ex.i 1, .nil]) = some .lt ∧ cmp (.str [98]) (.str [97, 255]) = some .gt ∧
    cmp Ex.pos0 Ex.neg0 = some .eq ∧ cmp (Ex.i (-1)) (Ex.i 1) = some .lt := by decide +kernel

/-- **C10, strict transitivity**, with equal steps in between. -/
theorem C10_strictly_transitive (k : Kind) (a b c : Val) (ha : HasKind k a) (hb : HasKind k b) (hc : HasKind k c)
    (h1 : cmp a b = some .lt) (h2 : cmp b c = some .lt ∨ cmp b c = some .eq) : cmp a c = some .lt :=
  (kind_laws k).lt_of_lt_le ha hb hc h1 (by rcases h2 with h | h <;> rw [h] <;> simp)

example : cmp (Ex.s 1) (Ex.s 2) = some .lt ∧ cmp (Ex.s 2) (Ex.s 3) = some .lt := by decide +kernel

/-- What Go's order of strings is: the first byte that differs decides, a proper prefix is smaller. -/
theorem C10_string_order (p a b : Str) (x y : UInt8) (h : x < y) :
    cmp (.str (p ++ x :: a)) (.str (p ++ y :: b)) = some .lt ∧ cmp (.str p) (.str (p ++ y :: b)) = some .lt := by
  have h1 : strLt (p ++ x :: a) (p ++ y :: b) = true ∧ strLt (p ++ y :: b) (p ++ x :: a) = false := by
    induction p with
    | nil =>
      have : ¬ y < x := by rw [UInt8.lt_iff_toNat_lt] at *; omega
      simp [strLt, h, this]
    | cons c p ih =>
      have : ¬ c < c := by rw [UInt8.lt_iff_toNat_lt]; omega
      simpa [strLt, this] using ih
  have h2 : strLt p (p ++ y :: b) = true ∧ strLt (p ++ y :: b) p = false := by
    induction p with
    | nil => simp [strLt]
    | cons c p ih =>
      have : ¬ c < c := by rw [UInt8.lt_iff_toNat_lt]; omega
      simp only [List.cons_append, strLt, this, if_false] 
      exact ih ⟨by
        have := h1.1; simp only [List.cons_append, strLt] at this; rename_i hcc; simpa [hcc] using this, by
        have := h1.2; simp only [List.cons_append, strLt] at this; rename_i hcc; simpa [hcc] using this⟩
  constructor
  · rw [cmp, h1.1, h1.2]; rfl
  · rw [cmp, h2.1, h2.2]; rfl

example : (97 : UInt8) < 98 := by decide

/-- **C10, nil.**  `nil` is below every value, and every comparable value is above `nil`. -/
theorem C10_nil_is_smallest (v : Val) (h : v ≠ .nil) :
    cmp .nil v = some .lt ∧ (v.comparable = true → cmp v .nil = some .gt) := by
  cases v <;> simp_all [cmp, Val.comparable]

example : Ex.m1 ≠ .nil := by simp [Ex.m1]

/-- Across kinds comparison is not transitive: two integers that differ can both compare equal to one float. -/
theorem C10_mixed_numbers_not_transitive :
    cmp (Ex.i (2 ^ 53)) Ex.f53 = some .eq ∧ cmp Ex.f53 (Ex.i (2 ^ 53 + 1)) = some .eq ∧
    cmp (Ex.i (2 ^ 53)) (Ex.i (2 ^ 53 + 1)) = some .lt := by decide +kernel

/-! ### C11: Sort -/

/-- **C11, same elements.**  For every array, whatever its elements. -/
theorem C11_sort_keeps_elements (as : List Val) : (sortArr as).Perm as := by
  unfold sortArr
  split
  · exact .refl _
  · exact stableSort_perm as

/-- **C11, ordered.**  If all elements are of one comparable kind no element of the result compares greater than a later
one. -/
theorem C11_sort_orders (k : Kind) (as : List Val) (h : ∀ a ∈ as, HasKind k a) :
    (sortArr as).Pairwise fun a b => cmp a b ≠ some .gt := by
  unfold sortArr
  split
  · match as with
    | [] => exact .nil
    | [a] => exact List.pairwise_singleton _ _
  · have hs := stableSort_sorted (kind_weak k) h
    refine hs.imp_of_mem ?_
    intro a b ha hb hl
    have hk : ∀ x ∈ stableSort sortLess as, HasKind k x := fun x hx => h x ((stableSort_perm as).mem_iff.1 hx)
    exact (not_lt_iff (hk b hb) (hk a ha)).1 hl

/-- **C11, stable.**  For every value the elements that compare equal to it stand in the order they had. -/
theorem C11_sort_is_stable (k : Kind) (as : List Val) (h : ∀ a ∈ as, HasKind k a) (v : Val) (hv : HasKind k v) :
    (sortArr as).filter (fun a => cmp a v == some .eq) = as.filter (fun a => cmp a v == some .eq) := by
  unfold sortArr
  split
  · rfl
  · have e : ∀ x, HasKind k x → (cmp x v == some Ordering.eq) = (!sortLess x v && !sortLess v x) := by
      intro x hx
      rw [sortLess_kind hx hv, sortLess_kind hv hx, (kind_laws k).swap x v hx hv]
      match hc : cmp x v with
      | none => have := (kind_laws k).dec x v hx hv; rw [hc] at this; cases this
      | some o => cases o <;> rfl
    rw [List.filter_congr (q := fun a => !sortLess a v && !sortLess v a) (fun x hx => e x (h x hx)),
      ← stableSort_stable (kind_weak k) hv h]
    refine List.filter_congr fun x hx => e x ?_
    exact h x ((stableSort_perm as).mem_iff.1 hx)

/-- The two zeros compare equal and keep their order. -/
example : (∀ a ∈ [Ex.f15, Ex.neg0, Ex.pos0], HasKind .float a) ∧
    eqSlice (sortArr [Ex.f15, Ex.neg0, .nil, Ex.pos0]) [.nil, Ex.neg0, Ex.pos0, Ex.f15] = true ∧
    (sortArr [Ex.f15, Ex.neg0, .nil, Ex.pos0])[1]? = some Ex.neg0 := by
  refine ⟨?_, by decide +kernel, by rfl⟩
  simp only [List.mem_cons, List.not_mem_nil, or_false, forall_eq_or_imp, forall_eq, Ex.f15, Ex.neg0, Ex.pos0, HasKind]
  decide +kernel

/-! ### C16: ContainsAll and SameValues -/

/-- How often a value occurs in a list, up to `Equals`. -/
def occurrences (v : Val) (as : List Val) : Nat := as.countP fun a => eq v a

theorem occ_congr {v w : Val} (hv : WF v) (hw : WF w) (h : eq v w = true) {as : List Val} (ha : ∀ a ∈ as, WF a) :
    occurrences v as = occurrences w as := by
  unfold occurrences
  refine List.countP_congr ?_
  intro a hm
  exact ⟨fun x => laws.trans _ _ _ hw hv (ha a hm) (laws.symm _ _ hv hw h) x,
    fun x => laws.trans _ _ _ hv hw (ha a hm) h x⟩

theorem matched_count {as bs : List Val} (ha : ∀ a ∈ as, WF a) (hb : ∀ b ∈ bs, WF b)
    (h : List.Forall₂ (fun a b => eq b a = true) as bs) {v : Val} (hv : WF v) : occurrences v as = occurrences v bs := by
  induction h with
  | nil => rfl
  | @cons a b as bs hab _ ih =>
    unfold occurrences at *
    have e : eq v a = eq v b := by
      rw [Bool.eq_iff_iff]
      have wa := ha a (by simp)
      have wb := hb b (by simp)
      exact ⟨fun x => laws.trans _ _ _ hv wa wb x (laws.symm _ _ wb wa hab), fun x => laws.trans _ _ _ hv wb wa x hab⟩
    rw [List.countP_cons, List.countP_cons, e, ih (fun x hx => ha x (by simp [hx])) (fun x hx => hb x (by simp [hx]))]

/-- Same counts give a pairing. -/
theorem matched_of_counts {as bs : List Val} (ha : ∀ a ∈ as, WF a) (hb : ∀ b ∈ bs, WF b)
    (h : ∀ v, WF v → occurrences v as = occurrences v bs) :
    ∃ bs', bs'.Perm bs ∧ List.Forall₂ (fun a b => eq b a = true) as bs' := by
  induction as generalizing bs with
  | nil =>
    cases bs with
    | nil => exact ⟨[], .refl _, .nil⟩
    | cons b bs =>
      have := h b (hb b (by simp))
      have hr := laws.refl b (hb b (by simp))
      simp [occurrences, List.countP_cons, hr] at this
  | cons a as ih =>
    have wa := ha a (by simp)
    have h1 := h a wa
    have hr := laws.refl a wa
    have : 0 < occurrences a bs := by
      rw [← h1]; simp [occurrences, List.countP_cons, hr]
    obtain ⟨b, hbm, hab⟩ := List.countP_pos_iff.1 this
    obtain ⟨p, q, rfl⟩ := List.append_of_mem hbm
    have wb := hb b hbm
    have hb' : ∀ x ∈ p ++ q, WF x := by
      intro x hx
      rcases List.mem_append.1 hx with hx | hx <;> exact hb x (by simp [hx])
    obtain ⟨bs', hp, hf⟩ := ih (bs := p ++ q) (fun x hx => ha x (by simp [hx])) hb' (by
      intro v hv
      have := h v hv
      have e : eq v a = eq v b := by
        rw [Bool.eq_iff_iff]
        exact ⟨fun x => laws.trans _ _ _ hv wa wb x hab, fun x => laws.trans _ _ _ hv wb wa x (laws.symm _ _ wa wb hab)⟩
      unfold occurrences at *
      rw [List.countP_cons, List.countP_append, List.countP_cons, e] at this
      rw [List.countP_append]
      omega)
    exact ⟨b :: bs', (hp.cons b).trans List.perm_middle.symm, .cons (laws.symm _ _ wa wb hab) hf⟩

theorem filterMap_some {α : Type} (bs : List α) : (bs.map some).filterMap id = bs := by
  induction bs with
  | nil => rfl
  | cons b bs ih => simp [ih]

/-- **C16, SameValues.**  True exactly when every value occurs equally often in both arrays. -/
theorem C16_sameValues (as bs : List Val) (ha : ∀ a ∈ as, WF a) (hb : ∀ b ∈ bs, WF b) :
    sameValues eq as bs = true ↔ ∀ v, WF v → occurrences v as = occurrences v bs := by
  constructor
  · intro h v hv
    simp only [sameValues, Bool.and_eq_true, beq_iff_eq, containsAll] at h
    obtain ⟨hl, h⟩ := h
    rw [if_neg (by omega)] at h
    by_cases h0 : as.length = 0
    · rw [List.length_eq_zero_iff.1 h0, List.length_eq_zero_iff.1 (hl.symm.trans h0)]
    · rw [if_neg h0, containsLoop_iff (S := WF) (by omega) (by simpa [filterMap_some] using hb) ha laws.symm laws.trans,
        List.take_of_length_le (by omega), filterMap_some] at h
      obtain ⟨taken, rest, hp, hf⟩ := h
      have hlen := hp.length_eq
      have := hf.length_eq
      rw [List.length_append] at hlen
      have : rest = [] := List.length_eq_zero_iff.1 (by omega)
      subst this
      rw [List.append_nil] at hp
      rw [matched_count ha (fun b hm => hb b (hp.mem_iff.1 hm)) hf hv]
      exact hp.countP_eq _
  · intro h
    obtain ⟨bs', hp, hf⟩ := matched_of_counts ha hb h
    have hl := hf.length_eq
    have hl' := hp.length_eq
    simp only [sameValues, Bool.and_eq_true, beq_iff_eq, containsAll]
    refine ⟨by omega, ?_⟩
    rw [if_neg (by omega)]
    split
    · rfl
    · rw [containsLoop_iff (S := WF) (by omega) (by simpa [filterMap_some] using hb) ha laws.symm laws.trans,
        List.take_of_length_le (by omega), filterMap_some]
      exact ⟨bs', [], by rwa [List.append_nil], hf⟩

example : sameValues eq [Ex.i 1, Ex.m1, Ex.i 1] [Ex.m2, Ex.i 1, Ex.i 1] = true ∧
    sameValues eq [Ex.i 1, Ex.i 1, Ex.i 2] [Ex.i 1, Ex.i 2, Ex.i 2] = false := by decide +kernel

/-- **C16, ContainsAll, what the code computes**: only the first `b.Len()` elements of `a` are looked at, and they must be
the values of `b`.  In particular the answer `true` is right: every value occurs in `b` at most as often as in `a`.
Missing: the converse, which is false (next theorem). -/
theorem C16_containsAll_partial (as bs : List Val) (ha : ∀ a ∈ as, WF a) (hb : ∀ b ∈ bs, WF b) :
    (containsAll eq as bs = true ↔ bs.length ≤ as.length ∧ ∀ v, WF v → occurrences v (as.take bs.length) = occurrences v bs) ∧
    (containsAll eq as bs = true → ∀ v, WF v → occurrences v bs ≤ occurrences v as) := by
  have key : containsAll eq as bs = true ↔
      bs.length ≤ as.length ∧ ∀ v, WF v → occurrences v (as.take bs.length) = occurrences v bs := by
    have ht : ∀ a ∈ as.take bs.length, WF a := fun a h => ha a (List.mem_of_mem_take h)
    by_cases hl : bs.length ≤ as.length
    · have e : containsAll eq as bs = sameValues eq (as.take bs.length) bs := by
        simp only [sameValues, containsAll, List.length_take, Nat.min_eq_left hl, beq_self_eq_true, Bool.true_and,
          Nat.lt_irrefl, if_false]
        rw [if_neg (by omega)]
        by_cases h0 : as.length = 0
        · rw [if_pos h0, if_pos (by omega)]
        · rw [if_neg h0]
          by_cases hb0 : bs.length = 0
          · rw [if_pos hb0, hb0]; rfl
          · rw [if_neg hb0, Bool.eq_iff_iff, containsLoop_iff (S := WF) hl (by simpa [filterMap_some] using hb) ha laws.symm laws.trans,
              containsLoop_iff (S := WF) (by rw [List.length_take]; omega) (by simpa [filterMap_some] using hb) ht laws.symm laws.trans,
              List.take_take, Nat.min_self]
      rw [e, C16_sameValues _ _ ht hb]
      simp [hl]
    · simp only [hl, false_and, iff_false, containsAll]
      rw [if_pos (by omega)]; simp
  refine ⟨key, ?_⟩
  intro h v hv
  rw [← (key.1 h).2 v hv]
  exact (List.take_sublist _ _).countP_le

example : containsAll eq [Ex.i 2, Ex.i 1, Ex.i 3] [Ex.i 1, Ex.i 2] = true := by decide +kernel

/-- **C16 is false for ContainsAll**: `{1,2,3}.ContainsAll({3})` answers false. -/
theorem C16_containsAll_misses_later_elements :
    containsAll eq [Ex.i 1, Ex.i 2, Ex.i 3] [Ex.i 3] = false ∧
    ∀ v, occurrences v [Ex.i 3] ≤ occurrences v [Ex.i 1, Ex.i 2, Ex.i 3] := by
  refine ⟨by decide +kernel, fun v => ?_⟩
  unfold occurrences
  exact List.Sublist.countP_le (by simp)

/-! ### C17: Unique -/

/-- **C17.**  For every type of elements with a hash function that agrees with `Equals`, and every array: the result is a
sublist (the order is kept); no two of its elements are equal; every element of the array is equal to one of the result; and
what is kept are the elements that no earlier element is equal to. -/
theorem C17_unique {α : Type} [HMap.KeyOps α] [HMap.LawfulKey α] (as : List α) :
    (unique as).Sublist as ∧
    (unique as).Pairwise (fun a b => HMap.KeyOps.eq a b = false) ∧
    (∀ a ∈ as, ∃ u ∈ unique as, HMap.KeyOps.eq a u = true) ∧
    unique as = firstOccs [] as := by
  have e := unique_eq (α := α) HMap.LawfulKey.hash HMap.LawfulKey.trans HMap.LawfulKey.refl as
  rw [e]
  refine ⟨firstOccs_sublist _ _, ?_, ?_, rfl⟩
  · refine (firstOccs_diff [] as).imp ?_
    intro a b h
    rw [HMap.LawfulKey.comm, h]
  · intro a ha
    rcases firstOccs_cover HMap.LawfulKey.refl HMap.LawfulKey.trans [] as a ha with ⟨e, he, _⟩ | h
    · simp at he
    · exact h

/-- **C17 for dgo values.** -/
theorem C17_unique_values (as : List WVal) :
    (unique as).Sublist as ∧ (unique as).Pairwise (fun a b => eq a.1 b.1 = false) ∧
    (∀ a ∈ as, ∃ u ∈ unique as, eq a.1 u.1 = true) :=
  ⟨(C17_unique as).1, (C17_unique as).2.1, (C17_unique as).2.2.1⟩

/-- Elements that collide in the table (all integers below are in one bucket modulo 4) and repeated elements. -/
example : eqSlice ((unique (α := WVal) [⟨Ex.i 1, trivial⟩, ⟨Ex.i 5, trivial⟩, ⟨Ex.i 1, trivial⟩, ⟨Ex.m1, Ex.wf_m1⟩,
    ⟨Ex.i 9, trivial⟩, ⟨Ex.m2, Ex.wf_m2⟩, ⟨Ex.i 5, trivial⟩]).map (·.1)) [Ex.i 1, Ex.i 5, Ex.m1, Ex.i 9] = true := by
  decide +kernel

/-! ### C18: Flatten -/

/-- **C18.**  The result is the list of the leaves that are not arrays, from left to right, and contains no array. -/
theorem C18_flatten (as : List Val) : flatten as = leaves (.arr as) ∧ ∀ v ∈ flatten as, ∀ vs, v ≠ .arr vs := by
  have h : flatten as = leavesList as := by
    have := flattenFrom_eq [] as (by simp)
    simpa [flatten] using this
  refine ⟨by rw [h, leaves], ?_⟩
  intro v hv vs hc
  rw [h] at hv
  have := leavesList_not_arr as v hv
  rw [hc] at this
  cases this

example : flatten [Ex.i 1, .arr [Ex.i 2, .arr [], .arr [Ex.i 3]], Ex.m1] = [Ex.i 1, Ex.i 2, Ex.i 3, Ex.m1] := by rfl

/-! ### C19: searching and filtering -/

/-- **C19, IndexOf.**  The answer is the least index of a matching element, or -1 if none matches. -/
theorem C19_indexOf {α : Type} (p : α → Bool) (as : List α) :
    (indexOf p as = -1 ∧ ∀ a ∈ as, p a = false) ∨
    ∃ (i : Nat) (a : α), indexOf p as = i ∧ as[i]? = some a ∧ p a = true ∧ ∀ j < i, ∀ b, as[j]? = some b → p b = false := by
  rcases first_split p as with h | ⟨pre, a, post, rfl, h, ha⟩
  · exact .inl ⟨indexOfFrom_miss h, h⟩
  · refine .inr ⟨pre.length, a, ?_, by simp, ha, ?_⟩
    · rw [indexOf, indexOfFrom_hit h ha]; simp
    · intro j hj b hb
      rw [List.getElem?_append_left hj] at hb
      exact h b (List.mem_of_getElem? hb)

example : indexOf (eq (Ex.i 3)) [Ex.i 1, Ex.i 3, Ex.i 3] = 1 ∧ indexOf (eq (Ex.i 4)) [Ex.i 1, Ex.i 3] = -1 := by
  decide +kernel

/-- **C19, Select and Reject.**  Each is a sublist, the first has the elements that match and the second those that do not,
and together they have all the elements. -/
theorem C19_select_reject {α : Type} (p : α → Bool) (as : List α) :
    (select p as).Sublist as ∧ (reject p as).Sublist as ∧
    (∀ a, a ∈ select p as ↔ a ∈ as ∧ p a = true) ∧ (∀ a, a ∈ reject p as ↔ a ∈ as ∧ p a = false) ∧
    (select p as ++ reject p as).Perm as := by
  have e1 : select p as = as.filter p := by rw [select, selectLoop_eq]; rfl
  have e2 : reject p as = as.filter fun a => !p a := by rw [reject, rejectLoop_eq]; rfl
  rw [e1, e2]
  refine ⟨List.filter_sublist, List.filter_sublist, by simp, by simp, List.filter_append_perm _ _⟩

example : select (· > 2) [1, 5, 2, 3] = [5, 3] ∧ reject (· > 2) [1, 5, 2, 3] = [1, 2] := by decide

/-- **C19, All, Any, One.** -/
theorem C19_all_any_one {α : Type} (p : α → Bool) (as : List α) :
    (all p as = true ↔ ∀ a ∈ as, p a = true) ∧ (any p as = true ↔ ∃ a ∈ as, p a = true) ∧
    any p as = !all (fun a => !p a) as ∧ (one p as = true ↔ as.countP p = 1) := by
  refine ⟨all_eq p as, any_eq p as, ?_, ?_⟩
  · rw [Bool.eq_iff_iff, Bool.not_eq_true', ← Bool.not_eq_true, any_eq, all_eq]
    simp
  · rw [one, oneLoop_eq]; simp

example : one (· > 2) [1, 5, 2] = true ∧ one (· > 2) [1, 5, 3] = false ∧ one (· > 2) ([] : List Nat) = false := by decide

/-- **C19, Map, Reduce, Find.**  `Map` has the image of each element at its index and no slot is left unset, `Reduce` combines
from the left, `Find` gives the first answer of the finder. -/
theorem C19_map_reduce_find {α β : Type} (f : α → β) (r : β → α → β) (m : β) (g : α → Option β) (as : List α) :
    mapArr f as = (as.map f).map some ∧ reduce r m as = as.foldl r m ∧ find g as = as.findSome? g := by
  refine ⟨by rw [mapArr_eq]; simp, reduce_eq r m as, find_eq g as⟩

example : mapArr (· + 1) [1, 2] = [some 2, some 3] ∧ reduce (fun a b => a - b) 10 [3, 2] = 5 := by decide

end Verif.Value
