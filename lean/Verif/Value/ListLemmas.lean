import Verif.Value.Lists
import Verif.Value.Eq
import Verif.Value.Cmp
import Verif.HMap.TableSize
import Verif.HMap.Rep
/-! Lemmas on the list operations of `Verif/Value/Lists.lean`. -/
namespace Verif.Value

/-! ### Searching and filtering -/
section
variable {α β : Type}

theorem indexOfFrom_miss {p : α → Bool} {as : List α} {i : Nat} (h : ∀ a ∈ as, p a = false) : indexOfFrom p i as = -1 := by
  induction as generalizing i with
  | nil => rfl
  | cons a as ih =>
    rw [indexOfFrom, h a (by simp), if_neg (by simp)]
    exact ih fun b hb => h b (by simp [hb])

theorem indexOfFrom_hit {p : α → Bool} {pre post : List α} {a : α} {i : Nat} (h : ∀ a ∈ pre, p a = false) (ha : p a = true) :
    indexOfFrom p i (pre ++ a :: post) = (i + pre.length : Nat) := by
  induction pre generalizing i with
  | nil => simp [indexOfFrom, ha]
  | cons b pre ih =>
    rw [List.cons_append, indexOfFrom, h b (by simp), if_neg (by simp), ih fun c hc => h c (by simp [hc])]
    simp only [List.length_cons]
    omega

/-- The list has no matching element, or a first one. -/
theorem first_split (p : α → Bool) (as : List α) : (∀ a ∈ as, p a = false) ∨
    ∃ pre a post, as = pre ++ a :: post ∧ (∀ a ∈ pre, p a = false) ∧ p a = true := by
  induction as with
  | nil => simp
  | cons a as ih =>
    by_cases ha : p a = true
    · exact .inr ⟨[], a, as, rfl, by simp, ha⟩
    · simp only [Bool.not_eq_true] at ha
      rcases ih with h | ⟨pre, b, post, h1, h2, h3⟩
      · exact .inl (by intro b hb; rcases List.mem_cons.1 hb with rfl | hb; exact ha; exact h b hb)
      · refine .inr ⟨a :: pre, b, post, by rw [h1]; rfl, ?_, h3⟩
        intro c hc
        rcases List.mem_cons.1 hc with rfl | hc
        · exact ha
        · exact h2 c hc

theorem selectLoop_eq (p : α → Bool) (vs as : List α) : selectLoop p vs as = vs ++ as.filter p := by
  induction as generalizing vs with
  | nil => simp [selectLoop]
  | cons a as ih => rw [selectLoop, ih]; by_cases h : p a = true <;> simp [h]

theorem rejectLoop_eq (p : α → Bool) (vs as : List α) : rejectLoop p vs as = vs ++ as.filter fun a => !p a := by
  induction as generalizing vs with
  | nil => simp [rejectLoop]
  | cons a as ih => rw [rejectLoop, ih]; by_cases h : p a = true <;> simp [h]

theorem all_eq (p : α → Bool) (as : List α) : all p as = true ↔ ∀ a ∈ as, p a = true := by
  induction as with
  | nil => simp [all]
  | cons a as ih => rw [all]; by_cases h : p a = true <;> simp [h, ih]

theorem any_eq (p : α → Bool) (as : List α) : any p as = true ↔ ∃ a ∈ as, p a = true := by
  induction as with
  | nil => simp [any]
  | cons a as ih => rw [any]; by_cases h : p a = true <;> simp [h, ih]

theorem oneLoop_eq (p : α → Bool) (f : Bool) (as : List α) :
    oneLoop p f as = true ↔ (if f then 1 else 0) + as.countP p = 1 := by
  induction as generalizing f with
  | nil => cases f <;> simp [oneLoop]
  | cons a as ih =>
    rw [oneLoop]
    by_cases h : p a = true
    · rw [if_pos h, List.countP_cons_of_pos h]
      cases f
      · rw [if_neg (by simp), ih]; simp
      · simp
    · rw [if_neg h, List.countP_cons_of_neg h, ih]

theorem mapLoop_eq (f : α → β) (as : List α) (done : List (Option β)) :
    mapLoop f done.length (done ++ List.replicate as.length none) as = done ++ as.map fun a => some (f a) := by
  induction as generalizing done with
  | nil => simp [mapLoop]
  | cons a as ih =>
    have h := ih (done ++ [some (f a)])
    rw [List.length_append, List.length_singleton] at h
    rw [mapLoop, List.length_cons, List.replicate_succ, List.set_append_right _ _ (Nat.le_refl _), Nat.sub_self,
      List.set_cons_zero]
    simpa using h

theorem mapArr_eq (f : α → β) (as : List α) : mapArr f as = as.map fun a => some (f a) := by
  have := mapLoop_eq f as []
  simpa [mapArr] using this

theorem reduce_eq (f : β → α → β) (memo : β) (as : List α) : reduce f memo as = as.foldl f memo := by
  induction as generalizing memo with
  | nil => rfl
  | cons a as ih => simp [reduce, ih]

theorem find_eq (f : α → Option β) (as : List α) : find f as = as.findSome? f := by
  induction as with
  | nil => rfl
  | cons a as ih => rw [find, List.findSome?_cons]; cases f a <;> simp [ih]
end

/-! ### Flatten -/

mutual
/-- The leaves of a value that are not arrays, from left to right. -/
def leaves : Val → List Val
  | .arr vs => leavesList vs
  | v => [v]

def leavesList : List Val → List Val
  | [] => []
  | v :: vs => leaves v ++ leavesList vs
end

mutual
theorem flattenVal_eq (r : List Val) (v : Val) : flattenVal r v = r ++ leaves v := by
  cases v with
  | arr vs => rw [flattenVal, leaves, flattenElements_eq]
  | _ => simp [flattenVal, leaves]

theorem flattenElements_eq (r : List Val) (vs : List Val) : flattenElements r vs = r ++ leavesList vs := by
  cases vs with
  | nil => simp [flattenElements, leavesList]
  | cons v vs => rw [flattenElements, flattenElements_eq, flattenVal_eq, leavesList, List.append_assoc]
end

theorem leavesList_append (as bs : List Val) : leavesList (as ++ bs) = leavesList as ++ leavesList bs := by
  induction as with
  | nil => simp [leavesList]
  | cons a as ih => simp [leavesList, ih]

theorem leaves_plain {v : Val} (h : isArr v = false) : leaves v = [v] := by
  cases v <;> simp [leaves, isArr] at *

theorem leavesList_plain {vs : List Val} (h : ∀ v ∈ vs, isArr v = false) : leavesList vs = vs := by
  induction vs with
  | nil => rfl
  | cons v vs ih => rw [leavesList, leaves_plain (h v (by simp)), ih fun w hw => h w (by simp [hw])]; rfl

theorem flattenFrom_eq (before es : List Val) (h : ∀ v ∈ before, isArr v = false) :
    flattenFrom before es = leavesList (before ++ es) := by
  induction es generalizing before with
  | nil => rw [flattenFrom, List.append_nil, leavesList_plain h]
  | cons e es ih =>
    rw [flattenFrom]
    by_cases he : isArr e = true
    · rw [if_pos he, flattenElements_eq, leavesList_append, leavesList_plain h]
    · rw [if_neg he, ih, List.append_assoc, List.singleton_append]
      intro v hv
      rcases List.mem_append.1 hv with hv | hv
      · exact h v hv
      · simp at hv; subst hv; simpa using he

mutual
theorem leaves_not_arr (v : Val) : ∀ x ∈ leaves v, isArr x = false := by
  cases v with
  | arr vs => rw [leaves]; exact leavesList_not_arr vs
  | _ => simp [leaves, isArr]

theorem leavesList_not_arr (vs : List Val) : ∀ x ∈ leavesList vs, isArr x = false := by
  cases vs with
  | nil => simp [leavesList]
  | cons v vs =>
    intro x hx
    rw [leavesList] at hx
    rcases List.mem_append.1 hx with h | h
    · exact leaves_not_arr v x h
    · exact leavesList_not_arr vs x h
end

/-! ### Sort -/
section
variable {α : Type} {less : α → α → Bool}

theorem insertBack_perm (x : α) (ps : List α) : (insertBack less x ps).Perm (x :: ps) := by
  induction ps with
  | nil => exact .refl _
  | cons p ps ih =>
    rw [insertBack]
    split
    · exact ((List.Perm.cons p ih).trans (List.Perm.swap x p ps))
    · exact .refl _

theorem foldl_insert_perm (acc xs : List α) :
    (xs.foldl (fun acc x => insertBack less x acc) acc).Perm (xs.reverse ++ acc) := by
  induction xs generalizing acc with
  | nil => exact .refl _
  | cons x xs ih =>
    rw [List.foldl_cons, List.reverse_cons, List.append_assoc]
    exact (ih _).trans (List.Perm.append_left _ (insertBack_perm x acc))

theorem stableSort_perm (xs : List α) : (stableSort less xs).Perm xs := by
  unfold stableSort
  have := foldl_insert_perm (less := less) [] xs
  rw [List.append_nil] at this
  exact (List.reverse_perm _).trans (this.trans (List.reverse_perm _))

/-- `less` is a strict weak order on the elements that satisfy `S`. -/
structure WeakOrder (S : α → Prop) (less : α → α → Bool) : Prop where
  irr : ∀ a, S a → less a a = false
  asymm : ∀ a b, S a → S b → less a b = true → less b a = false
  trans : ∀ a b c, S a → S b → S c → less b a = false → less c b = false → less c a = false

variable {S : α → Prop}

/-- The sorted prefix, reversed: no element is less than a later one. -/
theorem insertBack_sorted (W : WeakOrder S less) {x : α} {ps : List α} (hx : S x) (hp : ∀ p ∈ ps, S p)
    (h : ps.Pairwise fun a b => less a b = false) : (insertBack less x ps).Pairwise fun a b => less a b = false := by
  induction ps with
  | nil => simp [insertBack]
  | cons p ps ih =>
    rw [List.pairwise_cons] at h
    have hp1 := hp p (by simp)
    have hp2 : ∀ q ∈ ps, S q := fun q hq => hp q (by simp [hq])
    rw [insertBack]
    split
    · rename_i hl
      rw [List.pairwise_cons]
      refine ⟨?_, ih hp2 h.2⟩
      intro q hq
      rcases List.mem_cons.1 ((insertBack_perm x ps).mem_iff.1 hq) with rfl | hq
      · exact W.asymm _ _ hx hp1 hl
      · exact h.1 q hq
    · rename_i hl
      simp only [Bool.not_eq_true] at hl
      rw [List.pairwise_cons]
      refine ⟨?_, List.pairwise_cons.2 h⟩
      intro q hq
      rcases List.mem_cons.1 hq with rfl | hq
      · exact hl
      · exact W.trans q p x (hp2 q hq) hp1 hx (h.1 q hq) hl

theorem foldl_insert_sorted (W : WeakOrder S less) {acc xs : List α} (ha : ∀ p ∈ acc, S p) (hx : ∀ p ∈ xs, S p)
    (h : acc.Pairwise fun a b => less a b = false) :
    (xs.foldl (fun acc x => insertBack less x acc) acc).Pairwise fun a b => less a b = false := by
  induction xs generalizing acc with
  | nil => exact h
  | cons x xs ih =>
    refine ih ?_ (fun p hp => hx p (by simp [hp])) (insertBack_sorted W (hx x (by simp)) ha h)
    intro p hp
    rcases List.mem_cons.1 ((insertBack_perm x acc).mem_iff.1 hp) with rfl | hp
    · exact hx p (by simp)
    · exact ha p hp

theorem stableSort_sorted (W : WeakOrder S less) {xs : List α} (hx : ∀ p ∈ xs, S p) :
    (stableSort less xs).Pairwise fun a b => less b a = false := by
  unfold stableSort
  rw [List.pairwise_reverse]
  exact foldl_insert_sorted W (by simp) hx .nil

/-- Elements that are not ordered by `less` keep their order. -/
theorem insertBack_stable (W : WeakOrder S less) {x v : α} {ps : List α} (hv : S v) (hx : S x) (hp : ∀ p ∈ ps, S p) :
    (insertBack less x ps).filter (fun a => !less a v && !less v a) =
      (x :: ps).filter (fun a => !less a v && !less v a) := by
  induction ps with
  | nil => rfl
  | cons p ps ih =>
    rw [insertBack]
    split
    · rename_i hl
      have hp1 := hp p (by simp)
      by_cases hev : (!less x v && !less v x) = true
      · have hpv : (!less p v && !less v p) = false := by
          simp only [Bool.and_eq_true, Bool.not_eq_true'] at hev
          by_contra hc
          simp only [Bool.not_eq_false, Bool.and_eq_true, Bool.not_eq_true'] at hc
          -- ¬ less x v, ¬ less v p → ¬ less x p
          have := W.trans p v x hp1 hv hx hc.2 hev.1
          rw [hl] at this; cases this
        rw [List.filter_cons_of_neg (by simp [hpv]), ih fun q hq => hp q (by simp [hq])]
        simp only [List.filter_cons, hev, hpv]
        simp
      · rw [List.filter_cons, ih fun q hq => hp q (by simp [hq])]
        simp only [List.filter_cons, hev]
        simp
    · rfl

theorem foldl_insert_stable (W : WeakOrder S less) {acc xs : List α} {v : α} (hv : S v) (ha : ∀ p ∈ acc, S p)
    (hx : ∀ p ∈ xs, S p) :
    (xs.foldl (fun acc x => insertBack less x acc) acc).filter (fun a => !less a v && !less v a) =
      (xs.reverse ++ acc).filter (fun a => !less a v && !less v a) := by
  induction xs generalizing acc with
  | nil => rfl
  | cons x xs ih =>
    rw [List.foldl_cons, ih ?_ fun p hp => hx p (by simp [hp])]
    · rw [List.filter_append, insertBack_stable W hv (hx x (by simp)) ha, List.reverse_cons, List.append_assoc,
        List.filter_append]
      rfl
    · intro p hp
      rcases List.mem_cons.1 ((insertBack_perm x acc).mem_iff.1 hp) with rfl | hp
      · exact hx p (by simp)
      · exact ha p hp

theorem stableSort_stable (W : WeakOrder S less) {xs : List α} {v : α} (hv : S v) (hx : ∀ p ∈ xs, S p) :
    (stableSort less xs).filter (fun a => !less a v && !less v a) = xs.filter (fun a => !less a v && !less v a) := by
  unfold stableSort
  rw [List.filter_reverse, foldl_insert_stable W hv (by simp) hx, List.append_nil, List.filter_reverse, List.reverse_reverse]
end

theorem sortLess_kind {k : Kind} {a b : Val} (ha : HasKind k a) (hb : HasKind k b) :
    sortLess a b = decide (cmp a b = some .lt) := by
  unfold sortLess
  rw [ha.comparable, if_pos rfl]
  have := (kind_laws k).dec a b ha hb
  match hc : cmp a b with
  | none => rw [hc] at this; cases this
  | some o => cases o <;> rfl

theorem not_lt_iff {k : Kind} {a b : Val} (ha : HasKind k a) (hb : HasKind k b) :
    sortLess a b = false ↔ cmp b a ≠ some .gt := by
  rw [sortLess_kind ha hb, (kind_laws k).swap a b ha hb]
  match hc : cmp a b with
  | none => have := (kind_laws k).dec a b ha hb; rw [hc] at this; cases this
  | some o => cases o <;> simp

theorem kind_weak (k : Kind) : WeakOrder (HasKind k) sortLess where
  irr a ha := by rw [sortLess_kind ha ha, (kind_laws k).refl_eq ha]; rfl
  asymm a b ha hb h := by
    rw [sortLess_kind ha hb, decide_eq_true_iff] at h
    rw [sortLess_kind hb ha, (kind_laws k).swap a b ha hb, h]; rfl
  trans a b c ha hb hc h1 h2 := by
    rw [not_lt_iff hb ha] at h1
    rw [not_lt_iff hc hb] at h2
    rw [not_lt_iff hc ha]
    exact (kind_laws k).le a b c ha hb hc h1 h2

/-! ### ContainsAll -/
section
variable {α : Type} {e : α → α → Bool}

theorem takeFirst_some {ea : α} {vs vs' : List (Option α)} (h : takeFirst e ea vs = some vs') :
    ∃ pre be post, vs.filterMap id = pre ++ be :: post ∧ e be ea = true ∧ vs'.filterMap id = pre ++ post := by
  induction vs generalizing vs' with
  | nil => simp [takeFirst] at h
  | cons v vs ih =>
    cases v with
    | none =>
      rw [takeFirst, Option.map_eq_some_iff] at h
      obtain ⟨w, hw, rfl⟩ := h
      obtain ⟨pre, be, post, h1, h2, h3⟩ := ih hw
      exact ⟨pre, be, post, by simpa using h1, h2, by simpa using h3⟩
    | some b =>
      rw [takeFirst] at h
      split at h
      · cases h
        exact ⟨[], b, vs.filterMap id, by simp, by assumption, by simp⟩
      · rw [Option.map_eq_some_iff] at h
        obtain ⟨w, hw, rfl⟩ := h
        obtain ⟨pre, be, post, h1, h2, h3⟩ := ih hw
        refine ⟨b :: pre, be, post, ?_, h2, ?_⟩
        · simpa using h1
        · simpa using h3

theorem takeFirst_none {ea : α} {vs : List (Option α)} (h : takeFirst e ea vs = none) :
    ∀ be ∈ vs.filterMap id, e be ea = false := by
  induction vs with
  | nil => simp
  | cons v vs ih =>
    cases v with
    | none =>
      rw [takeFirst, Option.map_eq_none_iff] at h
      simpa using ih h
    | some b =>
      rw [takeFirst] at h
      split at h
      · cases h
      · rename_i hb
        rw [Option.map_eq_none_iff] at h
        intro be hbe
        simp only [List.filterMap_cons, id_eq, List.mem_cons] at hbe
        rcases hbe with rfl | hbe
        · simpa using hb
        · exact ih h be hbe

/-- `as` and a part of `rem` can be paired so that the partners are equal. -/
def Matched (e : α → α → Bool) (as rem : List α) : Prop :=
  ∃ taken rest, (taken ++ rest).Perm rem ∧ List.Forall₂ (fun a b => e b a = true) as taken

theorem forall₂_split_right {β : Type} {R : α → β → Prop} {as : List α} {p q : List β} {b : β} (h : List.Forall₂ R as (p ++ b :: q)) :
    ∃ ap a aq, as = ap ++ a :: aq ∧ List.Forall₂ R ap p ∧ R a b ∧ List.Forall₂ R aq q := by
  induction p generalizing as with
  | nil =>
    cases h with
    | cons h1 h2 => exact ⟨[], _, _, rfl, .nil, h1, h2⟩
  | cons c p ih =>
    cases h with
    | cons h1 h2 =>
      obtain ⟨ap, a, aq, rfl, i1, i2, i3⟩ := ih h2
      exact ⟨_ :: ap, a, aq, rfl, .cons h1 i1, i2, i3⟩

theorem forall₂_app {β : Type} {R : α → β → Prop} {a1 a2 : List α} {b1 b2 : List β} (h1 : List.Forall₂ R a1 b1)
    (h2 : List.Forall₂ R a2 b2) : List.Forall₂ R (a1 ++ a2) (b1 ++ b2) := by
  induction h1 with
  | nil => exact h2
  | cons h _ ih => exact .cons h ih

/-- Any partner will do for the first element. -/
theorem Matched.exchange {a be : α} {as pre post : List α} {S : α → Prop}
    (hS : ∀ x ∈ pre ++ be :: post, S x) (ha : ∀ x ∈ a :: as, S x)
    (symm : ∀ a b, S a → S b → e a b = true → e b a = true)
    (trans : ∀ a b c, S a → S b → S c → e a b = true → e b c = true → e a c = true)
    (hbe : e be a = true) (h : Matched e (a :: as) (pre ++ be :: post)) : Matched e as (pre ++ post) := by
  obtain ⟨taken, rest, hp, hf⟩ := h
  cases hf with
  | @cons _ t _ ts hat hf =>
    have hbS : S be := hS be (by simp)
    have htS : S t := hS t (hp.mem_iff.1 (by simp))
    have haS : S a := ha a (by simp)
    have hte : e t be = true := trans t a be htS haS hbS hat (symm _ _ hbS haS hbe)
    have hp' : (t :: ts ++ rest).Perm (be :: (pre ++ post)) := hp.trans List.perm_middle
    have hmem : be ∈ t :: ts ++ rest := hp'.mem_iff.2 (by simp)
    rw [List.cons_append, List.mem_cons, List.mem_append] at hmem
    rcases hmem with rfl | hmem | hmem
    · exact ⟨ts, rest, hp'.cons_inv, hf⟩
    · obtain ⟨p, q, rfl⟩ := List.append_of_mem hmem
      obtain ⟨ap, a', aq, rfl, i1, i2, i3⟩ := forall₂_split_right hf
      refine ⟨p ++ t :: q, rest, ?_, forall₂_app i1 (.cons ?_ i3)⟩
      · refine List.Perm.cons_inv (a := be) (List.Perm.trans ?_ hp')
        simp only [List.append_assoc, List.cons_append]
        refine ((List.perm_middle (l₁ := p) (a := t)).cons be).trans ?_
        refine (List.Perm.swap t be _).trans ?_
        exact (List.perm_middle (l₁ := p) (a := be)).symm.cons t
      · exact trans t be a' htS hbS (ha a' (by simp)) hte i2
    · obtain ⟨p, q, rfl⟩ := List.append_of_mem hmem
      refine ⟨ts, t :: (p ++ q), ?_, hf⟩
      refine List.Perm.cons_inv (a := be) (List.Perm.trans ?_ hp')
      refine ((List.perm_middle (l₁ := ts) (a := t)).cons be).trans ?_
      refine (List.Perm.swap t be _).trans ?_
      refine List.Perm.cons t ?_
      have := (List.perm_middle (l₁ := ts ++ p) (a := be) (l₂ := q)).symm
      simpa using this

theorem containsLoop_iff {S : α → Prop} {as : List α} {vs : List (Option α)} {n : Nat} (hn : n ≤ as.length)
    (hS : ∀ x ∈ vs.filterMap id, S x) (ha : ∀ x ∈ as, S x)
    (symm : ∀ a b, S a → S b → e a b = true → e b a = true)
    (trans : ∀ a b c, S a → S b → S c → e a b = true → e b c = true → e a c = true) :
    containsLoop e n as vs = true ↔ Matched e (as.take n) (vs.filterMap id) := by
  induction n generalizing as vs with
  | zero => simp only [containsLoop, List.take_zero, true_iff]; exact ⟨[], _, .refl _, .nil⟩
  | succ n ih =>
    cases as with
    | nil => simp at hn
    | cons a as =>
      rw [containsLoop, List.take_succ_cons]
      match ht : takeFirst e a vs with
      | none =>
        have := takeFirst_none ht
        simp only [Bool.false_eq_true, false_iff]
        rintro ⟨taken, rest, hp, hf⟩
        cases hf with
        | @cons _ t _ ts hat hf =>
          rw [this t (hp.mem_iff.1 (by simp))] at hat
          cases hat
      | some vs' =>
        obtain ⟨pre, be, post, h1, h2, h3⟩ := takeFirst_some ht
        rw [h1] at hS
        have hS' : ∀ x ∈ vs'.filterMap id, S x := by
          rw [h3]; intro x hx
          rcases List.mem_append.1 hx with hx | hx
          · exact hS x (by simp [hx])
          · exact hS x (by simp [hx])
        simp only
        rw [ih (by simpa using hn) hS' fun x hx => ha x (by simp [hx]), h3, h1]
        constructor
        · rintro ⟨taken, rest, hp, hf⟩
          refine ⟨be :: taken, rest, ?_, .cons h2 hf⟩
          exact (hp.cons be).trans List.perm_middle.symm
        · refine Matched.exchange hS ?_ symm trans h2
          intro x hx
          rcases List.mem_cons.1 hx with rfl | hx
          · exact ha x (by simp)
          · exact ha x (by simp [List.mem_of_mem_take hx])
end

/-! ### Unique -/
section
open HMap (KeyOps slot tableSizeFor)
variable {α : Type} [KeyOps α]

/-- The elements of `xs` that are not equal to an element before them, `pre` included. -/
def firstOccs (pre : List α) : List α → List α
  | [] => []
  | x :: xs => if pre.any (fun e => KeyOps.eq x e) then firstOccs (pre ++ [x]) xs else x :: firstOccs (pre ++ [x]) xs

structure UInv (tbl : List (List α)) (u : List α) : Prop where
  pos : 0 < tbl.length
  size : tbl.length ≤ 2 ^ 30
  mem : ∀ i c, tbl[i]? = some c → ∀ e, e ∈ c ↔ e ∈ u ∧ slot tbl.length (KeyOps.hash e) = i

theorem uniqueLoop_eq (hash : ∀ a b : α, KeyOps.eq a b = true → KeyOps.hash a = KeyOps.hash b)
    (trans : ∀ a b c : α, KeyOps.eq a b = true → KeyOps.eq b c = true → KeyOps.eq a c = true)
    {tbl : List (List α)} {u pre ks : List α} (h : UInv tbl u)
    (hu : ∀ e ∈ u, e ∈ pre) (hpre : ∀ x ∈ pre, ∃ e ∈ u, KeyOps.eq x e = true)
    (hrefl : ∀ a : α, KeyOps.eq a a = true) : uniqueLoop tbl u ks = u ++ firstOccs pre ks := by
  induction ks generalizing tbl u pre with
  | nil => simp [uniqueLoop, firstOccs]
  | cons k ks ih =>
    rw [uniqueLoop, firstOccs]
    have hs : slot tbl.length (KeyOps.hash k) < tbl.length := HMap.slot_lt h.pos h.size _
    obtain ⟨c, hc⟩ : ∃ c, tbl[slot tbl.length (KeyOps.hash k)]? = some c := ⟨_, List.getElem?_eq_getElem hs⟩
    have hm := h.mem _ c hc
    have e : c.any (fun e => KeyOps.eq k e) = pre.any (fun e => KeyOps.eq k e) := by
      rw [Bool.eq_iff_iff, List.any_eq_true, List.any_eq_true]
      constructor
      · rintro ⟨x, hx, hk⟩; exact ⟨x, hu x ((hm x).1 hx).1, hk⟩
      · rintro ⟨x, hx, hk⟩
        obtain ⟨y, hy, hxy⟩ := hpre x hx
        have hky := trans _ _ _ hk hxy
        exact ⟨y, (hm y).2 ⟨hy, by rw [hash _ _ hky]⟩, hky⟩
    simp only [hc, Option.getD_some, e]
    by_cases hk : pre.any (fun e => KeyOps.eq k e) = true
    · rw [if_pos hk, if_pos hk]
      refine ih h (fun e he => by simp [hu e he]) ?_
      intro x hx
      rcases List.mem_append.1 hx with hx | hx
      · exact hpre x hx
      · simp at hx; subst hx
        obtain ⟨y, hy, hky⟩ := List.any_eq_true.1 hk
        obtain ⟨z, hz, hyz⟩ := hpre y hy
        exact ⟨z, hz, trans _ _ _ hky hyz⟩
    · rw [if_neg hk, if_neg hk]
      rw [ih (pre := pre ++ [k]), List.append_assoc]
      · rfl
      · refine ⟨by simpa using h.pos, by simpa using h.size, ?_⟩
        intro i d hd x
        rw [List.length_set]
        by_cases hi : slot tbl.length (KeyOps.hash k) = i
        · subst hi
          rw [List.getElem?_set_self hs] at hd
          cases hd
          rw [List.mem_cons, List.mem_append, hm x, List.mem_singleton]
          constructor
          · rintro (rfl | ⟨h1, h2⟩)
            · exact ⟨.inr rfl, rfl⟩
            · exact ⟨.inl h1, h2⟩
          · rintro ⟨h1 | rfl, h2⟩
            · exact .inr ⟨h1, h2⟩
            · exact .inl rfl
        · rw [List.getElem?_set_ne hi] at hd
          rw [h.mem i d hd x, List.mem_append, List.mem_singleton]
          constructor
          · rintro ⟨h1, h2⟩; exact ⟨.inl h1, h2⟩
          · rintro ⟨h1 | rfl, h2⟩
            · exact ⟨h1, h2⟩
            · exact absurd h2 hi
      · intro x hx
        rcases List.mem_append.1 hx with hx | hx
        · simp [hu x hx]
        · simp at hx; simp [hx]
      · intro x hx
        rcases List.mem_append.1 hx with hx | hx
        · obtain ⟨y, hy, hxy⟩ := hpre x hx; exact ⟨y, by simp [hy], hxy⟩
        · simp at hx; subst hx; exact ⟨x, by simp, hrefl x⟩

theorem unique_eq (hash : ∀ a b : α, KeyOps.eq a b = true → KeyOps.hash a = KeyOps.hash b)
    (trans : ∀ a b c : α, KeyOps.eq a b = true → KeyOps.eq b c = true → KeyOps.eq a c = true)
    (hrefl : ∀ a : α, KeyOps.eq a a = true) (as : List α) : unique as = firstOccs [] as := by
  unfold unique
  split
  · match as with
    | [] => rfl
    | [a] => simp [firstOccs]
  · have hk : ∃ k ≤ 30, tableSizeFor (as.length * 4 / 3) = 2 ^ k := by
      obtain ⟨k, h1, h2, _⟩ := HMap.tableSizeForW_spec (BitVec.ofNat 64 (as.length * 4 / 3))
      exact ⟨k, h1, h2⟩
    obtain ⟨k, hk1, hk2⟩ := hk
    rw [uniqueLoop_eq hash trans (pre := []) ?_ (by simp) (by simp) hrefl]
    · rfl
    · rw [hk2]
      refine ⟨by rw [List.length_replicate]; exact Nat.two_pow_pos k, ?_, ?_⟩
      · simp only [List.length_replicate]; exact Nat.pow_le_pow_right (by omega) hk1
      · intro i c hc e
        have := (List.getElem?_eq_some_iff.1 hc)
        obtain ⟨_, hc⟩ := this
        simp only [List.getElem_replicate] at hc
        subst hc; simp

theorem firstOccs_sublist (pre xs : List α) : (firstOccs pre xs).Sublist xs := by
  induction xs generalizing pre with
  | nil => exact .slnil
  | cons x xs ih =>
    rw [firstOccs]; split
    · exact (ih _).cons x
    · exact (ih _).cons_cons x

theorem firstOccs_fresh (pre xs : List α) : ∀ x ∈ firstOccs pre xs, ∀ e ∈ pre, KeyOps.eq x e = false := by
  induction xs generalizing pre with
  | nil => simp [firstOccs]
  | cons y xs ih =>
    intro x hx e he
    rw [firstOccs] at hx
    split at hx
    · exact ih _ x hx e (by simp [he])
    · rename_i hn
      rcases List.mem_cons.1 hx with rfl | hx
      · simp only [List.any_eq_true, not_exists, not_and, Bool.not_eq_true] at hn
        exact hn e he
      · exact ih _ x hx e (by simp [he])

theorem firstOccs_diff (pre xs : List α) : (firstOccs pre xs).Pairwise fun a b => KeyOps.eq b a = false := by
  induction xs generalizing pre with
  | nil => exact .nil
  | cons y xs ih =>
    rw [firstOccs]; split
    · exact ih _
    · rw [List.pairwise_cons]
      exact ⟨fun b hb => firstOccs_fresh _ _ b hb y (by simp), ih _⟩

theorem firstOccs_cover (hrefl : ∀ a : α, KeyOps.eq a a = true)
    (trans : ∀ a b c : α, KeyOps.eq a b = true → KeyOps.eq b c = true → KeyOps.eq a c = true) (pre xs : List α) :
    ∀ x ∈ xs, (∃ e ∈ pre, KeyOps.eq x e = true) ∨ ∃ e ∈ firstOccs pre xs, KeyOps.eq x e = true := by
  induction xs generalizing pre with
  | nil => simp
  | cons y xs ih =>
    intro x hx
    rw [firstOccs]
    rcases List.mem_cons.1 hx with rfl | hx
    · split
      · rename_i h
        exact .inl (by simpa using h)
      · exact .inr ⟨x, by simp, hrefl x⟩
    · rcases ih (pre ++ [y]) x hx with ⟨e, he, hxe⟩ | ⟨e, he, hxe⟩
      · rcases List.mem_append.1 he with he | he
        · exact .inl ⟨e, he, hxe⟩
        · simp at he; subst he
          split
          · rename_i h
            obtain ⟨z, hz, hez⟩ := List.any_eq_true.1 h
            exact .inl ⟨z, hz, trans _ _ _ hxe hez⟩
          · exact .inr ⟨e, by simp, hxe⟩
      · right
        split
        · exact ⟨e, he, hxe⟩
        · exact ⟨e, by simp [he], hxe⟩
end

end Verif.Value
