import Verif.Types.RecAsgWalk
import Verif.Types.SoundLoops
/-!
# When Assignable is right, for types that contain themselves
-/
set_option autoImplicit false
set_option linter.unusedVariables false
set_option linter.unusedSimpArgs false
set_option linter.unnecessarySeqFocus false
set_option linter.unusedTactic false
set_option linter.unusedSectionVars false
set_option linter.unreachableTactic false
namespace Verif.RecAsg
open Verif.Value
open Verif.Types (Ty Env leafCase allO maxInt instanceOf)
open Verif.Types.RecEq (Plain)
open Verif.Types.Rec (Guard G Check allG anyG andG Out out_mark inner outer Hits V Obj Heap View Reading Says)

/-! ### Types that are the same -/

theorem f64_le_of_eq {a b : F64} (h : Value.F64.eq a b = true) : Verif.Types.F64.le b a = true ∧ Value.F64.lt b a = false := by
  have := (F64.eq_iff a b).1 h
  have h' := (F64.eq_iff b a).2 ⟨this.2.1, this.1, this.2.2.symm⟩
  exact ⟨by simp [Verif.Types.F64.le, h'], by simp [F64.lt, this.2.2]⟩

theorem leaf_equal {E : Env} {s t : Ty} (hs : Plain s) (ht : Plain t) (h : s.equals t = true) : leafCase E Ty.equals s t = some true := by
  have h' : Verif.Types.leafEq (Verif.Types.tyEq (s.depth + t.depth) []) s t = true := by
    have hd : s.deep? = none := by cases s <;> first | rfl | exact hs.elim
    rw [Ty.equals, Verif.Types.tyEq, hd] at h
    exact h
  unfold Verif.Types.leafEq at h'
  split at h' <;> first | (cases h'; done) | skip
  all_goals try (first | rfl | exact hs.elim)
  · rw [leafCase, if_pos h']
  · simp only [leafCase, if_pos h']
  · simp only [Bool.and_eq_true, beq_iff_eq] at h'
    obtain ⟨⟨rfl, rfl⟩, rfl⟩ := h'
    simp [leafCase, BitVec.sle, BitVec.slt]
  · simp only [Bool.and_eq_true, beq_iff_eq] at h'
    obtain ⟨⟨h1, h2⟩, rfl⟩ := h'
    simp [leafCase, (f64_le_of_eq h1).2, (f64_le_of_eq h2).1]
  · simp only [Bool.and_eq_true, beq_iff_eq] at h'
    obtain ⟨rfl, rfl⟩ := h'
    simp [leafCase]
  · simp [leafCase, h']
  · simp only [Bool.and_eq_true, beq_iff_eq] at h'
    obtain ⟨rfl, rfl⟩ := h'
    simp [leafCase]

theorem any_false {α : Type} {f : G → α → Check} : (xs : List α) → {g g' : G} → anyG f g xs = some (false, g') → ∀ x ∈ xs, ∃ h h', f h x = some (false, h')
  | [], _, _, _, x, hx => by cases hx
  | y :: ys, g, g', h, x, hx => by
    rw [anyG] at h
    split at h
    · cases h
    · cases h
    · rename_i g'' e
      rcases List.mem_cons.1 hx with rfl | hx
      · exact ⟨g, g'', e⟩
      · exact any_false ys h x hx

theorem all_true {α : Type} {f : G → α → Check} : (xs : List α) → {g g' : G} → {r : Bool} → allG f g xs = some (r, g') →
    (∀ x ∈ xs, ∀ h r h', f h x = some (r, h') → r = true) → r = true
  | [], g, g', r, h, _ => by cases h; rfl
  | y :: ys, g, g', r, h, hx => by
    rw [allG] at h
    split at h
    · cases h
    · rename_i e; have := hx y (.head _) _ _ _ e; cases this
    · exact all_true ys h fun x hm => hx x (.tail _ hm)

theorem forall2_right {α β : Type} {R : α → β → Prop} {ts : List α} {us : List β} (h : List.Forall₂ R ts us) {u : β} (hu : u ∈ us) : ∃ t ∈ ts, R t u := by
  induction h with
  | nil => cases hu
  | cons h _ ih =>
    rcases List.mem_cons.1 hu with rfl | hu
    · exact ⟨_, .head _, h⟩
    · obtain ⟨t, h1, h2⟩ := ih hu
      exact ⟨t, .tail _ h1, h2⟩

/-- `b` is the same as `a`, or as one of its operands. -/
inductive Part (T : Types) (S : Nat → Nat → Prop) : Nat → Nat → Prop where
  | same {a b : Nat} : S a b → Part T S a b
  | op {a b t : Nat} {ts : List Nat} : T[a]? = some (.anyOf ts) → t ∈ ts → Part T S t b → Part T S a b

theorem same_true {E : Env} {T : Types} (hc : Closed T) {S : Nat → Nat → Prop}
    (hS : ∀ c d, S c d → ∃ x y, T[c]? = some x ∧ T[d]? = some y ∧ SameNode S x y) : (n : Nat) → ∀ g a b r g', Part T S a b →
    asg E T n g a (some b) = some (r, g') → r = true
  | 0, g, a, b, r, g', _, h => by cases h
  | n + 1, g, a, b, r, g', hp, h => by
    have ih := same_true (E := E) hc hS n
    by_cases hne : b = a
    · subst hne; rw [asg_same] at h; cases h; rfl
    cases hp with
    | same hab =>
      obtain ⟨x, y, hx, hy, hs⟩ := hS a b hab
      have deep : x.isDeep = true → y.isDeep = true → (∀ g r g', deepAsg (asg E T n) g a (some b) x y = some (r, g') → r = true) → r = true := by
        intro hdx hdy k
        by_cases hh : Hits g a (.obj b)
        · rw [asg_hit hne hx hdx hy hdy hh] at h; cases h; rfl
        · rw [asg_deep hne hx hdx hy hdy hh] at h
          obtain ⟨⟨r', g''⟩, h1, h2⟩ := Option.map_eq_some_iff.1 h
          cases h2
          exact k _ _ _ h1
      cases hs with
      | @leaf s t he =>
        rw [asg_leaf (b := some b) (by simpa using hne) hx hy, leafAsg.eq_def,
          show leafCase E Ty.equals s (Node.leaf t).shape = some true from leaf_equal (hc.leaves _ (List.mem_of_getElem? hx)) (hc.leaves _ (List.mem_of_getElem? hy)) he] at h
        cases h; rfl
      | arr he =>
        refine deep rfl rfl fun g r g' hr => ?_
        rw [deepAsg, if_pos ⟨Int.le_refl _, Int.le_refl _⟩] at hr
        obtain ⟨⟨r', g''⟩, h1, h2⟩ := Option.map_eq_some_iff.1 hr
        cases h2
        exact ih _ _ _ _ _ (.same he) h1
      | map hk hv =>
        refine deep rfl rfl fun g r g' hr => ?_
        rw [deepAsg, if_pos ⟨Int.le_refl _, Int.le_refl _⟩, andG.eq_def] at hr
        split at hr
        · cases hr
        · rename_i e; cases ih _ _ _ _ _ (.same hk) e
        · exact ih _ _ _ _ _ (.same hv) hr
      | sens ht =>
        refine deep rfl rfl fun g r g' hr => ?_
        rw [deepAsg] at hr
        exact ih _ _ _ _ _ (.same ht) hr
      | @anyOf ts us htu =>
        refine deep rfl rfl fun g r g' hr => ?_
        rw [deepAsg] at hr
        split at hr
        · cases hr; rfl
        · rename_i hne
          split at hr
          · cases hr
          · cases hr; rfl
          · rw [checkTo] at hr
            obtain ⟨⟨r', g''⟩, h1, h2⟩ := Option.map_eq_some_iff.1 hr
            have hus : us ≠ [] := by rintro rfl; cases htu; exact hne rfl
            have := all_true us h1 (by
              intro u hu g r g' hr
              obtain ⟨t, ht, hS'⟩ := forall2_right htu hu
              exact ih g a u r g' (.op hx ht (.same hS')) hr)
            subst this
            cases h2
            simp [hus]
    | @op _ _ t ts hx ht hp =>
      have hlb : ∃ y, T[b]? = some y := by
        clear h hx ht hne
        induction hp with
        | same h => obtain ⟨x, y, _, hy, _⟩ := hS _ _ h; exact ⟨y, hy⟩
        | op _ _ _ ih => exact ih
      obtain ⟨y, hy⟩ := hlb
      have deep : ∀ g r g', deepAsg (asg E T n) g a (some b) (.anyOf ts) y = some (r, g') → r = true := by
        intro g r g' hr
        rw [deepAsg.eq_def] at hr
        dsimp only at hr
        split at hr
        · rename_i he; cases List.isEmpty_iff.1 he; cases ht
        · split at hr
          · cases hr
          · cases hr; rfl
          · rename_i e
            obtain ⟨h1, h2, h3⟩ := any_false ts e t ht
            cases ih _ _ _ _ _ hp h3
      by_cases hdy : y.isDeep = true
      · by_cases hh : Hits g a (.obj b)
        · rw [asg_hit hne hx rfl hy hdy hh] at h; cases h; rfl
        · rw [asg_deep hne hx rfl hy hdy hh] at h
          obtain ⟨⟨r', g''⟩, h1, h2⟩ := Option.map_eq_some_iff.1 h
          cases h2
          exact deep _ _ _ h1
      · have : ∃ s, y = .leaf s := by cases y <;> first | exact ⟨_, rfl⟩ | exact absurd rfl hdy
        obtain ⟨s, rfl⟩ := this
        rw [asg_right (b := some b) (by simpa using hne) hx rfl hy] at h
        exact deep _ _ _ h

/-! ### Types that do not contain themselves -/

theorem says_any {E : Env} (w : View) : leafSays E .any w = true := by
  cases w <;> first | rfl | (rw [leafSays, Verif.Types.instanceOf_has (by simp [Ty.Acyc])]; rfl)

theorem says_leaf {E : Env} {H : Heap} {S : Nat → V → Prop} {t : Ty} {v : V} :
    Says H S (Node.toRec E (.leaf t)) v ↔ leafSays E t (Verif.Types.Rec.view H v) = true := by
  by_cases h : t = .any
  · subst h
    simp [Node.toRec, Says, says_any]
  · have : Node.toRec E (.leaf t) = .prim (leafSays E t) := by cases t <;> first | rfl | exact absurd rfl h
    rw [this, Says]

theorem plain_parts {t : Ty} (h : Plain t) : Verif.Types.parts t = [] := by cases t <;> first | rfl | exact h.elim

theorem left_of {t : Ty} (hp : Plain t) (hr : Regular t) : Verif.Types.Left ⟨false, false, false⟩ t := by
  refine ⟨.leaf ?_ (plain_parts hp), ?_, ?_⟩
  · cases t <;> simp_all [Verif.Types.Lnode, Plain, Regular]
  · cases t <;> simp_all [Ty.Acyc, Plain]
  · cases t <;> simp_all [Ty.Ok, Plain, Regular]

theorem right_of {t : Ty} (hp : Plain t) (hr : Regular t) : Verif.Types.Right ⟨false, false, false⟩ t := by
  refine ⟨.leaf ?_ (plain_parts hp), .leaf ?_ (plain_parts hp), ?_⟩
  · cases t <;> simp_all [Verif.Types.Rnode, Plain, Regular]
  · cases t <;> first | (intro o h; cases h; done) | exact hp.elim
  · cases t <;> simp_all [Ty.Ok, Plain, Regular]

theorem leaf_incl {E : Env} {H : Heap} {s t : Ty} (hs : Plain s) (ht : Plain t) (rs : Regular s) (rt : Regular t)
    (h : leafCase E Ty.equals s t = some true) {v : V} (hv : Good v) (hl : leafSays E t (Verif.Types.Rec.view H v) = true) :
    leafSays E s (Verif.Types.Rec.view H v) = true := by
  have key : ∀ w, Verif.Types.Rec.view H v = w → leafSays E s w = true := by
    intro w hw
    rw [hw] at hl
    cases w with
    | atom a =>
      have : v = .atom a := by
        cases v with
        | atom b => cases hw; rfl
        | obj p =>
          rw [Verif.Types.Rec.view] at hw
          split at hw <;> cases hw
      subst this
      have ha : ∀ {u : Ty}, Plain u → u.Acyc := fun {u} hu => by cases u <;> simp_all [Ty.Acyc, Plain]
      rw [leafSays, Verif.Types.instanceOf_has (ha ht)] at hl
      rw [leafSays, Verif.Types.instanceOf_has (ha hs)]
      exact Verif.Types.leafCase_sound (left_of hs rs) (right_of ht rt) h a hv.2.2.2.1 hv.2.2.2.2 hl
    | arr n =>
      cases t <;> first | (cases hl; done) | skip
      all_goals cases s <;> first | rfl | (simp [leafCase] at h; done)
    | map n =>
      cases t <;> first | (cases hl; done) | skip
      all_goals cases s <;> first | rfl | (simp [leafCase] at h; done)
    | sens =>
      cases t <;> first | (cases hl; done) | skip
      all_goals cases s <;> first | rfl | (simp [leafCase] at h; done)
  exact key _ rfl

/-- What stands on the right -/
def SO (S : Nat → V → Prop) : Option Nat → V → Prop
  | none, _ => True
  | some b, v => S b v

/-- All that stands on the right is included. -/
def Inc (S : Nat → V → Prop) (a : Nat) (b : Option Nat) : Prop := ∀ v, Good v → SO S b v → S a v

section
variable {E : Env} {T : Types} {H : Heap} {S : Nat → V → Prop}

theorem reads (hS : Reading (T.map (Node.toRec E)) H S) {t : Nat} {x : Node} (h : T[t]? = some x) (v : V) : S t v ↔ Says H S (Node.toRec E x) v :=
  hS t _ (by rw [List.getElem?_map, h]; rfl) v

theorem good_map (hH : GoodHeap H) {v : V} {es : List (Val × V)} (h : Verif.Types.Rec.mapOf H v = some es) :
    (es.length : Int) ≤ maxInt ∧ ∀ e ∈ es, Good (.atom e.1) ∧ Good e.2 := by
  cases v with
  | atom a => cases h
  | obj p =>
    have : H[p]? = some (.map es) := by
      rw [Verif.Types.Rec.mapOf, Verif.Types.Rec.load] at h
      split at h
      · rename_i e; cases h; exact e
      · cases h
    have hm := List.mem_of_getElem? this
    refine ⟨hH.maps es hm, fun e he => ?_⟩
    have hp := hH.parts _ hm
    exact ⟨hp _ (by simp only [Obj.parts, List.mem_flatMap]; exact ⟨e, he, .head _⟩), hp _ (by simp only [Obj.parts, List.mem_flatMap]; exact ⟨e, he, .tail _ (.head _)⟩)⟩

theorem good_arr (hH : GoodHeap H) {v : V} {es : List V} (h : Verif.Types.Rec.arrOf H v = some es) : ∀ x ∈ es, Good x := by
  cases v with
  | atom a => cases h
  | obj p =>
    have : H[p]? = some (.arr es) := by
      rw [Verif.Types.Rec.arrOf, Verif.Types.Rec.load] at h
      split at h
      · rename_i e; cases h; exact e
      · cases h
    exact hH.parts _ (List.mem_of_getElem? this)

theorem good_sens (hH : GoodHeap H) {v x : V} (h : Verif.Types.Rec.sensOf H v = some x) : Good x := by
  cases v with
  | atom a => cases h
  | obj p =>
    have : H[p]? = some (.sens x) := by
      rw [Verif.Types.Rec.sensOf, Verif.Types.Rec.load] at h
      split at h
      · rename_i e; cases h; exact e
      · cases h
    exact hH.parts _ (List.mem_of_getElem? this) x (.head _)

/-- What is found of the parts makes it right. -/
theorem gives_inc (hH : GoodHeap H) (hS : Reading (T.map (Node.toRec E)) H S) {a : Nat} {b : Option Nat} {x y : Node} (ha : T[a]? = some x)
    (hb : node? T b = some y) (hv : x ≠ .anyOf []) (h : Gives (Inc S) a b x y) : Inc S a b := by
  intro v hg hs
  rw [reads hS ha]
  have hy : ∀ b', b = some b' → Says H S (Node.toRec E y) v := by
    rintro b' rfl
    exact (reads hS hb v).1 hs
  cases h with
  | arr h1 h2 h3 =>
    cases b with
    | none => cases hb
    | some b =>
      obtain ⟨vs, e, k1, k2, k3⟩ := hy b rfl
      exact ⟨vs, e, by omega, by omega, fun z hz => h3 z (good_arr hH e z hz) (k3 z hz)⟩
  | map h1 h2 h3 h4 =>
    cases b with
    | none => cases hb
    | some b =>
      obtain ⟨es, e, k1, k2, k3⟩ := hy b rfl
      exact ⟨es, e, by omega, by omega, fun z hz => ⟨h3 _ ((good_map hH e).2 z hz).1 (k3 z hz).1, h4 _ ((good_map hH e).2 z hz).2 (k3 z hz).2⟩⟩
  | mapT h1 h2 h3 h4 =>
    cases b with
    | none => cases hb
    | some b =>
      have hl := says_leaf.1 (hy b rfl)
      have : ∃ es, Verif.Types.Rec.mapOf H v = some es := by
        cases v with
        | atom w =>
          rw [Verif.Types.Rec.view, leafSays, Verif.Types.instanceOf_has (by simp [Ty.Acyc])] at hl
          cases w <;> first | exact absurd rfl (hg.2.1 _) | simp [Verif.Types.has, Verif.Types.hasP] at hl
        | obj p =>
          rw [Verif.Types.Rec.view] at hl
          split at hl
          · cases hl
          · rename_i es e; exact ⟨es, by rw [Verif.Types.Rec.mapOf, Verif.Types.Rec.load, e]⟩
          · cases hl
      obtain ⟨es, e⟩ := this
      have := (good_map hH e).1
      exact ⟨es, e, by omega, by omega, fun z hz => ⟨h3 _ ((good_map hH e).2 z hz).1 trivial, h4 _ ((good_map hH e).2 z hz).2 trivial⟩⟩
  | void => exact absurd rfl hv
  | any h1 h2 => exact ⟨_, h1, h2 v hg hs⟩
  | all h1 h2 =>
    cases b with
    | none => cases hb
    | some b =>
      obtain ⟨u, hu, k⟩ := hy b rfl
      exact (reads hS ha v).1 (h2 u hu v hg k)
  | sens h1 =>
    cases b with
    | none => cases hb
    | some b =>
      obtain ⟨z, e, k⟩ := hy b rfl
      exact ⟨z, e, h1 z (good_sens hH e) k⟩

/-- A leaf on the left -/
theorem leaf_gives (hH : GoodHeap H) (hS : Reading (T.map (Node.toRec E)) H S) {a : Nat} {b : Option Nat} {s : Ty} {y : Node}
    (hs : Plain s) (rs : Regular s) (ha : T[a]? = some (.leaf s)) (hb : node? T b = some y) (ht : ∀ t, y = .leaf t → Plain t ∧ Regular t)
    (h : leafCase E Ty.equals s y.shape = some true) : Inc S a b := by
  intro v hg hso
  rw [reads hS ha, says_leaf]
  by_cases hy : ∃ t, y = .leaf t
  · obtain ⟨t, rfl⟩ := hy
    refine leaf_incl hs (ht t rfl).1 rs (ht t rfl).2 h hg ?_
    cases b with
    | none =>
      cases hb
      exact says_any _
    | some b => exact says_leaf.1 ((reads hS hb v).1 hso)
  · cases b with
    | none => exact absurd ⟨_, (Option.some.inj hb).symm⟩ hy
    | some b =>
      have hsay := (reads hS hb v).1 hso
      cases y with
      | leaf t => exact absurd ⟨t, rfl⟩ hy
      | arr e lo hi =>
        obtain ⟨vs, e, _⟩ := hsay
        have : Verif.Types.Rec.view H v = .arr vs.length := by
          cases v with
          | atom w => cases e
          | obj p =>
            rw [Verif.Types.Rec.arrOf, Verif.Types.Rec.load] at e
            split at e
            · rename_i e'; cases e; rw [Verif.Types.Rec.view, e']
            · cases e
        rw [this]
        cases s <;> first | rfl | (simp [leafCase, Node.shape] at h; done)
      | map k w lo hi =>
        obtain ⟨vs, e, _⟩ := hsay
        have : Verif.Types.Rec.view H v = .map vs.length := by
          cases v with
          | atom w => cases e
          | obj p =>
            rw [Verif.Types.Rec.mapOf, Verif.Types.Rec.load] at e
            split at e
            · rename_i e'; cases e; rw [Verif.Types.Rec.view, e']
            · cases e
        rw [this]
        cases s <;> first | rfl | (simp [leafCase, Node.shape] at h; done)
      | anyOf us =>
        have : s = .any := by cases s <;> first | rfl | (simp [leafCase, Node.shape] at h; done)
        subst this
        exact says_any _
      | sens t =>
        have : s = .any := by cases s <;> first | rfl | (simp [leafCase, Node.shape] at h; done)
        subst this
        exact says_any _

theorem allO_sound {f : Nat → Option Bool} {Q : Nat → Prop} : (us : List Nat) → (∀ u ∈ us, ∃ r, f u = some r ∧ (r = true → Q u)) →
    ∃ r, allO f us = some r ∧ (r = true → ∀ u ∈ us, Q u)
  | [], _ => ⟨true, rfl, fun _ u hu => by cases hu⟩
  | u :: us, h => by
    obtain ⟨r, hr, hq⟩ := h u (.head _)
    rw [allO, hr]
    cases r with
    | false => exact ⟨false, rfl, fun h => by cases h⟩
    | true =>
      obtain ⟨r, h1, h2⟩ := allO_sound us fun v hv => h v (.tail _ hv)
      refine ⟨r, h1, fun hr v hv => ?_⟩
      rcases List.mem_cons.1 hv with rfl | hv
      · exact hq rfl
      · exact h2 hr v hv

variable (hc : Closed T) (hr : ∀ t, .leaf t ∈ T → Regular t) (hf : Flat T) (hH : GoodHeap H) (hS : Reading (T.map (Node.toRec E)) H S)
include hc hr hf hH hS

/-- The answer is right. -/
abbrev Right (g : G) (a : Nat) (b : Option Nat) (S : Nat → V → Prop) (c : Check) : Prop := ∃ r, c = some (r, g) ∧ (r = true → Inc S a b)

theorem node_leaf {b : Option Nat} {t : Ty} (h : node? T b = some (.leaf t)) : Plain t ∧ Regular t := by
  cases b with
  | none => cases h; exact ⟨trivial, trivial⟩
  | some b => exact ⟨hc.leaves _ (List.mem_of_getElem? h), hr _ (List.mem_of_getElem? h)⟩

theorem inc_refl {a : Nat} : Inc S a (some a) := fun _ _ h => h

theorem left_leaf_right {n : Nat} {g : G} {a : Nat} {b : Option Nat} {s t : Ty} (ha : T[a]? = some (.leaf s)) (hb : node? T b = some (.leaf t)) :
    Right g a b S (asg E T (n + 1) g a b) := by
  by_cases hne : b = some a
  · subst hne; exact ⟨true, asg_same, fun _ _ _ h => h⟩
  · rw [asg_leaf hne ha hb, leafAsg.eq_def]
    have hs := node_leaf (E := E) hc hr hf hH hS (b := some a) ha
    split
    · rename_i r e
      refine ⟨r, rfl, fun h => ?_⟩
      subst h
      exact leaf_gives hH hS hs.1 hs.2 ha hb (fun t' h => by cases h; exact node_leaf hc hr hf hH hS hb) e
    · exact ⟨false, rfl, fun h => by cases h⟩

theorem left_right {n : Nat} {g : G} {a : Nat} {b : Option Nat} {s : Ty} {y : Node} (ha : T[a]? = some (.leaf s)) (hb : node? T b = some y) :
    Right g a b S (asg E T (n + 2) g a b) := by
  by_cases hne : b = some a
  · subst hne; exact ⟨true, asg_same, fun _ _ _ h => h⟩
  · rw [asg_leaf hne ha hb, leafAsg.eq_def]
    have hs := node_leaf (E := E) hc hr hf hH hS (b := some a) ha
    split
    · rename_i r e
      refine ⟨r, rfl, fun h => ?_⟩
      subst h
      exact leaf_gives hH hS hs.1 hs.2 ha hb (fun t' h => by subst h; exact node_leaf hc hr hf hH hS hb) e
    · split
      · rename_i us _
        cases b with
        | none => cases hb
        | some b =>
          obtain ⟨r, h1, h2⟩ := allO_sound (f := fun u => (asg E T (n + 1) none a (some u)).map (·.1)) (Q := fun u => Inc S a (some u)) us (by
            intro u hu
            obtain ⟨t, ht⟩ := hf b u ⟨us, hb, hu⟩
            obtain ⟨r, h1, h2⟩ := left_leaf_right (n := n) (g := none) hc hr hf hH hS ha (b := some u) ht
            exact ⟨r, by rw [h1]; rfl, h2⟩)
          rw [h1]
          refine ⟨_, rfl, fun h => ?_⟩
          simp only [Bool.and_eq_true] at h
          intro v hg hso
          obtain ⟨u, hu, k⟩ := (reads hS hb v).1 hso
          exact h2 h.1 u hu v hg k
      · exact ⟨false, rfl, fun h => by cases h⟩

theorem of_rs {g : G} {a : Nat} {b : Option Nat} {x y : Node} {c : Check} (ha : T[a]? = some x) (hb : node? T b = some y) (hv : x ≠ .anyOf [])
    (h : Rs (fun g' => g' = g) False True c (Gives (Inc S) a b x y)) : Right g a b S c := by
  obtain ⟨r, g', h1, rfl, _, h2⟩ := h
  exact ⟨r, h1, fun hr => gives_inc hH hS ha hb hv (h2 trivial hr)⟩

theorem to_rs {g : G} {a : Nat} {b : Option Nat} {c : Check} (h : Right g a b S c) : Rs (fun g' => g' = g) False True c (Inc S a b) := by
  obtain ⟨r, h1, h2⟩ := h
  exact ⟨r, g, h1, rfl, fun h => h.elim, fun _ => h2⟩

omit hr hS in
theorem leaf_or_deep {a : Nat} (hl : a < T.length) : (∃ s, T[a]? = some (.leaf s)) ∨ (T[a]? = some T[a] ∧ T[a].isDeep = true) := by
  have ha : T[a]? = some T[a] := List.getElem?_eq_getElem hl
  rw [ha]
  cases T[a] <;> first | exact .inl ⟨_, rfl⟩ | exact .inr ⟨rfl, rfl⟩

theorem none_right {n : Nat} {g : G} {a : Nat} (hv : ∀ t : Nat, T[t]? ≠ some (Node.anyOf [])) (hl : a < T.length) : Right g a none S (asg E T (n + 2) g a none) := by
  rcases leaf_or_deep hc hf hH hl with ⟨s, hs⟩ | ⟨ha, hx⟩
  · exact left_right hc hr hf hH hS hs rfl
  · rw [asg_right (by simp) ha hx rfl]
    refine of_rs hc hr hf hH hS ha rfl (fun e => hv a (by rw [ha, e])) (deep_res (P := fun g' => g' = g) (P' := fun _ => True) rfl hx (fun _ _ => trivial)
      (by rintro _ ⟨⟩) (by rintro _ _ _ _ _ _ _ ⟨⟩) ?_)
    intro c d hask g' hg'
    subst hg'
    have hcd : d = none ∧ ∃ ts, T[a] = .anyOf ts ∧ c ∈ ts := by
      generalize T[a] = x at hask
      cases hask with
      | any h => exact ⟨rfl, _, rfl, h⟩
    obtain ⟨rfl, ts, hts, hm⟩ := hcd
    obtain ⟨t, ht⟩ := hf a c ⟨ts, by rw [ha, hts], hm⟩
    exact to_rs hc hr hf hH hS (left_leaf_right hc hr hf hH hS ht rfl)

theorem right_right {n : Nat} {g : G} {a b : Nat} {t : Ty} (hv : ∀ t : Nat, T[t]? ≠ some (Node.anyOf [])) (hl : a < T.length) (hb : T[b]? = some (.leaf t)) :
    Right g a (some b) S (asg E T (n + 3) g a (some b)) := by
  by_cases hne : some b = some a
  · cases hne; exact ⟨true, asg_same, fun _ _ _ h => h⟩
  rcases leaf_or_deep hc hf hH hl with ⟨s, hs⟩ | ⟨ha, hx⟩
  · exact left_right hc hr hf hH hS hs hb
  · rw [asg_right hne ha hx hb]
    refine of_rs hc hr hf hH hS ha hb (fun e => hv a (by rw [ha, e])) (deep_res (P := fun g' => g' = g) (P' := fun _ => True) rfl hx (fun _ _ => trivial)
      (by rintro _ ⟨⟩) (by rintro _ _ _ _ _ _ _ ⟨⟩) ?_)
    intro c d hask g' hg'
    subst hg'
    have hlt := hc.refs _ (List.getElem_mem hl) c (asks_left hask)
    cases d with
    | none => exact to_rs hc hr hf hH hS (none_right hc hr hf hH hS hv hlt)
    | some d =>
      have hcd : d = b ∧ ∃ ts, T[a] = .anyOf ts ∧ c ∈ ts := by
        generalize T[a] = x at hask
        cases hask with
        | any h => exact ⟨rfl, _, rfl, h⟩
      obtain ⟨rfl, ts, hts, hm⟩ := hcd
      obtain ⟨t', ht⟩ := hf a c ⟨ts, by rw [ha, hts], hm⟩
      exact to_rs hc hr hf hH hS (left_leaf_right hc hr hf hH hS ht hb)

omit hc hr hf hH hS in
/-- Nothing on the right has been seen. -/
def Fresh (depth : Nat → Nat) (b : Nat) : G → Prop
  | none => True
  | some s => s.seenInB = false ∧ ∀ q ∈ s.bSeen, depth b < depth q

omit hc hr hf hH hS in
/-- The guard is `c` with flags raised, but not that of the right side. -/
def Outb (c g : G) : Prop := Out c g ∧ ∀ s, g = some s → (∃ s', c = some s' ∧ s'.seenInB = s.seenInB)

omit hc hr hf hH hS in
theorem outb_refl (g : G) : Outb g g := ⟨Verif.Types.Rec.Out.refl g, fun s h => ⟨s, h, rfl⟩⟩

omit hc hr hf hH hS in
theorem outb_trans {a b c : G} (h : Outb a b) (k : Outb b c) : Outb a c := by
  refine ⟨h.1.trans k.1, fun s hs => ?_⟩
  obtain ⟨s', h1, h2⟩ := k.2 s hs
  obtain ⟨s'', h3, h4⟩ := h.2 s' h1
  exact ⟨s'', h3, h4.trans h2⟩

omit hc hr hf hH hS in
theorem weak {P P' : G → Prop} {up down q : Prop} {c : Check} (h : Rs P up down c q) (hp : ∀ g, P g → P' g) : Rs P' up down c q := by
  obtain ⟨r, g, h1, h2, h3⟩ := h
  exact ⟨r, g, h1, hp g h2, h3⟩

theorem tree_right {depth : Nat → Nat} (hv : ∀ t : Nat, T[t]? ≠ some (Node.anyOf [])) : (n : Nat) → ∀ g a b, a < T.length → b < T.length → Fresh depth b g →
    (∀ u w, Reach T b u → Mentions T u w → depth w < depth u) → depth b < n → Rs (Outb g) False True (asg E T (n + 4) g a (some b)) (Inc S a (some b))
  | 0, _, _, _, _, _, _, _, h => absurd h (by omega)
  | n + 1, g, a, b, hla, hlb, hg, hd, hn => by
    have same : ∀ {c : Nat} {d : Option Nat} {k : Check} {g : G}, Right g c d S k → Rs (Outb g) False True k (Inc S c d) := by
      intro c d k g h
      obtain ⟨r, h1, h2⟩ := h
      exact ⟨r, g, h1, outb_refl g, fun h => h.elim, fun _ => h2⟩
    by_cases hne : b = a
    · subst hne; exact same ⟨true, asg_same, fun _ _ _ h => h⟩
    rcases leaf_or_deep hc hf hH hla with ⟨s, hs⟩ | ⟨ha, hx⟩
    · exact same (left_right hc hr hf hH hS hs (List.getElem?_eq_getElem hlb))
    rcases leaf_or_deep hc hf hH hlb with ⟨s, hs⟩ | ⟨hb, hy⟩
    · exact same (right_right hc hr hf hH hS hv hla hs)
    have hmark : ∀ s, g = some s → (s.mark a b).seenInB = false := by
      rintro s rfl
      simp only [Guard.mark, hg.1, Bool.false_or, List.contains_eq_mem, decide_eq_false_iff_not]
      intro hm
      exact absurd (hg.2 b hm) (by omega)
    have hh : ¬ Hits g a (.obj b) := by
      cases g with
      | none => exact id
      | some s => simp [Hits, Guard.hit, hmark s rfl]
    have hout : Outb g (outer g a (.obj b)) := by
      refine ⟨out_outer, fun s hs => ?_⟩
      cases g with
      | none => cases hs
      | some s' => cases hs; exact ⟨s', rfl, by rw [hmark s' rfl]; exact hg.1⟩
    have hfresh : ∀ d, Mentions T b d → ∀ g', Outb (inner g a (.obj b)) g' → Fresh depth d g' := by
      intro d hm g' hg'
      have hlt := hd b d .refl hm
      have hi : Fresh depth d (inner g a (.obj b)) := by
        cases g with
        | none => exact ⟨rfl, by simpa using hlt⟩
        | some s =>
          have := hmark s rfl
          refine ⟨this, ?_⟩
          show ∀ q ∈ (if (s.mark a b).seenInB = true then (s.mark a b).bSeen else b :: (s.mark a b).bSeen), depth d < depth q
          rw [this, if_neg (by simp)]
          intro q hq
          rcases List.mem_cons.1 hq with rfl | hq
          · exact hlt
          · exact Nat.lt_trans hlt (hg.2 q hq)
      cases g' with
      | none => trivial
      | some s =>
        obtain ⟨s', h1, h2⟩ := hg'.2 s rfl
        rw [h1] at hi hg'
        exact ⟨h2 ▸ hi.1, by rw [hg'.1.2.1]; exact hi.2⟩
    rw [asg_deep hne ha hx hb hy hh]
    have key : Rs (Outb (inner g a (.obj b))) False True (deepAsg (asg E T (n + 4)) (inner g a (.obj b)) a (some b) T[a] T[b]) (Gives (Inc S) a (some b) T[a] T[b]) := by
      refine deep_res (P := Outb (inner g a (.obj b))) (P' := fun _ => True) (outb_refl _) hx (fun _ _ => trivial) ?_ ?_ ?_
      · intro us hus u hu g' _
        obtain ⟨t, ht⟩ := hf b u ⟨us, by rw [hb, hus], hu⟩
        exact weak (same (right_right (n := n + 1) hc hr hf hH hS hv hla ht)) fun _ _ => trivial
      · intro e lo hi e' lo' hi' h1 h2
        have hm : Mentions T b e' := ⟨_, hb, by rw [h2]; exact .head _⟩
        have hlt := hd b e' .refl hm
        exact weak (tree_right hv n none e e' (hc.refs _ (List.getElem_mem hla) e (by rw [h1]; exact .head _))
          (hc.refs _ (List.getElem_mem hlb) e' (by rw [h2]; exact .head _)) trivial (fun u w hu hw => hd u w (.head hm hu) hw) (by omega)) fun _ _ => trivial
      · intro c d hask g' hg'
        obtain ⟨d', rfl, hd'⟩ := asks_right hask hy
        have hlc := hc.refs _ (List.getElem_mem hla) c (asks_left hask)
        rcases hd' with rfl | hd'
        · have hop : (∃ ts, T[a] = .anyOf ts ∧ c ∈ ts) ∨ d' ∈ T[d'].refs := by
            generalize T[a] = x at hask
            generalize T[d'] = y at hask
            cases hask with
            | any h => exact .inl ⟨_, rfl, h⟩
            | _ => exact .inr (by simp [Node.refs])
          rcases hop with ⟨ts, hts, hm⟩ | hm
          · obtain ⟨t, ht⟩ := hf a c ⟨ts, by rw [ha, hts], hm⟩
            exact weak (same (left_right (n := n + 2) hc hr hf hH hS ht hb)) fun g'' h => outb_trans hg' h
          · exact absurd (hd d' d' .refl ⟨_, hb, hm⟩) (by omega)
        · have hm : Mentions T b d' := ⟨_, hb, hd'⟩
          have hlt := hd b d' .refl hm
          exact weak (tree_right hv n g' c d' hlc (hc.refs _ (List.getElem_mem hlb) d' hd') (hfresh d' hm g' hg')
            (fun u w hu hw => hd u w (.head hm hu) hw) (by omega)) fun g'' h => outb_trans hg' h
    obtain ⟨r, g', h1, _, _, h3⟩ := key
    exact ⟨r, _, by rw [h1]; rfl, hout, fun h => h.elim, fun _ h => gives_inc hH hS ha hb (fun e => hv a (by rw [ha, e])) (h3 trivial h)⟩

/-! ### The same where the left side does not contain itself -/

omit hc hr hf hH hS in
/-- Nothing on the left has been seen. -/
def FreshL (depth : Nat → Nat) (a : Nat) : G → Prop
  | none => True
  | some s => s.seenInA = false ∧ ∀ q ∈ s.aSeen, depth a < depth q

omit hc hr hf hH hS in
/-- The guard is `c` with flags raised, but not that of the left side. -/
def Outa (c g : G) : Prop := Out c g ∧ ∀ s, g = some s → (∃ s', c = some s' ∧ s'.seenInA = s.seenInA)

omit hc hr hf hH hS in
theorem outa_refl (g : G) : Outa g g := ⟨Verif.Types.Rec.Out.refl g, fun s h => ⟨s, h, rfl⟩⟩

omit hc hr hf hH hS in
theorem outa_trans {a b c : G} (h : Outa a b) (k : Outa b c) : Outa a c := by
  refine ⟨h.1.trans k.1, fun s hs => ?_⟩
  obtain ⟨s', h1, h2⟩ := k.2 s hs
  obtain ⟨s'', h3, h4⟩ := h.2 s' h1
  exact ⟨s'', h3, h4.trans h2⟩

theorem tree_left {depth : Nat → Nat} (hv : ∀ t : Nat, T[t]? ≠ some (Node.anyOf [])) : (n : Nat) → ∀ g a b, a < T.length → b < T.length → FreshL depth a g →
    (∀ u w, Reach T a u → Mentions T u w → depth w < depth u) → depth a < n → Rs (Outa g) False True (asg E T (n + 4) g a (some b)) (Inc S a (some b))
  | 0, _, _, _, _, _, _, _, h => absurd h (by omega)
  | n + 1, g, a, b, hla, hlb, hg, hd, hn => by
    have same : ∀ {c : Nat} {d : Option Nat} {k : Check} {g : G}, Right g c d S k → Rs (Outa g) False True k (Inc S c d) := by
      intro c d k g h
      obtain ⟨r, h1, h2⟩ := h
      exact ⟨r, g, h1, outa_refl g, fun h => h.elim, fun _ => h2⟩
    by_cases hne : b = a
    · subst hne; exact same ⟨true, asg_same, fun _ _ _ h => h⟩
    rcases leaf_or_deep hc hf hH hla with ⟨s, hs⟩ | ⟨ha, hx⟩
    · exact same (left_right hc hr hf hH hS hs (List.getElem?_eq_getElem hlb))
    rcases leaf_or_deep hc hf hH hlb with ⟨s, hs⟩ | ⟨hb, hy⟩
    · exact same (right_right hc hr hf hH hS hv hla hs)
    have hmark : ∀ s, g = some s → (s.mark a b).seenInA = false := by
      rintro s rfl
      simp only [Guard.mark, hg.1, Bool.false_or, List.contains_eq_mem, decide_eq_false_iff_not]
      intro hm
      exact absurd (hg.2 a hm) (by omega)
    have hh : ¬ Hits g a (.obj b) := by
      cases g with
      | none => exact id
      | some s => simp [Hits, Guard.hit, hmark s rfl]
    have hout : Outa g (outer g a (.obj b)) := by
      refine ⟨out_outer, fun s hs => ?_⟩
      cases g with
      | none => cases hs
      | some s' => cases hs; exact ⟨s', rfl, by rw [hmark s' rfl]; exact hg.1⟩
    have hfresh : ∀ d, Mentions T a d → ∀ g', Outa (inner g a (.obj b)) g' → FreshL depth d g' := by
      intro d hm g' hg'
      have hlt := hd a d .refl hm
      have hi : FreshL depth d (inner g a (.obj b)) := by
        cases g with
        | none => exact ⟨rfl, by simpa using hlt⟩
        | some s =>
          have := hmark s rfl
          refine ⟨this, ?_⟩
          show ∀ q ∈ (if (s.mark a b).seenInA = true then (s.mark a b).aSeen else a :: (s.mark a b).aSeen), depth d < depth q
          rw [this, if_neg (by simp)]
          intro q hq
          rcases List.mem_cons.1 hq with rfl | hq
          · exact hlt
          · exact Nat.lt_trans hlt (hg.2 q hq)
      cases g' with
      | none => trivial
      | some s =>
        obtain ⟨s', h1, h2⟩ := hg'.2 s rfl
        rw [h1] at hi hg'
        exact ⟨h2 ▸ hi.1, by rw [hg'.1.1]; exact hi.2⟩
    rw [asg_deep hne ha hx hb hy hh]
    have key : Rs (Outa (inner g a (.obj b))) False True (deepAsg (asg E T (n + 4)) (inner g a (.obj b)) a (some b) T[a] T[b]) (Gives (Inc S) a (some b) T[a] T[b]) := by
      refine deep_res (P := Outa (inner g a (.obj b))) (P' := fun _ => True) (outa_refl _) hx (fun _ _ => trivial) ?_ ?_ ?_
      · intro us hus u hu g' _
        obtain ⟨t, ht⟩ := hf b u ⟨us, by rw [hb, hus], hu⟩
        exact weak (same (right_right (n := n + 1) hc hr hf hH hS hv hla ht)) fun _ _ => trivial
      · intro e lo hi e' lo' hi' h1 h2
        have hm : Mentions T a e := ⟨_, ha, by rw [h1]; exact .head _⟩
        have hlt := hd a e .refl hm
        exact weak (tree_left hv n none e e' (hc.refs _ (List.getElem_mem hla) e (by rw [h1]; exact .head _))
          (hc.refs _ (List.getElem_mem hlb) e' (by rw [h2]; exact .head _)) trivial (fun u w hu hw => hd u w (.head hm hu) hw) (by omega)) fun _ _ => trivial
      · intro c d hask g' hg'
        obtain ⟨d', rfl, hd'⟩ := asks_right hask hy
        have hlc := hc.refs _ (List.getElem_mem hla) c (asks_left hask)
        have hm : Mentions T a c := ⟨_, ha, asks_left hask⟩
        have hlt := hd a c .refl hm
        have hld : d' < T.length := by
          rcases hd' with rfl | hd'
          · exact hlb
          · exact hc.refs _ (List.getElem_mem hlb) d' hd'
        exact weak (tree_left hv n g' c d' hlc hld (hfresh c hm g' hg') (fun u w hu hw => hd u w (.head hm hu) hw) (by omega)) fun g'' h => outa_trans hg' h
    obtain ⟨r, g', h1, _, _, h3⟩ := key
    exact ⟨r, _, by rw [h1]; rfl, hout, fun h => h.elim, fun _ h => gives_inc hH hS ha hb (fun e => hv a (by rw [ha, e])) (h3 trivial h)⟩

end

end Verif.RecAsg
