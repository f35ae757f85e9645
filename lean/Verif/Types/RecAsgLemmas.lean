import Verif.Types.RecAsgSpec
import Verif.Types.RecWalk
import Mathlib.Data.Finset.Card
import Mathlib.Data.Finset.Range
import Mathlib.Data.Finset.Filter
/-!
# Lemmas about Assignable of types that contain themselves
-/
set_option autoImplicit false
set_option linter.unusedVariables false
set_option linter.unusedSimpArgs false
namespace Verif.RecAsg
open Verif.Value
open Verif.Types (Ty Env leafCase allO maxInt)
open Verif.Types.RecEq (Plain)
open Verif.Types.Rec (Guard G Check allG anyG andG Ext all_ext any_ext and_ext Out out_mark inner outer Hits all_res any_res res_true res_false)

/-- `Res` of Types/RecLemmas.lean -/
abbrev Rs := @Verif.Types.Rec.Res

/-! ### More fuel -/

theorem allO_ext {f f' : Nat → Option Bool} (h : ∀ x, Ext (f x) (f' x)) : (xs : List Nat) → Ext (allO f xs) (allO f' xs)
  | [] => Ext.refl _
  | x :: xs => by
    intro r hr
    rw [allO] at hr ⊢
    split at hr
    · cases hr
    · rename_i e; rw [h x _ e]; exact hr
    · rename_i e; rw [h x _ e]; exact allO_ext h xs r hr

theorem check_ext {f f' : G → Option Nat → Check} (h : ∀ g b, Ext (f g b) (f' g b)) (g : G) (y : Node) : Ext (checkTo f g y) (checkTo f' g y) := by
  cases y <;> try exact Ext.refl _
  exact (all_ext (fun g u => h g (some u)) _ _).map _

theorem deep_ext {f f' : G → Nat → Option Nat → Check} (h : ∀ g a b, Ext (f g a b) (f' g a b)) (g : G) (a : Nat) (b : Option Nat) (x y : Node) :
    Ext (deepAsg f g a b x y) (deepAsg f' g a b x y) := by
  have hc := fun y => check_ext (fun g b => h g a b) g y
  cases x with
  | leaf t => exact Ext.refl _
  | arr e lo hi =>
    rw [deepAsg.eq_def, deepAsg.eq_def]
    dsimp only
    split
    · split
      · exact (h none e _).map _
      · exact Ext.refl _
    · exact hc _
  | map k v lo hi =>
    rw [deepAsg.eq_def, deepAsg.eq_def]
    dsimp only
    split
    · split
      · exact and_ext (h g k _) fun g => h g v _
      · exact Ext.refl _
    · split
      · exact and_ext (h g k _) fun g => h g v _
      · exact Ext.refl _
    · exact hc _
  | anyOf ts =>
    rw [deepAsg.eq_def, deepAsg.eq_def]
    dsimp only
    split
    · exact Ext.refl _
    · intro r hr
      have ha := any_ext (fun g t => h g t b) ts g
      split at hr
      · cases hr
      · rename_i e; rw [ha _ e]; exact hr
      · rename_i g' e; rw [ha _ e]; exact check_ext (fun g b => h g a b) g' y r hr
  | sens t =>
    rw [deepAsg.eq_def, deepAsg.eq_def]
    dsimp only
    split
    · exact h g t _
    · exact hc _

theorem leaf_ext {E : Env} {f f' : Nat → Option Bool} (h : ∀ x, Ext (f x) (f' x)) (s : Ty) (y : Node) : Ext (leafAsg E f s y) (leafAsg E f' s y) := by
  rw [leafAsg.eq_def, leafAsg.eq_def]
  split
  · exact Ext.refl _
  · split
    · exact (allO_ext h _).map _
    · exact Ext.refl _

theorem asg_ext (E : Env) (T : Types) : (n : Nat) → ∀ g a b, Ext (asg E T n g a b) (asg E T (n + 1) g a b)
  | 0, g, a, b => by intro r hr; cases hr
  | n + 1, g, a, b => by
    have ih := asg_ext E T n
    intro r hr
    rw [asg] at hr
    rw [asg]
    split at hr
    · rename_i e; rw [if_pos e]; exact hr
    · rename_i e
      rw [if_neg e]
      split at hr
      · exact (leaf_ext (fun u => (ih none a (some u)).map _) _ _).map _ r hr
      · split at hr
        · exact deep_ext ih g a _ _ _ r hr
        · split at hr
          · rename_i hd
            rw [if_pos hd]
            split at hr
            · exact (deep_ext ih _ a _ _ _).map _ r hr
            · split at hr
              · rename_i hh; rw [if_pos hh]; exact hr
              · rename_i hh; rw [if_neg hh]; exact (deep_ext ih _ a _ _ _).map _ r hr
          · rename_i hd
            rw [if_neg hd]
            exact deep_ext ih g a _ _ _ r hr
      · cases hr

theorem asg_mono {E : Env} {T : Types} {n m : Nat} (h : n ≤ m) (g : G) (a : Nat) (b : Option Nat) : Ext (asg E T n g a b) (asg E T m g a b) := by
  induction m with
  | zero => cases Nat.le_zero.1 h; exact Ext.refl _
  | succ m ih =>
    rcases Nat.lt_or_ge m n with hlt | hge
    · cases Nat.le_antisymm h hlt; exact Ext.refl _
    · intro r hr; exact asg_ext E T m g a b r (ih hge r hr)

theorem returns_of {E : Env} {T : Types} {n a b : Nat} {r : Bool} {g : G} (h : asg E T n none a (some b) = some (r, g)) : Returns E T a b r :=
  ⟨n, fun m hm => by rw [assignable?, asg_mono hm _ _ _ _ h]; rfl⟩

/-! ### A step of Assignable -/

theorem asg_same {E : Env} {T : Types} {n a : Nat} {g : G} : asg E T (n + 1) g a (some a) = some (true, g) := by rw [asg, if_pos rfl]

theorem asg_leaf {E : Env} {T : Types} {n a : Nat} {g : G} {b : Option Nat} {s : Ty} {y : Node} (hne : b ≠ some a) (ha : T[a]? = some (.leaf s))
    (hb : node? T b = some y) :
    asg E T (n + 1) g a b = (leafAsg E (fun u => (asg E T n none a (some u)).map (·.1)) s y).map fun r => (r, g) := by
  rw [asg, if_neg hne, ha, hb]

theorem asg_right {E : Env} {T : Types} {n a : Nat} {g : G} {b : Option Nat} {x : Node} {t : Ty} (hne : b ≠ some a) (ha : T[a]? = some x)
    (hx : x.isDeep = true) (hb : node? T b = some (.leaf t)) : asg E T (n + 1) g a b = deepAsg (asg E T n) g a b x (.leaf t) := by
  rw [asg, if_neg hne, ha, hb]
  cases x <;> first | cases hx; done | skip
  all_goals
    cases b with
    | none => rfl
    | some b => dsimp only; rw [if_neg (by simp [Node.isDeep])]

theorem asg_hit {E : Env} {T : Types} {n a b : Nat} {g : G} {x y : Node} (hne : b ≠ a) (ha : T[a]? = some x) (hx : x.isDeep = true)
    (hb : T[b]? = some y) (hy : y.isDeep = true) (hh : Hits g a (.obj b)) : asg E T (n + 1) g a (some b) = some (true, outer g a (.obj b)) := by
  rw [asg, if_neg (by simpa using hne), ha, node?, hb]
  cases g with
  | none => exact absurd hh id
  | some s =>
    cases x <;> first | cases hx; done | skip
    all_goals
      dsimp only
      rw [if_pos hy, if_pos (show (s.mark a b).hit = true from hh)]
      rfl

theorem asg_deep {E : Env} {T : Types} {n a b : Nat} {g : G} {x y : Node} (hne : b ≠ a) (ha : T[a]? = some x) (hx : x.isDeep = true)
    (hb : T[b]? = some y) (hy : y.isDeep = true) (hh : ¬ Hits g a (.obj b)) :
    asg E T (n + 1) g a (some b) = (deepAsg (asg E T n) (inner g a (.obj b)) a (some b) x y).map fun r => (r.1, outer g a (.obj b)) := by
  rw [asg, if_neg (by simpa using hne), ha, node?, hb]
  cases g with
  | none =>
    cases x <;> first | cases hx; done | skip
    all_goals
      dsimp only
      rw [if_pos hy]
      rfl
  | some s =>
    cases x <;> first | cases hx; done | skip
    all_goals
      dsimp only
      rw [if_pos hy, if_neg (show ¬ (s.mark a b).hit = true from hh)]
      rfl

/-! ### What is asked -/

/-- Why `DeepAssignable` says yes, when `Q` says of which types it was found -/
inductive Gives (Q : Nat → Option Nat → Prop) (a : Nat) (b : Option Nat) : Node → Node → Prop where
  | arr {e e' : Nat} {lo hi lo' hi' : Int} : lo ≤ lo' → hi' ≤ hi → Q e (some e') → Gives Q a b (.arr e lo hi) (.arr e' lo' hi')
  | map {k v k' v' : Nat} {lo hi lo' hi' : Int} : lo ≤ lo' → hi' ≤ hi → Q k (some k') → Q v (some v') → Gives Q a b (.map k v lo hi) (.map k' v' lo' hi')
  | mapT {k v : Nat} {lo hi : Int} : lo ≤ 0 → maxInt ≤ hi → Q k none → Q v none → Gives Q a b (.map k v lo hi) (.leaf .mapT)
  | void {us : List Nat} : Gives Q a b (.anyOf []) (.anyOf us)
  | any {ts : List Nat} {y : Node} {t : Nat} : t ∈ ts → Q t b → Gives Q a b (.anyOf ts) y
  | all {x : Node} {us : List Nat} : us ≠ [] → (∀ u ∈ us, Q a (some u)) → Gives Q a b x (.anyOf us)
  | sens {t u : Nat} : Q t (some u) → Gives Q a b (.sens t) (.sens u)

/-- With the guard that is passed on -/
inductive Asks (b : Option Nat) : Node → Node → Nat → Option Nat → Prop where
  | key {k v k' v' : Nat} {lo hi lo' hi' : Int} : Asks b (.map k v lo hi) (.map k' v' lo' hi') k (some k')
  | value {k v k' v' : Nat} {lo hi lo' hi' : Int} : Asks b (.map k v lo hi) (.map k' v' lo' hi') v (some v')
  | keyT {k v : Nat} {lo hi : Int} : Asks b (.map k v lo hi) (.leaf .mapT) k none
  | valueT {k v : Nat} {lo hi : Int} : Asks b (.map k v lo hi) (.leaf .mapT) v none
  | any {ts : List Nat} {y : Node} {t : Nat} : t ∈ ts → Asks b (.anyOf ts) y t b
  | sens {t u : Nat} : Asks b (.sens t) (.sens u) t (some u)

theorem check_res {P P' : G → Prop} {up down : Prop} {Q : Nat → Option Nat → Prop} {rec : G → Option Nat → Check} {g : G} {a : Nat} {b : Option Nat} {x y : Node}
    (hg : P g) (hsw : P g → P' (g.map swap)) (h : ∀ us, y = .anyOf us → ∀ u ∈ us, ∀ g, P' g → Rs P' up down (rec g (some u)) (Q a (some u)))
    (q : Prop) (hq : q ↔ ∃ us, y = .anyOf us ∧ us ≠ [] ∧ ∀ u ∈ us, Q a (some u)) : Rs P up down (checkTo rec g y) q := by
  by_cases hy : ∃ us, y = .anyOf us
  · obtain ⟨us, rfl⟩ := hy
    obtain ⟨r, g', h1, _, h3, h4⟩ := all_res (P := P') (up := up) (down := down) (f := fun g u => rec g (some u)) us (hsw hg) (h us rfl)
    refine ⟨r && !us.isEmpty, g, by rw [checkTo, h1]; rfl, hg, ?_, ?_⟩
    · intro hu hqq
      obtain ⟨us', e, hne, hall⟩ := hq.1 hqq
      cases e
      simp [h3 hu hall, hne]
    · intro hd hr
      simp only [Bool.and_eq_true, Bool.not_eq_true', List.isEmpty_eq_false_iff] at hr
      exact hq.2 ⟨us, rfl, hr.2, h4 hd hr.1⟩
  · have : checkTo rec g y = some (false, g) := by
      cases y <;> first | rfl | exact absurd ⟨_, rfl⟩ hy
    rw [this]
    exact res_false hg fun hqq => hy ⟨_, (hq.1 hqq).choose_spec.1⟩

theorem deep_res {P P' : G → Prop} {up down : Prop} {Q : Nat → Option Nat → Prop} {rec : G → Nat → Option Nat → Check} {g : G} {a : Nat} {b : Option Nat} {x y : Node}
    (hg : P g) (hx : x.isDeep = true) (hsw : ∀ g, P g → P' (g.map swap))
    (hop : ∀ us, y = .anyOf us → ∀ u ∈ us, ∀ g, P' g → Rs P' up down (rec g a (some u)) (Q a (some u)))
    (hbare : ∀ e lo hi e' lo' hi', x = .arr e lo hi → y = .arr e' lo' hi' → Rs (fun _ => True) up down (rec none e (some e')) (Q e (some e')))
    (hrec : ∀ c d, Asks b x y c d → ∀ g, P g → Rs P up down (rec g c d) (Q c d)) : Rs P up down (deepAsg rec g a b x y) (Gives Q a b x y) := by
  have hand : ∀ c d c' d', Asks b x y c d → Asks b x y c' d' → Rs P up down (andG (rec g c d) fun g => rec g c' d') (Q c d ∧ Q c' d') := by
    intro c d c' d' h1 h2
    obtain ⟨r, g', e, hg', k1, k2⟩ := hrec c d h1 g hg
    cases r with
    | false => exact ⟨false, g', by rw [e]; rfl, hg', fun hu hq => k1 hu hq.1, fun _ h => by cases h⟩
    | true =>
      obtain ⟨r, g'', e', hg'', l1, l2⟩ := hrec c' d' h2 g' hg'
      exact ⟨r, g'', by rw [e]; exact e', hg'', fun hu hq => l1 hu hq.2, fun hd h => ⟨k2 hd rfl, l2 hd h⟩⟩
  cases x with
  | leaf t => cases hx
  | arr e lo hi =>
    by_cases hy : ∃ e' lo' hi', y = .arr e' lo' hi'
    · obtain ⟨e', lo', hi', rfl⟩ := hy
      rw [deepAsg]
      split
      · rename_i hb
        obtain ⟨r, g', e1, _, k1, k2⟩ := hbare _ _ _ _ _ _ rfl rfl
        exact ⟨r, g, by rw [e1]; rfl, hg, fun hu hq => k1 hu (by cases hq; assumption), fun hd h => .arr hb.1 hb.2 (k2 hd h)⟩
      · rename_i hb
        exact res_false hg fun hq => by cases hq with | arr h1 h2 _ => exact hb ⟨h1, h2⟩
    · have : deepAsg rec g a b (.arr e lo hi) y = checkTo (fun g b => rec g a b) g y := by
        rw [deepAsg]; intro e' lo' hi' h; exact hy ⟨e', lo', hi', h⟩
      rw [this]
      refine check_res (P' := P') (Q := Q) (a := a) (b := b) (x := .arr e lo hi) hg (hsw g) hop _ ⟨fun hq => ?_, ?_⟩
      · cases hq with
        | arr _ _ _ => exact absurd ⟨_, _, _, rfl⟩ hy
        | all hne hall => exact ⟨_, rfl, hne, hall⟩
      · rintro ⟨us, rfl, hne, hall⟩; exact .all hne hall
  | map k v lo hi =>
    by_cases hy : ∃ k' v' lo' hi', y = .map k' v' lo' hi'
    · obtain ⟨k', v', lo', hi', rfl⟩ := hy
      rw [deepAsg]
      split
      · rename_i hb
        exact (hand k (some k') v (some v') .key .value).congr ⟨fun h => .map hb.1 hb.2 h.1 h.2, fun h => by cases h; exact ⟨by assumption, by assumption⟩⟩
      · rename_i hb
        exact res_false hg fun hq => by cases hq with | map h1 h2 _ _ => exact hb ⟨h1, h2⟩
    · by_cases hy' : y = .leaf .mapT
      · subst hy'
        rw [deepAsg]
        split
        · rename_i hb
          exact (hand k none v none .keyT .valueT).congr ⟨fun h => .mapT hb.1 hb.2 h.1 h.2, fun h => by cases h; exact ⟨by assumption, by assumption⟩⟩
        · rename_i hb
          exact res_false hg fun hq => by cases hq with | mapT h1 h2 _ _ => exact hb ⟨h1, h2⟩
      · have : deepAsg rec g a b (.map k v lo hi) y = checkTo (fun g b => rec g a b) g y := by
          rw [deepAsg]
          · intro _ _ _ _ h; exact hy ⟨_, _, _, _, h⟩
          · exact hy'
        rw [this]
        refine check_res (P' := P') (Q := Q) (a := a) (b := b) (x := .map k v lo hi) hg (hsw g) hop _ ⟨fun hq => ?_, ?_⟩
        · cases hq with
          | map _ _ _ _ => exact absurd ⟨_, _, _, _, rfl⟩ hy
          | mapT => exact absurd rfl hy'
          | all hne hall => exact ⟨_, rfl, hne, hall⟩
        · rintro ⟨us, rfl, hne, hall⟩; exact .all hne hall
  | anyOf ts =>
    rw [deepAsg.eq_def]
    dsimp only
    split
    · rename_i he
      cases List.isEmpty_iff.1 he
      split
      · exact res_true hg .void
      · rename_i hne
        refine res_false hg fun hq => ?_
        cases hq with
        | void => exact hne _ rfl
        | any h _ => cases h
        | all _ _ => exact hne _ rfl
    · rename_i he
      have hvoid : ∀ y, Gives Q a b (.anyOf ts) y ↔ (∃ t ∈ ts, Q t b) ∨ ∃ us, y = .anyOf us ∧ us ≠ [] ∧ ∀ u ∈ us, Q a (some u) := by
        intro y
        constructor
        · intro h
          cases h with
          | void => exact absurd rfl he
          | any h1 h2 => exact .inl ⟨_, h1, h2⟩
          | all h1 h2 => exact .inr ⟨_, rfl, h1, h2⟩
        · rintro (⟨t, h1, h2⟩ | ⟨us, rfl, h1, h2⟩)
          · exact .any h1 h2
          · exact .all h1 h2
      obtain ⟨r, g', e, hg', k1, k2⟩ := any_res (P := P) (up := up) (down := down) (f := fun g t => rec g t b) (Q := fun t => Q t b) ts hg
        (fun t ht g hg => hrec t b (.any ht) g hg)
      rw [e]
      cases r with
      | true => exact ⟨true, g', rfl, hg', fun _ _ => rfl, fun hd _ => (hvoid y).2 (.inl (k2 hd rfl))⟩
      | false =>
        obtain ⟨r, g'', e', hg'', l1, l2⟩ := check_res (P' := P') (up := up) (down := down) (Q := Q) (rec := fun g b => rec g a b) (a := a) (b := b)
          (x := .anyOf ts) hg' (hsw g') hop _ (Iff.refl _)
        refine ⟨r, g'', e', hg'', fun hu hq => ?_, fun hd h => (hvoid y).2 (.inr (l2 hd h))⟩
        rcases (hvoid y).1 hq with h | h
        · cases k1 hu h
        · exact l1 hu h
  | sens t =>
    by_cases hy : ∃ u, y = .sens u
    · obtain ⟨u, rfl⟩ := hy
      rw [deepAsg]
      exact (hrec t (some u) .sens g hg).congr ⟨.sens, fun h => by cases h; assumption⟩
    · have : deepAsg rec g a b (.sens t) y = checkTo (fun g b => rec g a b) g y := by
        rw [deepAsg]; intro u h; exact hy ⟨u, h⟩
      rw [this]
      refine check_res (P' := P') (Q := Q) (a := a) (b := b) (x := .sens t) hg (hsw g) hop _ ⟨fun hq => ?_, ?_⟩
      · cases hq with
        | sens _ => exact absurd ⟨_, rfl⟩ hy
        | all hne hall => exact ⟨_, rfl, hne, hall⟩
      · rintro ⟨us, rfl, hne, hall⟩; exact .all hne hall

end Verif.RecAsg
