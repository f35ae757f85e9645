import Verif.Types.RecLemmas
import Batteries.Data.List.Perm
/-!
# Instance of types that contain themselves: termination and answers
-/
set_option autoImplicit false
set_option linter.unusedVariables false
set_option linter.unusedSimpArgs false

namespace Verif.Types.Rec
open Verif.Value

/-! ### More fuel does not change an answer -/

def Ext {α : Type} (a b : Option α) : Prop := ∀ r, a = some r → b = some r

theorem Ext.refl {α : Type} (a : Option α) : Ext a a := fun _ h => h

theorem Ext.map {α β : Type} {a b : Option α} (h : Ext a b) (f : α → β) : Ext (a.map f) (b.map f) := by
  intro r hr
  obtain ⟨x, hx, rfl⟩ := Option.map_eq_some_iff.1 hr
  rw [h x hx]; rfl

theorem all_ext {α : Type} {f f' : G → α → Check} (h : ∀ g x, Ext (f g x) (f' g x)) : (xs : List α) → (g : G) → Ext (allG f g xs) (allG f' g xs)
  | [], g => Ext.refl _
  | x :: xs, g => by
    intro r hr
    rw [allG] at hr ⊢
    split at hr
    · cases hr
    · rename_i g' e; rw [h g x _ e]; exact hr
    · rename_i g' e; rw [h g x _ e]; exact all_ext h xs g' r hr

theorem any_ext {α : Type} {f f' : G → α → Check} (h : ∀ g x, Ext (f g x) (f' g x)) : (xs : List α) → (g : G) → Ext (anyG f g xs) (anyG f' g xs)
  | [], g => Ext.refl _
  | x :: xs, g => by
    intro r hr
    rw [anyG] at hr ⊢
    split at hr
    · cases hr
    · rename_i g' e; rw [h g x _ e]; exact hr
    · rename_i g' e; rw [h g x _ e]; exact any_ext h xs g' r hr

theorem one_ext {α : Type} {f f' : G → α → Check} (h : ∀ g x, Ext (f g x) (f' g x)) : (xs : List α) → (b : Bool) → (g : G) →
    Ext (oneG f b g xs) (oneG f' b g xs)
  | [], b, g => Ext.refl _
  | x :: xs, b, g => by
    intro r hr
    rw [oneG] at hr ⊢
    split at hr
    · cases hr
    · rename_i g' e
      rw [h g x _ e]
      cases b
      · exact one_ext h xs true g' r hr
      · exact hr
    · rename_i g' e; rw [h g x _ e]; exact one_ext h xs b g' r hr

theorem and_ext {a a' : Check} {b b' : G → Check} (h : Ext a a') (hb : ∀ g, Ext (b g) (b' g)) : Ext (andG a b) (andG a' b') := by
  intro r hr
  rw [andG.eq_def] at hr
  split at hr
  · cases hr
  · rw [h _ rfl]; exact hr
  · rw [h _ rfl]; exact hb _ r hr

theorem struct_ext {f f' : G → Nat → V → Check} (h : ∀ g t x, Ext (f g t x) (f' g t x)) (es : List (Val × V)) : (fs : List (Val × Bool × Nat)) →
    (oc : Nat) → (g : G) → Ext (structLoop f es g oc fs) (structLoop f' es g oc fs)
  | [], oc, g => Ext.refl _
  | (k, rq, t) :: fs, oc, g => by
    intro r hr
    rw [structLoop] at hr ⊢
    split at hr
    · split at hr
      · cases hr
      · rename_i g' e; rw [h _ _ _ _ e]; exact hr
      · rename_i g' e; rw [h _ _ _ _ e]; exact struct_ext h es fs _ g' r hr
    · split at hr
      · rename_i e; rw [if_pos e]; exact hr
      · rename_i e; rw [if_neg e]; exact struct_ext h es fs _ g r hr

theorem deep_ext {T : Types} {H : Heap} {f f' : G → Nat → V → Check} (h : ∀ g t x, Ext (f g t x) (f' g t x)) (g : G) (v : V) (node : Node) :
    Ext (deepInst T H f g v node) (deepInst T H f' g v node) := by
  cases node with
  | any => exact Ext.refl _
  | prim p => exact Ext.refl _
  | not p => exact Ext.refl _
  | sens p => exact Ext.refl _
  | exact p => exact Ext.refl _
  | arr e lo hi =>
    rw [deepInst, deepInst]
    split
    · split
      · split
        · exact Ext.refl _
        · exact all_ext (fun g x => h g e x) _ g
      · exact Ext.refl _
    · exact Ext.refl _
  | tuple ts variadic =>
    rw [deepInst, deepInst]
    split
    · split
      · split
        · exact Ext.refl _
        · exact all_ext (fun g (x : Nat × V) => h g x.1 x.2) _ g
      · split
        · exact Ext.refl _
        · exact all_ext (fun g (x : Nat × V) => h g x.1 x.2) _ g
    · exact Ext.refl _
  | map kt vt lo hi =>
    rw [deepInst, deepInst]
    split
    · split
      · split
        · split
          · exact Ext.refl _
          · exact all_ext (fun g (x : Val × V) => h g vt x.2) _ g
        · split
          · exact all_ext (fun g (x : Val × V) => (h none kt _).map _) _ g
          · exact all_ext (fun g (x : Val × V) => and_ext (h g kt _) fun g => h g vt _) _ g
      · exact Ext.refl _
    · exact Ext.refl _
  | struct additional fs =>
    intro r hr
    rw [deepInst] at hr ⊢
    split at hr
    · split at hr
      · cases hr
      · rename_i e; rw [struct_ext h _ _ _ _ _ e]; exact hr
      · rename_i e; rw [struct_ext h _ _ _ _ _ e]; exact hr
    · exact hr
  | allOf ts => exact all_ext (fun g t => h g t v) ts g
  | anyOf ts => exact any_ext (fun g t => h g t v) ts g
  | oneOf ts => exact one_ext (fun g t => h g t v) ts false g

theorem leaf_ext {H : Heap} {f f' : Nat → V → Option Bool} (h : ∀ t x, Ext (f t x) (f' t x)) (v : V) (node : Node) :
    Ext (leafInst H f node v) (leafInst H f' node v) := by
  cases node <;> try exact Ext.refl _
  · exact (h _ v).map _
  · rw [leafInst, leafInst]
    split
    · exact h _ _
    · exact Ext.refl _

theorem inst_ext (T : Types) (H : Heap) : (n : Nat) → ∀ g t v, Ext (inst T H n g t v) (inst T H (n + 1) g t v)
  | 0, g, t, v => by intro r hr; cases hr
  | n + 1, g, t, v => by
    have ih := inst_ext T H n
    intro r hr
    rw [inst] at hr
    rw [inst]
    split at hr
    · cases hr
    · rename_i node hn
      split at hr
      · rename_i hd
        rw [if_pos hd]
        split at hr
        · exact deep_ext ih g _ node r hr
        · split at hr
          · exact (deep_ext ih _ _ node).map _ r hr
          · split at hr
            · rename_i hh; rw [if_pos hh]; exact hr
            · rename_i hh; rw [if_neg hh]; exact (deep_ext ih _ _ node).map _ r hr
      · rename_i hd
        rw [if_neg hd]
        exact (leaf_ext (fun t v => (ih none t v).map _) v node).map _ r hr

theorem inst_mono {T : Types} {H : Heap} {n m : Nat} (h : n ≤ m) (g : G) (t : Nat) (v : V) : Ext (inst T H n g t v) (inst T H m g t v) := by
  induction m with
  | zero => cases Nat.le_zero.1 h; exact Ext.refl _
  | succ m ih =>
    rcases Nat.lt_or_ge m n with hlt | hge
    · cases Nat.le_antisymm h hlt; exact Ext.refl _
    · intro r hr; exact inst_ext T H m g t v r (ih hge r hr)

/-! ### A step of Instance -/

/-- `Out c g`: the guard `g` is `c` with flags raised. -/
def Out : G → G → Prop
  | none, none => True
  | some c, some s => s.aSeen = c.aSeen ∧ s.bSeen = c.bSeen ∧ (c.seenInA = true → s.seenInA = true) ∧ (c.seenInB = true → s.seenInB = true)
  | _, _ => False

theorem Out.refl (g : G) : Out g g := by cases g <;> simp [Out]

theorem Out.trans {a b c : G} (h : Out a b) (k : Out b c) : Out a c := by
  cases a <;> cases b <;> cases c <;> simp only [Out] at * <;> try trivial
  obtain ⟨h1, h2, h3, h4⟩ := h
  obtain ⟨k1, k2, k3, k4⟩ := k
  exact ⟨k1.trans h1, k2.trans h2, fun e => k3 (h3 e), fun e => k4 (h4 e)⟩

theorem out_mark (s : Guard) (t p : Nat) : Out (some s) (some (s.mark t p)) := by
  simp only [Out, Guard.mark, true_and]
  exact ⟨fun h => by simp [h], fun h => by simp [h]⟩

/-- The guard for the parts -/
def inner (g : G) (t : Nat) : V → G
  | .atom _ => g
  | .obj p =>
    match g with
    | none => some ⟨[t], [p], false, false⟩
    | some s => some ((s.mark t p).extend t p)

/-- The guard after the check -/
def outer (g : G) (t : Nat) : V → G
  | .atom _ => g
  | .obj p =>
    match g with
    | none => none
    | some s => some (s.mark t p)

def Hits (g : G) (t : Nat) : V → Prop
  | .atom _ => False
  | .obj p =>
    match g with
    | none => False
    | some s => (s.mark t p).hit = true

/-- One step: the answers about the parts give the answer.  `Ok` holds for guards of the parts. -/
theorem step {T : Types} {H : Heap} {S : Nat → V → Prop} {up down : Prop} {n : Nat} {g : G} {t : Nat} {v : V} {node : Node} {P Q : G → Prop}
    (hn : T[t]? = some node) (hany : ∀ t, isAny T t = true → ∀ v, S t v)
    (hup : up → S t v → Says H S node v) (hdown : down → Says H S node v → S t v)
    (hone : node.isAnti = true → (up ∧ down) ∨ (¬ up ∧ ¬ down))
    (hout : node.isDeep = true → Q (outer g t v)) (hleaf : node.isDeep = false → Q g)
    (hhit : node.isDeep = true → Hits g t v → ¬ down)
    (hin : node.isDeep = true → ¬ Hits g t v → P (inner g t v)) (hatom : ∀ a, v = .atom a → ∀ g', P g' → Q g')
    (hrec : node.isDeep = true → ¬ Hits g t v → ∀ u x, Asks H node v u x → ∀ g', P g' → Res P up down (inst T H n g' u x) (S u x))
    (hbare : ∀ u x, Asks H node v u x → (node.isDeep = true → ¬ Hits g t v ∧ ∃ k, x = .atom k) →
      Res (fun _ => True) up down (inst T H n none u x) (S u x)) :
    Res Q up down (inst T H (n + 1) g t v) (S t v) := by
  rw [inst, hn]
  dsimp only
  by_cases hd : node.isDeep = true
  · rw [if_pos hd]
    by_cases hh : Hits g t v
    · cases v with
      | atom a => exact absurd hh id
      | obj p =>
        cases g with
        | none => exact absurd hh id
        | some s =>
          dsimp only
          rw [if_pos (show (s.mark t p).hit = true from hh)]
          exact ⟨true, _, rfl, hout hd, fun _ _ => rfl, fun h => absurd h (hhit hd hh)⟩
    · have main : Res P up down (deepInst T H (inst T H n) (inner g t v) v node) (Says H S node v) :=
        deep_res node hd hany (hin hd hh) hone (hrec hd hh) (fun u k hu => hbare u _ hu fun _ => ⟨hh, k, rfl⟩)
      obtain ⟨b, g', h1, h2, h3, h4⟩ := main
      have hS : Fits up down b (S t v) := ⟨fun hu hs => h3 hu (hup hu hs), fun hd hb => hdown hd (h4 hd hb)⟩
      cases v with
      | atom a => exact ⟨b, g', h1, hatom a rfl g' h2, hS⟩
      | obj p =>
        cases g with
        | none => dsimp only [inner] at h1; exact ⟨b, none, by simp [h1], hout hd, hS⟩
        | some s =>
          dsimp only [inner] at h1
          dsimp only
          rw [if_neg (show ¬ (s.mark t p).hit = true from hh)]
          exact ⟨b, some (s.mark t p), by simp [h1], hout hd, hS⟩
  · have hd' : node.isDeep = false := by simpa using hd
    rw [if_neg hd]
    obtain ⟨b, h1, h2, h3⟩ := leaf_res (H := H) (S := S) (rec := fun t v => (inst T H n none t v).map (·.1)) (v := v) (up := up) (down := down) node hd' hone (by
      intro u x hu
      obtain ⟨b, g', k1, _, k3⟩ := hbare u x hu (fun h => absurd h hd)
      exact ⟨b, by simp [k1], k3⟩)
    exact ⟨b, g, by simp [h1], hleaf hd', fun hu hs => h2 hu (hup hu hs), fun hd hb => hdown hd (h3 hd hb)⟩

theorem any_says {T : Types} {H : Heap} {S : Nat → V → Prop} {t : Nat} (h : isAny T t = true) : T[t]? = some .any := by
  rw [isAny] at h
  split at h
  · rename_i e; exact e
  · cases h

theorem Reading.any {T : Types} {H : Heap} {S : Nat → V → Prop} (h : Reading T H S) (t : Nat) (ha : isAny T t = true) (v : V) : S t v :=
  (h t .any (any_says (H := H) (S := S) ha) v).2 True.intro

theorem asks_lt {T : Types} {H : Heap} (hc : ∀ node ∈ T, ∀ t ∈ node.refs, t < T.length) {t : Nat} {node : Node} (hn : T[t]? = some node) {v x : V} {u : Nat}
    (h : Asks H node v u x) : u < T.length := hc node (List.mem_of_getElem? hn) u h.1

/-! ### Types that do not contain themselves -/

def CleanA : G → Prop
  | none => True
  | some s => s.seenInA = false

def BelowA (depth : Nat → Nat) (t : Nat) : G → Prop
  | none => True
  | some s => s.seenInA = false ∧ ∀ a ∈ s.aSeen, depth t < depth a

theorem below_out {depth : Nat → Nat} {t : Nat} {c g : G} (h : BelowA depth t c) (ho : Out c g) (hc : CleanA g) : BelowA depth t g := by
  cases c <;> cases g <;> simp only [Out, BelowA, CleanA] at * <;> try trivial
  exact ⟨hc, by rw [ho.1]; exact h.2⟩

theorem type_tree {T : Types} {H : Heap} {S : Nat → V → Prop} {depth : Nat → Nat} (ht : TypeTree T depth)
    (hc : ∀ node ∈ T, ∀ t ∈ node.refs, t < T.length) (hS : Reading T H S) : (n : Nat) → ∀ g t v, depth t < n → t < T.length → BelowA depth t g →
    Res (fun g' => Out g g' ∧ CleanA g') True True (inst T H n g t v) (S t v)
  | 0, g, t, v, h, _, _ => by omega
  | n + 1, g, t, v, h, hl, hb => by
    have hn : T[t]? = some T[t] := List.getElem?_eq_getElem hl
    have hclean : CleanA g := by cases g <;> simp only [BelowA, CleanA] at *; exact hb.1
    have hmark : ∀ s p, g = some s → (s.mark t p).seenInA = false := by
      rintro s p rfl
      simp only [BelowA] at hb
      simp only [Guard.mark, hb.1, Bool.false_or, List.contains_eq_mem, decide_eq_false_iff_not]
      intro hm
      exact absurd (hb.2 t hm) (by omega)
    have hnohit : ¬ Hits g t v := by
      cases v with
      | atom a => exact id
      | obj p =>
        cases g with
        | none => exact id
        | some s => simp [Hits, Guard.hit, hmark s p rfl]
    have hsub : ∀ u x, Asks H T[t] v u x → depth u < depth t := fun u x hu => ht t T[t] hn u hu.1
    refine step (P := fun g' => Out (inner g t v) g' ∧ CleanA g') hn hS.any (fun _ h => (hS t _ hn v).1 h) (fun _ h => (hS t _ hn v).2 h)
      (fun _ => Or.inl ⟨True.intro, True.intro⟩) ?_ (fun _ => ⟨Out.refl _, hclean⟩) (fun _ hh => absurd hh hnohit) ?_ ?_ ?_ ?_
    · intro _
      cases v with
      | atom a => exact ⟨Out.refl _, hclean⟩
      | obj p =>
        cases g with
        | none => exact ⟨Out.refl _, True.intro⟩
        | some s => exact ⟨out_mark s t p, hmark s p rfl⟩
    · intro _ _
      refine ⟨Out.refl _, ?_⟩
      cases v with
      | atom a => exact hclean
      | obj p =>
        cases g with
        | none => rfl
        | some s => exact hmark s p rfl
    · rintro a rfl g' hg'; exact hg'
    · intro hd _ u x hu g' hg'
      have hlt := hsub u x hu
      have hbi : BelowA depth u (inner g t v) := by
        cases v with
        | atom a => cases g <;> simp only [BelowA, inner] at *; exact ⟨hb.1, fun a ha => Nat.lt_trans hlt (hb.2 a ha)⟩
        | obj p =>
          cases g with
          | none => simp [BelowA, inner, hlt]
          | some s =>
            simp only [BelowA, inner, Guard.extend, hmark s p rfl, Bool.false_eq_true, if_false, List.mem_cons]
            refine ⟨trivial, ?_⟩
            rintro a (rfl | ha)
            · exact hlt
            · exact Nat.lt_trans hlt (hb.2 a ha)
      obtain ⟨b, g'', h1, h2, h3⟩ := type_tree ht hc hS n g' u x (by omega) (asks_lt hc hn hu) (below_out hbi hg'.1 hg'.2)
      exact ⟨b, g'', h1, ⟨hg'.1.trans h2.1, h2.2⟩, h3⟩
    · intro u x hu _
      obtain ⟨b, g'', h1, h2, h3⟩ := type_tree ht hc hS n none u x (by have := hsub u x hu; omega) (asks_lt hc hn hu) True.intro
      exact ⟨b, g'', h1, True.intro, h3⟩

/-! ### Values that do not contain themselves -/

/-- Where answers must be right to both sides, no value occurs twice on the way. -/
def CleanB : G → Prop
  | none => True
  | some s => s.seenInB = false

def BelowB (height : Nat → Nat) (v : V) : G → Prop
  | none => True
  | some s => ∀ q ∈ s.bSeen, size height v ≤ height q

theorem belowB_out {height : Nat → Nat} {v : V} {c g : G} (h : BelowB height v c) (ho : Out c g) : BelowB height v g := by
  cases c <;> cases g <;> simp only [Out, BelowB] at * <;> try trivial
  rw [ho.2.1]; exact h

theorem part_size {H : Heap} {height : Nat → Nat} (hv : ValueTree H height) {v x : V} {o : Obj} (ho : load H v = some o) (hx : x ∈ o.parts) :
    size height x < size height v := by
  cases v with
  | atom a => cases ho
  | obj p => exact hv p o ho x hx

def isDeepAt (T : Types) (t : Nat) : Prop := ∃ node, T[t]? = some node ∧ node.isDeep = true

theorem value_tree {T : Types} {H : Heap} {S : Nat → V → Prop} {height op : Nat → Nat} {K : Nat} {up down : Prop} (hv : ValueTree H height)
    (hop : Contractive T op) (hK : ∀ t, t < T.length → op t < K) (hc : ∀ node ∈ T, ∀ t ∈ node.refs, t < T.length)
    (hany : ∀ t, isAny T t = true → ∀ v, S t v) (hup : up → Consistent T H S) (hdown : down → Reading T H S ∧ Flat T)
    (hone : ∀ node ∈ T, node.isAnti = true → (up ∧ down) ∨ (¬ up ∧ ¬ down)) :
    (n : Nat) → ∀ g t v, size height v * K + op t < n → t < T.length → (down → CleanB g ∧ (isDeepAt T t → BelowB height v g)) →
    Res (fun g' => Out g g' ∧ (down → CleanB g')) up down (inst T H n g t v) (S t v)
  | 0, g, t, v, h, _, _ => by omega
  | n + 1, g, t, v, h, hl, hb => by
    have hn : T[t]? = some T[t] := List.getElem?_eq_getElem hl
    have hmark : down → T[t].isDeep = true → ∀ s p, g = some s → v = .obj p → (s.mark t p).seenInB = false := by
      rintro hd hdp s p rfl rfl
      have hcl := (hb hd).1
      have hbl := (hb hd).2 ⟨_, hn, hdp⟩
      simp only [BelowB, CleanB, size] at hbl hcl
      simp only [Guard.mark, hcl, Bool.false_or, List.contains_eq_mem, decide_eq_false_iff_not]
      intro hm
      have := hbl p hm
      omega
    have hnohit : down → T[t].isDeep = true → ¬ Hits g t v := by
      intro hd hdp
      cases v with
      | atom a => exact id
      | obj p =>
        cases g with
        | none => exact id
        | some s => simp [Hits, Guard.hit, hmark hd hdp s p rfl rfl]
    have hsub : ∀ u x, Asks H T[t] v u x → size height x * K + op u < n := by
      intro u x hu
      have hul := asks_lt hc hn hu
      rcases hu.2 with ⟨hi, rfl⟩ | ⟨hi, o, ho, hx⟩
      · have := hop t _ hn hi u hu.1; omega
      · have h1 := part_size hv ho hx
        have h2 := hK u hul
        have h3 : (size height x + 1) * K ≤ size height v * K := Nat.mul_le_mul_right K h1
        rw [Nat.add_mul] at h3
        omega
    refine step (P := fun g' => Out (inner g t v) g' ∧ (down → CleanB g')) hn hany (fun hu h => hup hu t _ hn v h) (fun hd h => ((hdown hd).1 t _ hn v).2 h)
      (hone _ (List.getElem_mem hl)) ?_ (fun _ => ⟨Out.refl _, fun hd => (hb hd).1⟩) (fun hdp hh hd => hnohit hd hdp hh) ?_ ?_ ?_ ?_
    · intro hdp
      cases v with
      | atom a => exact ⟨Out.refl _, fun hd => (hb hd).1⟩
      | obj p =>
        cases g with
        | none => exact ⟨Out.refl _, fun _ => True.intro⟩
        | some s => exact ⟨out_mark s t p, fun hd => hmark hd hdp s p rfl rfl⟩
    · intro hdp _
      refine ⟨Out.refl _, fun hd => ?_⟩
      cases v with
      | atom a => exact (hb hd).1
      | obj p =>
        cases g with
        | none => rfl
        | some s => exact hmark hd hdp s p rfl rfl
    · rintro a rfl g' hg'; exact hg'
    · intro hdp _ u x hu g' hg'
      obtain ⟨b, g'', h1, h2, h3⟩ := value_tree hv hop hK hc hany hup hdown hone n g' u x (hsub u x hu) (asks_lt hc hn hu) (by
        intro hd
        refine ⟨hg'.2 hd, ?_⟩
        rintro ⟨nd, hnd, hndp⟩
        refine belowB_out ?_ hg'.1
        rcases hu.2 with ⟨hi, rfl⟩ | ⟨hi, o, ho, hx⟩
        · have := (hdown hd).2 _ (List.getElem_mem hl) hi hdp u nd hu.1 hnd
          rw [this] at hndp; cases hndp
        · have hlt := part_size hv ho hx
          have hbl := (hb hd).2 ⟨_, hn, hdp⟩
          cases v with
          | atom a => cases ho
          | obj p =>
            cases g with
            | none => simp only [BelowB, inner, List.mem_singleton, forall_eq]; exact Nat.le_of_lt_succ hlt
            | some s =>
              simp only [BelowB, inner, Guard.extend, hmark hd hdp s p rfl rfl, Bool.false_eq_true, if_false, List.mem_cons] at hbl ⊢
              rintro q (rfl | hq)
              · exact Nat.le_of_lt_succ hlt
              · have := hbl q hq; simp only [Guard.mark] at hq; omega)
      exact ⟨b, g'', h1, ⟨hg'.1.trans h2.1, h2.2⟩, h3⟩
    · intro u x hu _
      obtain ⟨b, g'', h1, h2, h3⟩ := value_tree hv hop hK hc hany hup hdown hone n none u x (hsub u x hu) (asks_lt hc hn hu)
        (fun _ => ⟨True.intro, fun _ => True.intro⟩)
      exact ⟨b, g'', h1, True.intro, h3⟩

/-! ### All graphs -/

def GoodG (N M : Nat) : G → Prop
  | none => True
  | some s => s.aSeen.Nodup ∧ (∀ a ∈ s.aSeen, a < N) ∧ s.bSeen.Nodup ∧ ∀ b ∈ s.bSeen, b < M

/-- How many objects have not been seen -/
def unseen (N M : Nat) (g : G) : V → Nat
  | .atom _ => 0
  | .obj _ =>
    match g with
    | none => N + M + 1
    | some s => (if s.seenInA = true then 0 else N - s.aSeen.length) + (if s.seenInB = true then 0 else M - s.bSeen.length)

theorem length_le_of_nodup {l : List Nat} {N : Nat} (h : l.Nodup) (hb : ∀ a ∈ l, a < N) : l.length ≤ N := by
  have := (List.subperm_of_subset h (l₂ := List.range N) (fun x hx => List.mem_range.2 (hb x hx))).length_le
  simpa using this

theorem goodG_out {N M : Nat} {c g : G} (h : GoodG N M c) (ho : Out c g) : GoodG N M g := by
  cases c <;> cases g <;> simp only [Out, GoodG] at * <;> try trivial
  rw [ho.1, ho.2.1]; exact h

theorem unseen_out {N M : Nat} {c g : G} (ho : Out c g) (x : V) : unseen N M g x ≤ unseen N M c x := by
  cases x with
  | atom a => simp [unseen]
  | obj p =>
    match c, g, ho with
    | none, none, _ => exact Nat.le_refl _
    | some c, some s, ho =>
    obtain ⟨h1, h2, h3, h4⟩ := ho
    simp only [unseen]
    rw [h1, h2]
    refine Nat.add_le_add ?_ ?_
    · split
      · omega
      · rename_i h; rw [if_neg (fun e => h (h3 e))]; exact Nat.le_refl _
    · split
      · omega
      · rename_i h; rw [if_neg (fun e => h (h4 e))]; exact Nat.le_refl _

theorem goodG_inner {N M t p : Nat} {g : G} (h : GoodG N M g) (ht : t < N) (hp : p < M) : GoodG N M (inner g t (.obj p)) := by
  cases g with
  | none => simp [GoodG, inner, ht, hp]
  | some s =>
    obtain ⟨h1, h2, h3, h4⟩ := h
    simp only [inner, GoodG, Guard.extend, Guard.mark]
    have ea : (s.seenInA || s.aSeen.contains t) = true ∨ t ∉ s.aSeen ∧ (s.seenInA || s.aSeen.contains t) = false := by
      cases h : (s.seenInA || s.aSeen.contains t)
      · simp only [Bool.or_eq_false_iff, List.contains_eq_mem, decide_eq_false_iff_not] at h; exact Or.inr ⟨h.2, rfl⟩
      · exact Or.inl rfl
    have eb : (s.seenInB || s.bSeen.contains p) = true ∨ p ∉ s.bSeen ∧ (s.seenInB || s.bSeen.contains p) = false := by
      cases h : (s.seenInB || s.bSeen.contains p)
      · simp only [Bool.or_eq_false_iff, List.contains_eq_mem, decide_eq_false_iff_not] at h; exact Or.inr ⟨h.2, rfl⟩
      · exact Or.inl rfl
    have ha : ((if (s.seenInA || s.aSeen.contains t) = true then s.aSeen else t :: s.aSeen) : List Nat).Nodup ∧
        ∀ a ∈ (if (s.seenInA || s.aSeen.contains t) = true then s.aSeen else t :: s.aSeen), a < N := by
      rcases ea with e | ⟨hm, e⟩
      · rw [if_pos e]; exact ⟨h1, h2⟩
      · rw [if_neg (by rw [e]; simp)]
        refine ⟨List.nodup_cons.2 ⟨hm, h1⟩, ?_⟩
        simpa [ht] using h2
    have hb : ((if (s.seenInB || s.bSeen.contains p) = true then s.bSeen else p :: s.bSeen) : List Nat).Nodup ∧
        ∀ a ∈ (if (s.seenInB || s.bSeen.contains p) = true then s.bSeen else p :: s.bSeen), a < M := by
      rcases eb with e | ⟨hm, e⟩
      · rw [if_pos e]; exact ⟨h3, h4⟩
      · rw [if_neg (by rw [e]; simp)]
        refine ⟨List.nodup_cons.2 ⟨hm, h3⟩, ?_⟩
        simpa [hp] using h4
    exact ⟨ha.1, ha.2, hb.1, hb.2⟩

theorem unseen_inner {N M t p : Nat} {g : G} (h : GoodG N M g) (ht : t < N) (hp : p < M) (hh : ¬ Hits g t (.obj p)) (x : V) :
    unseen N M (inner g t (.obj p)) x < unseen N M g (.obj p) := by
  have hgi := goodG_inner h ht hp
  cases g with
  | none => cases x <;> simp [unseen, inner] <;> omega
  | some s =>
    have hx : unseen N M (inner (some s) t (.obj p)) x ≤ unseen N M (inner (some s) t (.obj p)) (.obj p) := by
      cases x with
      | atom a => simp [unseen]
      | obj q => exact Nat.le_refl _
    refine Nat.lt_of_le_of_lt hx ?_
    have la := length_le_of_nodup hgi.1 hgi.2.1
    have lb := length_le_of_nodup hgi.2.2.1 hgi.2.2.2
    clear hx hgi
    have hma : (s.mark t p).seenInA = false → s.seenInA = false := by
      intro e; simp only [Guard.mark, Bool.or_eq_false_iff] at e; exact e.1
    have hmb : (s.mark t p).seenInB = false → s.seenInB = false := by
      intro e; simp only [Guard.mark, Bool.or_eq_false_iff] at e; exact e.1
    have hh' : ¬ ((s.mark t p).seenInA = true ∧ (s.mark t p).seenInB = true) := by
      simpa [Hits, Guard.hit, Bool.and_eq_true] using hh
    have ea : (s.mark t p).aSeen = s.aSeen := rfl
    have eb : (s.mark t p).bSeen = s.bSeen := rfl
    simp only [Guard.extend, ea, eb] at la lb
    simp only [unseen, inner, Guard.extend, ea, eb]
    cases ha : (s.mark t p).seenInA <;> cases hb : (s.mark t p).seenInB <;>
      simp only [ha, hb, Bool.false_eq_true, if_true, if_false, List.length_cons] at la lb ⊢
    · rw [hma ha, hmb hb]; simp only [Bool.false_eq_true, if_false]; omega
    · rw [hma ha]; simp only [Bool.false_eq_true, if_false]; omega
    · rw [hmb hb]; simp only [Bool.false_eq_true, if_false]; omega
    · exact absurd ⟨ha, hb⟩ hh'

theorem graph {T : Types} {H : Heap} {S : Nat → V → Prop} {level op : Nat → Nat} {K B : Nat} {up : Prop} (hc : Closed T H)
    (hop : Contractive T op) (hlev : Stratified T level) (hK : ∀ t, t < T.length → op t < K) (hB : (T.length + H.length + 2) * K ≤ B)
    (hany : ∀ t, isAny T t = true → ∀ v, S t v) (hup : up → Consistent T H S) (hone : ∀ node ∈ T, node.isAnti = true → ¬ up) :
    (n : Nat) → ∀ g t v, level t * B + unseen T.length H.length g v * K + op t < n → t < T.length → Valid H v → GoodG T.length H.length g →
    Res (Out g) up False (inst T H n g t v) (S t v)
  | 0, g, t, v, h, _, _, _ => by omega
  | n + 1, g, t, v, h, hl, hvl, hg => by
    have hn : T[t]? = some T[t] := List.getElem?_eq_getElem hl
    have hval : ∀ u x, Asks H T[t] v u x → Valid H x := by
      intro u x hu
      rcases hu.2 with ⟨_, rfl⟩ | ⟨_, o, ho, hx⟩
      · exact hvl
      · cases v with
        | atom a => cases ho
        | obj p => exact hc.values o (List.mem_of_getElem? ho) x hx
    have hlv : ∀ u x, Asks H T[t] v u x → level u * B ≤ level t * B := fun u x hu => Nat.mul_le_mul_right B (hlev t _ hn u hu.1).1
    have hBK : ∀ g x, unseen T.length H.length g x * K + K ≤ B := by
      intro g x
      refine Nat.le_trans ?_ hB
      rw [← Nat.succ_mul]
      refine Nat.mul_le_mul_right K ?_
      cases x with
      | atom a => simp [unseen]
      | obj p =>
        cases g with
        | none => simp [unseen]
        | some s => simp only [unseen]; split <;> split <;> omega
    refine step (P := Out (inner g t v)) hn hany (fun hu h => hup hu t _ hn v h) (fun hd => hd.elim)
      (fun ha => Or.inr ⟨hone _ (List.getElem_mem hl) ha, id⟩) ?_ (fun _ => Out.refl _) (fun _ _ => id) (fun _ _ => Out.refl _) ?_ ?_ ?_
    · intro _
      cases v with
      | atom a => exact Out.refl _
      | obj p =>
        cases g with
        | none => exact Out.refl _
        | some s => exact out_mark s t p
    · rintro a rfl g' hg'; exact hg'
    · intro hdp hh u x hu g' hg'
      have hul := asks_lt hc.types hn hu
      obtain ⟨b, g'', h1, h2, h3⟩ := graph hc hop hlev hK hB hany hup hone n g' u x (by
        have h4 := hlv u x hu
        have h5 := hK u hul
        have h6 := Nat.mul_le_mul_right K (unseen_out (N := T.length) (M := H.length) hg' x)
        cases v with
        | atom a =>
          rcases hu.2 with ⟨hi, rfl⟩ | ⟨_, o, ho, hx⟩
          · have := hop t _ hn hi u hu.1
            simp only [inner, unseen] at *
            omega
          · cases ho
        | obj p =>
          have h7 := Nat.mul_le_mul_right K (unseen_inner hg hl hvl hh x)
          rw [Nat.succ_mul] at h7
          omega) hul (hval u x hu) (by
        refine goodG_out ?_ hg'
        cases v with
        | atom a => exact hg
        | obj p => exact goodG_inner hg hl hvl)
      exact ⟨b, g'', h1, hg'.trans h2, h3⟩
    · intro u x hu hx
      have hul := asks_lt hc.types hn hu
      obtain ⟨b, g'', h1, h2, h3⟩ := graph hc hop hlev hK hB hany hup hone n none u x (by
        have h4 := hlv u x hu
        have h5 := hK u hul
        cases hdp : T[t].isDeep with
        | true =>
          obtain ⟨hh, k, rfl⟩ := hx hdp
          cases v with
          | atom a =>
            rcases hu.2 with ⟨hi, e⟩ | ⟨_, o, ho, _⟩
            · have := hop t _ hn hi u hu.1
              simp only [unseen] at *
              omega
            · cases ho
          | obj p =>
            have h7 := Nat.mul_le_mul_right K (unseen_inner hg hl hvl hh (.atom k))
            rw [Nat.succ_mul] at h7
            simp only [unseen] at *
            omega
        | false =>
          have hbare : T[t].isBare = true := by
            have hr := hu.1
            revert hdp hr
            cases T[t] <;> simp [Node.isDeep, Node.refs, Node.isBare]
          have h6 : (level u + 1) * B ≤ level t * B := Nat.mul_le_mul_right B ((hlev t _ hn u hu.1).2 hbare)
          rw [Nat.add_mul] at h6
          have h7 := hBK none x
          omega) hul (hval u x hu) True.intro
      exact ⟨b, g'', h1, True.intro, h3⟩

theorem bound_exists (op : Nat → Nat) : (N : Nat) → ∃ K, ∀ t, t < N → op t < K
  | 0 => ⟨0, by simp⟩
  | N + 1 => by
    obtain ⟨K, hK⟩ := bound_exists op N
    refine ⟨max K (op N + 1), fun t ht => ?_⟩
    rcases Nat.lt_succ_iff_lt_or_eq.1 ht with h | rfl
    · have := hK t h; omega
    · omega

end Verif.Types.Rec
