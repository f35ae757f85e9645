import Verif.Types.RecEqEq
import Mathlib.Data.List.Perm.Basic
/-!
# Equality of types with operands

Operands are compared without regard to their order.  Lemmas for C82.
-/
set_option autoImplicit false
set_option linter.unusedVariables false
set_option linter.unusedSimpArgs false
namespace Verif.Types.RecEq
open Verif.Value

/-! ### Specification -/

/-- `S` relates the elements of the lists one to one, in some order. -/
def Matched (S : Nat → Nat → Prop) (ts us : List Nat) : Prop := ∃ vs, us.Perm vs ∧ List.Forall₂ S ts vs

/-- Two types are the same on the surface, and `S` relates the types that they mention: operands in any order, others one by one. -/
inductive AlikeNode (S : Nat → Nat → Prop) : Node → Node → Prop where
  | leaf {s t : Ty} : s.equals t = true → AlikeNode S (.leaf s) (.leaf t)
  | arr {e e' : Nat} {lo hi : Int} : S e e' → AlikeNode S (.arr e lo hi) (.arr e' lo hi)
  | tuple {ts us : List Nat} {var : Bool} : List.Forall₂ S ts us → AlikeNode S (.tuple ts var) (.tuple us var)
  | map {k v k' v' : Nat} {lo hi : Int} : S k k' → S v v' → AlikeNode S (.map k v lo hi) (.map k' v' lo hi)
  | struct {add : Bool} {fs gs : List (Val × Bool × Nat)} :
      List.Forall₂ (fun f g => eq f.1 g.1 = true ∧ f.2.1 = g.2.1 ∧ S f.2.2 g.2.2) fs gs → AlikeNode S (.struct add fs) (.struct add gs)
  | allOf {ts us : List Nat} : Matched S ts us → AlikeNode S (.allOf ts) (.allOf us)
  | anyOf {ts us : List Nat} : Matched S ts us → AlikeNode S (.anyOf ts) (.anyOf us)
  | oneOf {ts us : List Nat} : Matched S ts us → AlikeNode S (.oneOf ts) (.oneOf us)
  | not {t u : Nat} : S t u → AlikeNode S (.not t) (.not u)
  | sens {t u : Nat} : S t u → AlikeNode S (.sens t) (.sens u)

/-- Two types are alike: but for the order of operands, at any depth, nothing tells them apart when they are written out. -/
def Alike (T : Types) (a b : Nat) : Prop :=
  ∃ S : Nat → Nat → Prop, S a b ∧ ∀ c d, S c d → ∃ x y, T[c]? = some x ∧ T[d]? = some y ∧ AlikeNode S x y

/-- No type that mentions types is in both. -/
def Apart (T : Types) (a b : Nat) : Prop :=
  ∀ c x, Reach T Node.refs a c → Reach T Node.refs b c → T[c]? = some x → x.refs = []

/-! ### Alike is an equivalence -/

theorem Matched.mono {S R : Nat → Nat → Prop} {ts us : List Nat} (h : ∀ a ∈ ts, ∀ b ∈ us, S a b → R a b) : Matched S ts us → Matched R ts us := by
  rintro ⟨vs, hp, hf⟩
  exact ⟨vs, hp, forall_mono (fun a ha b hb => h a ha b (hp.mem_iff.2 hb)) hf⟩

theorem AlikeNode.mono {S R : Nat → Nat → Prop} {x y : Node} (h : ∀ a b, S a b → R a b) : AlikeNode S x y → AlikeNode R x y
  | .leaf e => .leaf e
  | .arr e => .arr (h _ _ e)
  | .tuple e => .tuple (forall_mono (fun a _ b _ => h a b) e)
  | .map e f => .map (h _ _ e) (h _ _ f)
  | .struct e => .struct (forall_mono (fun a _ b _ e => ⟨e.1, e.2.1, h _ _ e.2.2⟩) e)
  | .allOf e => .allOf (e.mono fun a _ b _ => h a b)
  | .anyOf e => .anyOf (e.mono fun a _ b _ => h a b)
  | .oneOf e => .oneOf (e.mono fun a _ b _ => h a b)
  | .not e => .not (h _ _ e)
  | .sens e => .sens (h _ _ e)

theorem Alike.unfold {T : Types} {a b : Nat} (h : Alike T a b) : ∃ x y, T[a]? = some x ∧ T[b]? = some y ∧ AlikeNode (Alike T) x y := by
  obtain ⟨S, hab, hS⟩ := h
  obtain ⟨x, y, hx, hy, hn⟩ := hS a b hab
  exact ⟨x, y, hx, hy, hn.mono fun c d hcd => ⟨S, hcd, hS⟩⟩

theorem Alike.intro {T : Types} {a b : Nat} {x y : Node} (hx : T[a]? = some x) (hy : T[b]? = some y) (h : AlikeNode (Alike T) x y) : Alike T a b := by
  refine ⟨fun c d => (c = a ∧ d = b) ∨ Alike T c d, .inl ⟨rfl, rfl⟩, ?_⟩
  rintro c d (⟨rfl, rfl⟩ | hcd)
  · exact ⟨x, y, hx, hy, h.mono fun _ _ => .inr⟩
  · obtain ⟨x, y, hx, hy, h⟩ := hcd.unfold
    exact ⟨x, y, hx, hy, h.mono fun _ _ => .inr⟩

theorem Matched.refl {S : Nat → Nat → Prop} {ts : List Nat} (h : ∀ a ∈ ts, S a a) : Matched S ts ts := by
  refine ⟨ts, .refl _, ?_⟩
  induction ts with
  | nil => exact .nil
  | cons a ts ih => exact .cons (h a (.head _)) (ih fun b hb => h b (.tail _ hb))

theorem same_alike {S : Nat → Nat → Prop} {x y : Node} : SameNode S x y → AlikeNode S x y
  | .leaf e => .leaf e
  | .arr e => .arr e
  | .tuple e => .tuple e
  | .map e f => .map e f
  | .struct e => .struct e
  | .allOf e => .allOf ⟨_, .refl _, e⟩
  | .anyOf e => .anyOf ⟨_, .refl _, e⟩
  | .oneOf e => .oneOf ⟨_, .refl _, e⟩
  | .not e => .not e
  | .sens e => .sens e

theorem Same.alike {T : Types} {a b : Nat} : Same T a b → Alike T a b := by
  rintro ⟨S, hab, hS⟩
  refine ⟨S, hab, fun c d h => ?_⟩
  obtain ⟨x, y, hx, hy, h⟩ := hS c d h
  exact ⟨x, y, hx, hy, same_alike h⟩

theorem Alike.refl {T : Types} (hT : Closed T) {a : Nat} {x : Node} (hx : T[a]? = some x) : Alike T a a := by
  refine ⟨fun c d => c = d ∧ ∃ x, T[c]? = some x, ⟨rfl, x, hx⟩, ?_⟩
  rintro c d ⟨rfl, x, hx⟩
  exact ⟨x, x, hx, hx, same_alike (SameNode.rfl' hT (List.mem_of_getElem? hx) fun a ha => ⟨rfl, hT.ref hx ha⟩)⟩

theorem Matched.flip {S : Nat → Nat → Prop} {ts us : List Nat} (h : Matched S ts us) : Matched (fun b a => S a b) us ts := by
  obtain ⟨vs, hp, hf⟩ := h
  obtain ⟨ws, h1, h2⟩ := List.perm_comp_forall₂ hp (forall_flip hf)
  exact ⟨ws, h2.symm, h1⟩

theorem AlikeNode.flip {T : Types} (hT : Closed T) {S : Nat → Nat → Prop} {x y : Node} (hx : x ∈ T) (hy : y ∈ T) (h : AlikeNode S x y) :
    AlikeNode (fun b a => S a b) y x := by
  cases h with
  | leaf e => exact .leaf (plain_symm (hT.leaves _ hx) (hT.leaves _ hy) e)
  | arr e => exact .arr e
  | tuple e => exact .tuple (forall_flip e)
  | map e f => exact .map e f
  | struct e =>
    refine .struct (forall_swap (fun a ha b hb hab => ⟨wf_symm ?_ ?_ hab.1, hab.2.1.symm, hab.2.2⟩) e)
    · exact hT.keys _ hx _ (List.mem_map.2 ⟨a, ha, rfl⟩)
    · exact hT.keys _ hy _ (List.mem_map.2 ⟨b, hb, rfl⟩)
  | allOf e => exact .allOf e.flip
  | anyOf e => exact .anyOf e.flip
  | oneOf e => exact .oneOf e.flip
  | not e => exact .not e
  | sens e => exact .sens e

theorem Alike.symm {T : Types} (hT : Closed T) {a b : Nat} (h : Alike T a b) : Alike T b a := by
  refine ⟨fun c d => Alike T d c, h, fun c d h => ?_⟩
  obtain ⟨x, y, hx, hy, h⟩ := h.unfold
  exact ⟨y, x, hy, hx, h.flip hT (List.mem_of_getElem? hx) (List.mem_of_getElem? hy)⟩

theorem f64_trans {a b c : F64} (h : F64.eq a b = true) (h' : F64.eq b c = true) : F64.eq a c = true := by
  unfold F64.eq at *
  grind

theorem plain_trans {s t u : Ty} (h : Plain s) (h' : Plain t) (h'' : Plain u) (e : s.equals t = true) (e' : t.equals u = true) : s.equals u = true := by
  rw [plain_eq h] at e ⊢
  rw [plain_eq h'] at e'
  cases s <;> first
    | exact h.elim
    | (cases t <;> first
        | exact h'.elim
        | exact absurd e Bool.false_ne_true
        | (cases u <;> first
            | exact h''.elim
            | exact absurd e' Bool.false_ne_true
            | rfl
            | exact C08_equals_is_equivalence.2.2 _ _ _ h h' h'' e e'
            | (simp only [leafEq, Bool.and_eq_true, beq_iff_eq] at e e' ⊢
               first
                 | exact e.trans e'
                 | exact ⟨e.1.trans e'.1, e.2.trans e'.2⟩
                 | exact ⟨⟨e.1.1.trans e'.1.1, e.1.2.trans e'.1.2⟩, e.2.trans e'.2⟩
                 | exact ⟨⟨f64_trans e.1.1 e'.1.1, f64_trans e.1.2 e'.1.2⟩, e.2.trans e'.2⟩)))

theorem forall_comp {α β γ : Type} {S : α → β → Prop} {R : β → γ → Prop} {Q : α → γ → Prop} : {as : List α} → {bs : List β} → {cs : List γ} →
    (∀ a ∈ as, ∀ b ∈ bs, ∀ c ∈ cs, S a b → R b c → Q a c) → List.Forall₂ S as bs → List.Forall₂ R bs cs → List.Forall₂ Q as cs
  | _, _, _, _, .nil, .nil => .nil
  | _, _, _, h, .cons h1 t1, .cons h2 t2 =>
    .cons (h _ (.head _) _ (.head _) _ (.head _) h1 h2) (forall_comp (fun a ha b hb c hc => h a (.tail _ ha) b (.tail _ hb) c (.tail _ hc)) t1 t2)

theorem Matched.comp {S R : Nat → Nat → Prop} {ts us ws : List Nat} (h : Matched S ts us) (h' : Matched R us ws) :
    Matched (fun a c => ∃ b, S a b ∧ R b c) ts ws := by
  obtain ⟨vs, hp, hf⟩ := h
  obtain ⟨zs, hp', hf'⟩ := h'
  obtain ⟨ys, h1, h2⟩ := List.perm_comp_forall₂ hp.symm hf'
  exact ⟨ys, hp'.trans h2.symm, forall_comp (fun a _ b _ c _ h1 h2 => ⟨b, h1, h2⟩) hf h1⟩

theorem AlikeNode.comp {T : Types} (hT : Closed T) {S R : Nat → Nat → Prop} {x y z : Node} (hx : x ∈ T) (hy : y ∈ T) (hz : z ∈ T)
    (h : AlikeNode S x y) (h' : AlikeNode R y z) : AlikeNode (fun a c => ∃ b, S a b ∧ R b c) x z := by
  cases h with
  | leaf e => cases h' with | leaf e' => exact .leaf (plain_trans (hT.leaves _ hx) (hT.leaves _ hy) (hT.leaves _ hz) e e')
  | arr e => cases h' with | arr e' => exact .arr ⟨_, e, e'⟩
  | tuple e => cases h' with | tuple e' => exact .tuple (forall_comp (fun a _ b _ c _ h1 h2 => ⟨b, h1, h2⟩) e e')
  | map e f => cases h' with | map e' f' => exact .map ⟨_, e, e'⟩ ⟨_, f, f'⟩
  | struct e =>
    cases h' with
    | struct e' =>
      refine .struct (forall_comp (fun a ha b hb c hc h1 h2 =>
        ⟨C08_equals_is_equivalence.2.2 _ _ _ ?_ ?_ ?_ h1.1 h2.1, h1.2.1.trans h2.2.1, _, h1.2.2, h2.2.2⟩) e e')
      · exact hT.keys _ hx _ (List.mem_map.2 ⟨a, ha, rfl⟩)
      · exact hT.keys _ hy _ (List.mem_map.2 ⟨b, hb, rfl⟩)
      · exact hT.keys _ hz _ (List.mem_map.2 ⟨c, hc, rfl⟩)
  | allOf e => cases h' with | allOf e' => exact .allOf (e.comp e')
  | anyOf e => cases h' with | anyOf e' => exact .anyOf (e.comp e')
  | oneOf e => cases h' with | oneOf e' => exact .oneOf (e.comp e')
  | not e => cases h' with | not e' => exact .not ⟨_, e, e'⟩
  | sens e => cases h' with | sens e' => exact .sens ⟨_, e, e'⟩

theorem Alike.trans {T : Types} (hT : Closed T) {a b c : Nat} (h : Alike T a b) (h' : Alike T b c) : Alike T a c := by
  refine ⟨fun a c => ∃ b, Alike T a b ∧ Alike T b c, ⟨b, h, h'⟩, ?_⟩
  rintro a c ⟨b, h, h'⟩
  obtain ⟨x, y, hx, hy, h⟩ := h.unfold
  obtain ⟨y', z, hy', hz, h'⟩ := h'.unfold
  rw [hy] at hy'
  cases hy'
  exact ⟨x, z, hx, hz, h.comp hT (List.mem_of_getElem? hx) (List.mem_of_getElem? hy) (List.mem_of_getElem? hz) h'⟩

/-! ### The loops for operands -/

theorem take_split {f : Nat → Check} : (bs cs : List Nat) → takeFirstC f bs = some (some cs) →
    ∃ l b r, bs = l ++ b :: r ∧ cs = l ++ r ∧ f b = some true
  | [], cs, h => by cases h
  | b :: bs, cs, h => by
    rw [takeFirstC] at h
    cases hf : f b with
    | none => rw [hf] at h; cases h
    | some c =>
      rw [hf] at h
      cases c
      · cases ht : takeFirstC f bs with
        | none => rw [ht] at h; cases h
        | some o =>
          rw [ht] at h
          cases o with
          | none => cases h
          | some ds =>
            cases h
            obtain ⟨l, b', r, h1, h2, h3⟩ := take_split bs ds ht
            exact ⟨b :: l, b', r, by rw [h1]; rfl, by rw [h2]; rfl, h3⟩
      · cases h
        exact ⟨[], b, bs, rfl, rfl, hf⟩

theorem take_none {f : Nat → Check} : (bs : List Nat) → takeFirstC f bs = some none → ∀ b ∈ bs, f b = some false
  | [], _ => fun b hb => by cases hb
  | b :: bs, h => by
    rw [takeFirstC] at h
    cases hf : f b with
    | none => rw [hf] at h; cases h
    | some c =>
      rw [hf] at h
      cases c
      · cases ht : takeFirstC f bs with
        | none => rw [ht] at h; cases h
        | some o =>
          rw [ht] at h
          cases o with
          | none =>
            intro b' hb'
            cases hb' with
            | head => exact hf
            | tail _ hb' => exact take_none bs ht b' hb'
          | some ds => cases h
      · cases h

theorem match_sound {f : Nat → Nat → Check} {S : Nat → Nat → Prop} : (as bs : List Nat) → (∀ a ∈ as, ∀ b ∈ bs, f b a = some true → S a b) →
    as.length = bs.length → matchAllC f as bs = some true → Matched S as bs
  | [], [], _, _, _ => ⟨[], .refl _, .nil⟩
  | [], _ :: _, _, hl, _ => by cases hl
  | a :: as, bs, h, hl, e => by
    rw [matchAllC] at e
    cases ht : takeFirstC (fun b => f b a) bs with
    | none => rw [ht] at e; cases e
    | some o =>
      rw [ht] at e
      cases o with
      | none => cases e
      | some cs =>
        obtain ⟨l, b, r, rfl, rfl, hb⟩ := take_split bs cs ht
        have hmem : ∀ c ∈ l ++ r, c ∈ l ++ b :: r := by
          intro c hc
          rcases List.mem_append.1 hc with hc | hc
          · exact List.mem_append_left _ hc
          · exact List.mem_append_right _ (.tail _ hc)
        obtain ⟨vs, hp, hf⟩ := match_sound as (l ++ r) (fun a ha c hc => h a (.tail _ ha) c (hmem c hc))
          (by simp only [List.length_cons, List.length_append] at hl ⊢; omega) e
        exact ⟨b :: vs, List.perm_middle.trans (hp.cons b), .cons (h a (.head _) b (by simp) hb) hf⟩

/-- What is left can be matched when an element is taken out that fits the first. -/
theorem Matched.take {S : Nat → Nat → Prop} (hsym : ∀ a b, S a b → S b a) (htr : ∀ a b c, S a b → S b c → S a c) {a b : Nat} {as l r : List Nat}
    (h : Matched S (a :: as) (l ++ b :: r)) (hab : S a b) : Matched S as (l ++ r) := by
  obtain ⟨vs, hp, hf⟩ := h
  cases hf with
  | cons hav hf =>
    rename_i v vs
    have hp' : (b :: (l ++ r)).Perm (v :: vs) := List.perm_middle.symm.trans hp
    have hb : b ∈ v :: vs := hp'.mem_iff.1 (.head _)
    rcases List.mem_cons.1 hb with rfl | hb
    · exact ⟨vs, List.Perm.cons_inv hp', hf⟩
    · obtain ⟨m1, m2, rfl⟩ := List.append_of_mem hb
      refine ⟨m1 ++ v :: m2, ?_, ?_⟩
      · have h1 : (b :: (l ++ r)).Perm (b :: v :: (m1 ++ m2)) :=
          hp'.trans ((List.perm_middle.cons v).trans (List.Perm.swap _ _ _))
        exact (List.Perm.cons_inv h1).trans List.perm_middle.symm
      · have hbv : S b v := htr _ _ _ (hsym _ _ hab) hav
        clear * - hf htr hbv
        induction m1 generalizing as with
        | nil => cases hf with | cons h1 t => exact .cons (htr _ _ _ h1 hbv) t
        | cons c m1 ih => cases hf with | cons h1 t => exact .cons h1 (ih t)

theorem match_complete {f : Nat → Nat → Check} {S : Nat → Nat → Prop} (hsym : ∀ a b, S a b → S b a) (htr : ∀ a b c, S a b → S b c → S a c) :
    (as bs : List Nat) → (∀ a ∈ as, ∀ b ∈ bs, (f b a = some true → S a b) ∧ (f b a = some false → ¬ S a b)) →
    Matched S as bs → (r : Bool) → matchAllC f as bs = some r → r = true
  | [], _, _, _, r, e => by cases e; rfl
  | a :: as, bs, h, hm, r, e => by
    rw [matchAllC] at e
    cases ht : takeFirstC (fun b => f b a) bs with
    | none => rw [ht] at e; cases e
    | some o =>
      rw [ht] at e
      cases o with
      | none =>
        obtain ⟨vs, hp, hf⟩ := hm
        cases hf with
        | cons hav hf =>
          have hv := hp.mem_iff.2 (List.Mem.head _)
          exact absurd hav ((h a (.head _) _ hv).2 (take_none bs ht _ hv))
      | some cs =>
        obtain ⟨l, b, s, rfl, rfl, hb⟩ := take_split bs cs ht
        have hmem : ∀ c ∈ l ++ s, c ∈ l ++ b :: s := by
          intro c hc
          rcases List.mem_append.1 hc with hc | hc
          · exact List.mem_append_left _ hc
          · exact List.mem_append_right _ (.tail _ hc)
        exact match_complete hsym htr as (l ++ s) (fun a ha c hc => h a (.tail _ ha) c (hmem c hc))
          (hm.take hsym htr ((h a (.head _) b (by simp)).1 hb)) r e

theorem zip_iff {f : Nat → Nat → Check} {S : Nat → Nat → Prop} : (as bs : List Nat) → (∀ a ∈ as, ∀ b ∈ bs, ∀ r, f a b = some r → (r = true ↔ S a b)) →
    (r : Bool) → zipAllC f as bs = some r → (r = true ↔ List.Forall₂ S as bs)
  | [], [], _, r, e => by cases e; exact ⟨fun _ => .nil, fun _ => rfl⟩
  | [], _ :: _, _, r, e => by cases e; exact ⟨fun h => (by cases h), fun h => (by cases h)⟩
  | _ :: _, [], _, r, e => by cases e; exact ⟨fun h => (by cases h), fun h => (by cases h)⟩
  | a :: as, b :: bs, h, r, e => by
    rw [zipAllC] at e
    cases hf : f a b with
    | none => rw [hf] at e; cases e
    | some c =>
      have h1 := h a (.head _) b (.head _) c hf
      rw [hf] at e
      cases c
      · cases e
        exact ⟨fun h => (by cases h), fun h => (by cases h with | cons h _ => exact h1.2 h)⟩
      · have h2 := zip_iff as bs (fun a ha b hb => h a (.tail _ ha) b (.tail _ hb)) r e
        rw [h2]
        exact ⟨fun h => .cons (h1.1 rfl) h, fun h => (by cases h with | cons _ h => exact h)⟩

theorem ops_iff {f : Nat → Nat → Check} {S : Nat → Nat → Prop} (hsym : ∀ a b, S a b → S b a) (htr : ∀ a b c, S a b → S b c → S a c) (as bs : List Nat)
    (h : ∀ a ∈ as, ∀ b ∈ bs, ∀ r, f b a = some r → (r = true ↔ S b a)) (r : Bool) (e : sameValuesC f as bs = some r) : r = true ↔ Matched S as bs := by
  have h' : ∀ a ∈ as, ∀ b ∈ bs, (f b a = some true → S a b) ∧ (f b a = some false → ¬ S a b) := fun a ha b hb =>
    ⟨fun e => hsym _ _ ((h a ha b hb _ e).1 rfl), fun e hs => by cases (h a ha b hb _ e).2 (hsym _ _ hs)⟩
  unfold sameValuesC at e
  split at e
  · rename_i hl
    constructor
    · rintro rfl
      exact match_sound as bs (fun a ha b hb => (h' a ha b hb).1) hl e
    · exact fun hm => match_complete hsym htr as bs h' hm r e
  · rename_i hl
    cases e
    refine ⟨fun h => (by cases h), ?_⟩
    rintro ⟨vs, hp, hf⟩
    exact absurd (hf.length_eq.trans hp.length_eq.symm) hl

/-! ### Equals of types that do not contain themselves and are apart -/

theorem Reach.trans' {T : Types} {refs : Node → List Nat} {a b c : Nat} (h : Reach T refs a b) (h' : Reach T refs b c) : Reach T refs a c := by
  induction h with
  | here => exact h'
  | step h1 h2 _ ih => exact .step h1 h2 (ih h')

/-- The recursion is not cut off: neither type contains itself, they are apart, and nothing in `seen` is in one of them. -/
structure Clear2 (T : Types) (seen : List Nat) (a b : Nat) : Prop where
  treeA : ¬ ContainsItself T a
  treeB : ¬ ContainsItself T b
  apart : Apart T a b
  seenA : ∀ s ∈ seen, ¬ Reach T Node.refs a s
  seenB : ∀ s ∈ seen, ¬ Reach T Node.refs b s

theorem Clear2.symm {T : Types} {seen : List Nat} {a b : Nat} (h : Clear2 T seen a b) : Clear2 T seen b a :=
  ⟨h.treeB, h.treeA, fun c x h1 h2 => h.apart c x h2 h1, h.seenB, h.seenA⟩

theorem Clear2.sub {T : Types} {seen seen' : List Nat} {a b : Nat} (h : Clear2 T seen a b) (hs : ∀ s ∈ seen', s ∈ seen) : Clear2 T seen' a b :=
  ⟨h.treeA, h.treeB, h.apart, fun s hm => h.seenA s (hs s hm), fun s hm => h.seenB s (hs s hm)⟩

theorem Clear2.ref {T : Types} {seen : List Nat} {a b u v : Nat} {x y : Node} (h : Clear2 T seen a b) (ha : T[a]? = some x) (hb : T[b]? = some y)
    (hu : u ∈ x.refs) (hv : v ∈ y.refs) : Clear2 T (a :: seen) u v where
  treeA := fun ⟨c, w, z, h1, h2⟩ => h.treeA ⟨c, w, z, .step ha hu h1, h2⟩
  treeB := fun ⟨c, w, z, h1, h2⟩ => h.treeB ⟨c, w, z, .step hb hv h1, h2⟩
  apart := fun c z h1 h2 => h.apart c z (.step ha hu h1) (.step hb hv h2)
  seenA := by
    intro s hs hr
    cases hs with
    | head => exact h.treeA ⟨a, u, x, .here a, ha, hu, hr⟩
    | tail _ hs => exact h.seenA s hs (.step ha hu hr)
  seenB := by
    intro s hs hr
    cases hs with
    | head =>
      have := h.apart a x (.here a) (.step hb hv hr) ha
      rw [this] at hu
      cases hu
    | tail _ hs => exact h.seenB s hs (.step hb hv hr)

theorem alike_node {T : Types} {a b : Nat} {x y : Node} (hx : T[a]? = some x) (hy : T[b]? = some y) : Alike T a b ↔ AlikeNode (Alike T) x y := by
  constructor
  · intro h
    obtain ⟨x', y', hx', hy', h⟩ := h.unfold
    rw [hx] at hx'; rw [hy] at hy'
    cases hx'; cases hy'
    exact h
  · exact .intro hx hy

theorem eq_alike {T : Types} (hT : Closed T) : (n : Nat) → (g : Option (List Nat)) → (a b : Nat) → Clear2 T (g.getD []) a b → (r : Bool) →
    equals T n g a b = some r → (r = true ↔ Alike T a b)
  | 0, g, a, b, hc, r, e => by cases e
  | n + 1, g, a, b, hc, r, e => by
    cases hx : T[a]? with
    | none => rw [equals, hx] at e; cases e
    | some x =>
    cases hy : T[b]? with
    | none => rw [equals, hx, hy] at e; cases e
    | some y =>
    by_cases hab : a = b
    · subst hab
      rw [hx] at hy
      cases hy
      have hr : Alike T a a := .refl hT hx
      refine ⟨fun _ => hr, fun _ => ?_⟩
      cases hd : x.isDeep
      · rw [eq_flat hx hx hd] at e
        split at e
        · cases e; rfl
        · have hr' := (alike_node hx hx).1 hr
          cases x with
          | leaf s => cases hr' with | leaf hl => rw [flatEq, hl] at e; cases e; rfl
          | not t =>
            cases hr' with
            | not hl => exact (eq_alike hT n none t t ((hc.ref hx hx (.head _) (.head _)).sub fun s hs => by cases hs) r e).2 hl
          | _ => cases hd
      · rw [eq_deep hx hx hd, if_pos rfl] at e
        cases e; rfl
    · rw [alike_node hx hy]
      cases hd : x.isDeep
      · rw [eq_flat hx hy hd, if_neg fun h => hab h.2] at e
        cases x with
        | leaf s =>
          cases y with
          | leaf t => cases e; exact ⟨.leaf, fun h => (by cases h; assumption)⟩
          | _ => cases e; exact ⟨fun h => (by cases h), fun h => (by cases h)⟩
        | not t =>
          cases y with
          | not u =>
            rw [eq_alike hT n none t u ((hc.ref hx hy (.head _) (.head _)).sub fun s hs => by cases hs) r e]
            exact ⟨.not, fun h => (by cases h; assumption)⟩
          | _ => cases e; exact ⟨fun h => (by cases h), fun h => (by cases h)⟩
        | _ => cases hd
      · have hs : a ∉ g.getD [] := fun hs => hc.seenA a hs (.here a)
        rw [eq_deep hx hy hd, if_neg hab, if_neg hs] at e
        have ih : ∀ u ∈ x.refs, ∀ v ∈ y.refs, ∀ r, equals T n (some (a :: g.getD [])) u v = some r → (r = true ↔ Alike T u v) :=
          fun u hu v hv r => eq_alike hT n (some (a :: g.getD [])) u v (hc.ref hx hy hu hv) r
        have ih' : ∀ u ∈ x.refs, ∀ v ∈ y.refs, ∀ r, equals T n (some (a :: g.getD [])) v u = some r → (r = true ↔ Alike T v u) :=
          fun u hu v hv r => eq_alike hT n (some (a :: g.getD [])) v u (hc.ref hx hy hu hv).symm r
        have hsym : ∀ a b, Alike T a b → Alike T b a := fun a b h => h.symm hT
        have htr : ∀ a b c, Alike T a b → Alike T b c → Alike T a c := fun a b c h h' => h.trans hT h'
        have no : ∀ {r : Bool}, some false = some r → (¬ AlikeNode (Alike T) x y) → (r = true ↔ AlikeNode (Alike T) x y) := by
          intro r e h
          cases e
          exact ⟨fun h => (by cases h), fun h' => absurd h' h⟩
        split at e
        · cases x with
          | leaf s => cases hd
          | not s => cases hd
          | arr el lo hi =>
            cases y with
            | arr el' lo' hi' =>
              simp only [deepEq] at e
              split at e
              · rename_i hb; obtain ⟨rfl, rfl⟩ := hb
                rw [ih _ (.head _) _ (.head _) r e]
                exact ⟨.arr, fun h => (by cases h; assumption)⟩
              · rename_i hb
                exact no e fun h => hb (by cases h; exact ⟨rfl, rfl⟩)
            | _ => exact no e fun h => (by cases h)
          | sens el =>
            cases y with
            | sens el' =>
              rw [ih _ (.head _) _ (.head _) r e]
              exact ⟨.sens, fun h => (by cases h; assumption)⟩
            | _ => exact no e fun h => (by cases h)
          | tuple ts var =>
            cases y with
            | tuple us var' =>
              simp only [deepEq] at e
              split at e
              · rename_i hb; obtain ⟨rfl, hl⟩ := hb
                rw [zip_iff ts us ih r e]
                exact ⟨.tuple, fun h => (by cases h; assumption)⟩
              · rename_i hb
                exact no e fun h => hb (by cases h with | tuple h => exact ⟨rfl, h.length_eq⟩)
            | _ => exact no e fun h => (by cases h)
          | map k v lo hi =>
            cases y with
            | map k' v' lo' hi' =>
              simp only [deepEq] at e
              split at e
              · rename_i hb; obtain ⟨rfl, rfl⟩ := hb
                cases hf : equals T n (some (a :: g.getD [])) k k' with
                | none => rw [hf] at e; cases e
                | some c =>
                  have h1 := ih k (.head _) k' (.head _) c hf
                  rw [hf] at e
                  cases c
                  · exact no e fun h => (by cases h with | map h _ => cases h1.2 h)
                  · rw [ih v (.tail _ (.head _)) v' (.tail _ (.head _)) r e]
                    exact ⟨.map (h1.1 rfl), fun h => (by cases h; assumption)⟩
              · rename_i hb
                exact no e fun h => hb (by cases h; exact ⟨rfl, rfl⟩)
            | _ => exact no e fun h => (by cases h)
          | struct add fs =>
            cases y with
            | struct add' gs =>
              simp only [deepEq] at e
              split at e
              · rename_i hb; obtain ⟨rfl, h1, h2⟩ := hb
                rw [zip_iff _ _ ih r e]
                refine ⟨fun h => .struct (struct_join h1 h2 h), fun h => ?_⟩
                cases h with | struct h => exact (struct_split h).2.2
              · rename_i hb
                refine no e fun h => hb ?_
                cases h with | struct h => exact ⟨rfl, (struct_split h).1, (struct_split h).2.1⟩
            | _ => exact no e fun h => (by cases h)
          | allOf ts =>
            cases y with
            | allOf us =>
              rw [ops_iff hsym htr ts us ih' r e]
              exact ⟨.allOf, fun h => (by cases h; assumption)⟩
            | _ => exact no e fun h => (by cases h)
          | anyOf ts =>
            cases y with
            | anyOf us =>
              rw [ops_iff hsym htr ts us ih' r e]
              exact ⟨.anyOf, fun h => (by cases h; assumption)⟩
            | _ => exact no e fun h => (by cases h)
          | oneOf ts =>
            cases y with
            | oneOf us =>
              rw [ops_iff hsym htr ts us ih' r e]
              exact ⟨.oneOf, fun h => (by cases h; assumption)⟩
            | _ => exact no e fun h => (by cases h)
        · rename_i hyd
          refine no e fun h => hyd ?_
          cases h <;> first | rfl | cases hd

end Verif.Types.RecEq
