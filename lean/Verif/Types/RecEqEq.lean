import Verif.Types.RecEqHash
/-!
# Equals of types that contain themselves: when it returns, and what
-/
set_option autoImplicit false
set_option linter.unusedVariables false
set_option linter.unusedSimpArgs false

namespace Verif.Types.RecEq
open Verif.Value

/-! ### Leaves -/

theorem f64_refl {a : F64} (h : a.isNaN = false) : F64.eq a a = true := (F64.eq_iff a a).2 ⟨h, h, rfl⟩

theorem f64_symm {a b : F64} (h : F64.eq a b = true) : F64.eq b a = true := by
  rw [F64.eq_iff] at h ⊢
  exact ⟨h.2.1, h.1, h.2.2.symm⟩

theorem wf_refl {v : Val} (h : WF v) : eq v v = true := C08_equals_is_equivalence.1 v h

theorem wf_symm {v w : Val} (h : WF v) (h' : WF w) (e : eq v w = true) : eq w v = true := by
  rw [← C08_equals_is_equivalence.2.1 v w h h']; exact e

theorem plain_deep {t : Ty} (h : Plain t) : t.deep? = none := by
  cases t <;> first | rfl | exact h.elim

theorem plain_eq {s t : Ty} (h : Plain s) : s.equals t = leafEq (tyEq (s.depth + t.depth) []) s t := by
  unfold Ty.equals
  rw [tyEq, plain_deep h]

theorem plain_refl {t : Ty} (h : Plain t) : t.equals t = true := by
  rw [plain_eq h]
  cases t <;> first
    | exact h.elim
    | rfl
    | exact wf_refl h
    | (simp only [leafEq, f64_refl h.1, f64_refl h.2, Bool.true_and]; simp)
    | simp [leafEq]

theorem plain_symm {s t : Ty} (h : Plain s) (h' : Plain t) (e : s.equals t = true) : t.equals s = true := by
  rw [plain_eq h] at e
  rw [plain_eq h']
  cases s <;> first
    | exact h.elim
    | (cases t <;> first
        | exact h'.elim
        | exact absurd e Bool.false_ne_true
        | rfl
        | exact wf_symm h h' e
        | (simp only [leafEq, Bool.and_eq_true, beq_iff_eq] at e ⊢
           first
             | exact e.symm
             | exact ⟨e.1.symm, e.2.symm⟩
             | exact ⟨⟨e.1.1.symm, e.1.2.symm⟩, e.2.symm⟩
             | exact ⟨⟨f64_symm e.1.1, f64_symm e.1.2⟩, e.2.symm⟩))

/-! ### It returns -/

theorem eq_deep {T : Types} {n : Nat} {g : Option (List Nat)} {a b : Nat} {x y : Node} (ha : T[a]? = some x) (hb : T[b]? = some y)
    (hd : x.isDeep = true) :
    equals T (n + 1) g a b = if a = b then some true else if a ∈ g.getD [] then some true
      else if y.isDeep then deepEq (equals T n (some (a :: g.getD []))) x y else some false := by
  rw [equals, ha, hb]
  dsimp only
  rw [if_pos hd]

theorem eq_flat {T : Types} {n : Nat} {g : Option (List Nat)} {a b : Nat} {x y : Node} (ha : T[a]? = some x) (hb : T[b]? = some y)
    (hd : x.isDeep = false) :
    equals T (n + 1) g a b = if g.isSome ∧ a = b then some true else flatEq (equals T n none) x y := by
  rw [equals, ha, hb]
  dsimp only
  rw [if_neg (by rw [hd]; exact Bool.false_ne_true)]

theorem bound {P : Nat → Nat → Prop} (hm : ∀ {n m a}, n ≤ m → P n a → P m a) : (as : List Nat) → (∀ a ∈ as, ∃ n, P n a) → ∃ n, ∀ a ∈ as, P n a
  | [], _ => ⟨0, fun a ha => by cases ha⟩
  | a :: as, h => by
    obtain ⟨n, hn⟩ := h a (.head _)
    obtain ⟨m, hm'⟩ := bound (P := P) hm as fun a ha => h a (.tail _ ha)
    refine ⟨max n m, fun c hc => ?_⟩
    cases hc with
    | head => exact hm (Nat.le_max_left n m) hn
    | tail _ hc => exact hm (Nat.le_max_right n m) (hm' c hc)

theorem zip_some {f : Nat → Nat → Check} : (as bs : List Nat) → (∀ a ∈ as, ∀ b ∈ bs, ∃ r, f a b = some r) → ∃ r, zipAllC f as bs = some r
  | [], [], _ => ⟨_, rfl⟩
  | [], _ :: _, _ => ⟨_, rfl⟩
  | _ :: _, [], _ => ⟨_, rfl⟩
  | a :: as, b :: bs, h => by
    obtain ⟨r, hr⟩ := h a (.head _) b (.head _)
    rw [zipAllC, hr]
    cases r
    · exact ⟨_, rfl⟩
    · exact zip_some as bs fun a ha b hb => h a (.tail _ ha) b (.tail _ hb)

theorem take_some {f : Nat → Check} : (bs : List Nat) → (∀ b ∈ bs, ∃ r, f b = some r) → ∃ o, takeFirstC f bs = some o
  | [], _ => ⟨_, rfl⟩
  | b :: bs, h => by
    obtain ⟨r, hr⟩ := h b (.head _)
    rw [takeFirstC, hr]
    cases r
    · obtain ⟨o, ho⟩ := take_some bs fun b hb => h b (.tail _ hb)
      exact ⟨_, by rw [ho]; rfl⟩
    · exact ⟨_, rfl⟩

theorem match_some {f : Nat → Nat → Check} : (as bs : List Nat) → (∀ a ∈ as, ∀ b ∈ bs, ∃ r, f b a = some r) → ∃ r, matchAllC f as bs = some r
  | [], _, _ => ⟨_, rfl⟩
  | a :: as, bs, h => by
    obtain ⟨o, ho⟩ := take_some (f := fun b => f b a) bs fun b hb => h a (.head _) b hb
    rw [matchAllC, ho]
    cases o with
    | none => exact ⟨_, rfl⟩
    | some cs => exact match_some as cs fun a ha b hb => h a (.tail _ ha) b (take_sub bs cs ho b hb)

theorem same_some {f : Nat → Nat → Check} (as bs : List Nat) (h : ∀ a ∈ as, ∀ b ∈ bs, ∃ r, f b a = some r) : ∃ r, sameValuesC f as bs = some r := by
  unfold sameValuesC
  split
  · exact match_some as bs h
  · exact ⟨_, rfl⟩

theorem deepEq_some {f : Nat → Nat → Check} (x y : Node) (h : ∀ a ∈ x.refs, ∀ b ∈ y.refs, ∃ r, f a b = some r)
    (h' : ∀ a ∈ x.refs, ∀ b ∈ y.refs, ∃ r, f b a = some r) : ∃ r, deepEq f x y = some r := by
  cases x <;> cases y <;> try exact ⟨_, rfl⟩
  · simp only [deepEq]; split
    · exact h _ (.head _) _ (.head _)
    · exact ⟨_, rfl⟩
  · simp only [deepEq]; split
    · exact zip_some _ _ h
    · exact ⟨_, rfl⟩
  · simp only [deepEq]; split
    · obtain ⟨r, hr⟩ := h _ (.head _) _ (.head _)
      rw [hr]
      cases r
      · exact ⟨_, rfl⟩
      · exact h _ (.tail _ (.head _)) _ (.tail _ (.head _))
    · exact ⟨_, rfl⟩
  · simp only [deepEq]; split
    · exact zip_some _ _ h
    · exact ⟨_, rfl⟩
  · exact same_some _ _ h'
  · exact same_some _ _ h'
  · exact same_some _ _ h'
  · exact h _ (.head _) _ (.head _)

theorem deepEq_total {T : Types} {g : Option (List Nat)} (x y : Node)
    (h : ∀ a ∈ x.refs, ∀ b ∈ y.refs, (∃ n r, equals T n g a b = some r) ∧ ∃ n r, equals T n g b a = some r) :
    ∃ n r, deepEq (equals T n g) x y = some r := by
  have hm : ∀ {n m a b : Nat}, n ≤ m → (∃ r, equals T n g a b = some r) → ∃ r, equals T m g a b = some r := by
    rintro n m a b hnm ⟨r, hr⟩
    exact ⟨r, eq_mono hnm g a b r hr⟩
  obtain ⟨n, hn⟩ := bound (P := fun n a => ∀ b ∈ y.refs, (∃ r, equals T n g a b = some r) ∧ ∃ r, equals T n g b a = some r)
    (fun hnm h b hb => ⟨hm hnm (h b hb).1, hm hnm (h b hb).2⟩) x.refs fun a ha =>
      bound (P := fun n b => (∃ r, equals T n g a b = some r) ∧ ∃ r, equals T n g b a = some r)
        (fun hnm h => ⟨hm hnm h.1, hm hnm h.2⟩) y.refs fun b hb => by
          obtain ⟨⟨n, h1⟩, m, h2⟩ := h a ha b hb
          exact ⟨max n m, hm (Nat.le_max_left n m) h1, hm (Nat.le_max_right n m) h2⟩
  obtain ⟨r, hr⟩ := deepEq_some (f := equals T n g) x y (fun a ha b hb => (hn a ha b hb).1) fun a ha b hb => (hn a ha b hb).2
  exact ⟨n, r, hr⟩

/-- The type can be compared with all others. -/
def Fine (T : Types) (r : Nat) (a : Nat) : Prop := rank T Node.refs a ≤ r ∧ ¬ NegatesItself T Node.refs a

theorem Fine.ref {T : Types} {r t u : Nat} {x : Node} (h : Fine T r t) (ht : T[t]? = some x) (hu : u ∈ x.refs) : Fine T r u :=
  ⟨Nat.le_trans (rank_le ht hu) h.1, fun hn => h.2 (hn.ref ht hu)⟩

theorem Fine.not {T : Types} {r t u : Nat} (h : Fine T r t) (ht : T[t]? = some (.not u)) : ∃ r', r = r' + 1 ∧ Fine T r' u := by
  have hlt := Nat.lt_of_lt_of_le (rank_lt (refs := Node.refs) ht (.head _) fun hre => h.2 ⟨t, u, .here t, ht, hre⟩) h.1
  match r, hlt, h with
  | r + 1, hlt, h => exact ⟨r, rfl, Nat.le_of_lt_succ hlt, fun hn => h.2 (hn.ref ht (.head _))⟩

theorem eq_seen {T : Types} (hT : Closed T) {r : Nat}
    (hr : ∀ r' a b x y, r = r' + 1 → T[a]? = some x → T[b]? = some y → Fine T r' a ∨ Fine T r' b → ∃ n c, equals T n none a b = some c) :
    (k : Nat) → (g : Option (List Nat)) → (a b : Nat) → (x y : Node) → T[a]? = some x → T[b]? = some y → Fine T r a ∨ Fine T r b →
    (g.getD []).Nodup → (∀ c ∈ g.getD [], c < T.length) → T.length ≤ k + (g.getD []).length → ∃ n c, equals T n g a b = some c
  | k, g, a, b, x, y, ha, hb, hf, hnd, hlt, hk => by
    cases hd : x.isDeep
    · by_cases he : g.isSome = true ∧ a = b
      · exact ⟨1, true, by rw [eq_flat ha hb hd, if_pos he]⟩
      · cases x with
        | leaf s =>
          cases y with
          | leaf t => exact ⟨1, _, by rw [eq_flat ha hb hd, if_neg he]; rfl⟩
          | _ => exact ⟨1, _, by rw [eq_flat ha hb hd, if_neg he]; rfl⟩
        | not t =>
          cases y with
          | not u =>
            obtain ⟨x', hx'⟩ := hT.ref ha (u := t) (.head _)
            obtain ⟨y', hy'⟩ := hT.ref hb (u := u) (.head _)
            have : ∃ n c, equals T n none t u = some c := by
              rcases hf with hf | hf
              · obtain ⟨r', e, hf⟩ := hf.not ha
                exact hr r' t u x' y' e hx' hy' (.inl hf)
              · obtain ⟨r', e, hf⟩ := hf.not hb
                exact hr r' t u x' y' e hx' hy' (.inr hf)
            obtain ⟨n, c, hc⟩ := this
            exact ⟨n + 1, c, by rw [eq_flat ha hb hd, if_neg he]; exact hc⟩
          | _ => exact ⟨1, _, by rw [eq_flat ha hb hd, if_neg he]; rfl⟩
        | _ => cases hd
    · by_cases hab : a = b
      · exact ⟨1, true, by rw [eq_deep ha hb hd, if_pos hab]⟩
      · by_cases hs : a ∈ g.getD []
        · exact ⟨1, true, by rw [eq_deep ha hb hd, if_neg hab, if_pos hs]⟩
        · cases hyd : y.isDeep
          · exact ⟨1, false, by rw [eq_deep ha hb hd, if_neg hab, if_neg hs, hyd]; rfl⟩
          · have room := seen_room hnd hlt (lt_of_get ha) hs
            match k, hk with
            | 0, hk => omega
            | k + 1, hk =>
              have hnd' : (a :: g.getD []).Nodup := List.nodup_cons.2 ⟨hs, hnd⟩
              have hlt' : ∀ c ∈ a :: g.getD [], c < T.length := by
                intro c hc
                cases hc with
                | head => exact lt_of_get ha
                | tail _ hc => exact hlt c hc
              have hk' : T.length ≤ k + (a :: g.getD []).length := by simp only [List.length_cons]; omega
              obtain ⟨n, c, hc⟩ := deepEq_total (T := T) (g := some (a :: g.getD [])) x y fun u hu v hv => by
                obtain ⟨x', hx'⟩ := hT.ref ha hu
                obtain ⟨y', hy'⟩ := hT.ref hb hv
                have h1 : Fine T r u ∨ Fine T r v := hf.imp (fun h => h.ref ha hu) fun h => h.ref hb hv
                exact ⟨eq_seen hT hr k (some (a :: g.getD [])) u v x' y' hx' hy' h1 hnd' hlt' hk',
                  eq_seen hT hr k (some (a :: g.getD [])) v u y' x' hy' hx' h1.symm hnd' hlt' hk'⟩
              exact ⟨n + 1, c, by rw [eq_deep ha hb hd, if_neg hab, if_neg hs, if_pos hyd, hc]⟩

theorem eq_total {T : Types} (hT : Closed T) : (r : Nat) → (a b : Nat) → (x y : Node) → T[a]? = some x → T[b]? = some y →
    Fine T r a ∨ Fine T r b → ∃ n c, equals T n none a b = some c
  | 0, a, b, x, y, ha, hb, hf =>
    eq_seen hT (fun r' a b x y e => absurd e (by omega)) T.length none a b x y ha hb hf List.nodup_nil (fun _ h => by cases h) (Nat.le_add_right _ _)
  | r + 1, a, b, x, y, ha, hb, hf =>
    eq_seen hT (fun r' a b x y e ha hb hf => by cases e; exact eq_total hT r a b x y ha hb hf) T.length none a b x y ha hb hf List.nodup_nil
      (fun _ h => by cases h) (Nat.le_add_right _ _)

/-! ### Types that are the same are equal -/

theorem forall_flip {S : Nat → Nat → Prop} : {as bs : List Nat} → List.Forall₂ S as bs → List.Forall₂ (fun b a => S a b) bs as
  | _, _, .nil => .nil
  | _, _, .cons h t => .cons h (forall_flip t)

theorem forall_mono {α β : Type} {S S' : α → β → Prop} : {as : List α} → {bs : List β} → (∀ a ∈ as, ∀ b ∈ bs, S a b → S' a b) →
    List.Forall₂ S as bs → List.Forall₂ S' as bs
  | _, _, _, .nil => .nil
  | _, _, h, .cons h1 t => .cons (h _ (.head _) _ (.head _) h1) (forall_mono (fun a ha b hb => h a (.tail _ ha) b (.tail _ hb)) t)

theorem forall_swap {α β : Type} {S : α → β → Prop} {S' : β → α → Prop} : {as : List α} → {bs : List β} → (∀ a ∈ as, ∀ b ∈ bs, S a b → S' b a) →
    List.Forall₂ S as bs → List.Forall₂ S' bs as
  | _, _, _, .nil => .nil
  | _, _, h, .cons h1 t => .cons (h _ (.head _) _ (.head _) h1) (forall_swap (fun a ha b hb => h a (.tail _ ha) b (.tail _ hb)) t)

theorem SameNode.mono {S S' : Nat → Nat → Prop} (h : ∀ a b, S a b → S' a b) {x y : Node} (hs : SameNode S x y) : SameNode S' x y := by
  cases hs with
  | leaf e => exact .leaf e
  | arr e => exact .arr (h _ _ e)
  | tuple e => exact .tuple (forall_mono (fun a _ b _ => h a b) e)
  | map e e' => exact .map (h _ _ e) (h _ _ e')
  | struct e => exact .struct (forall_mono (fun a _ b _ hab => ⟨hab.1, hab.2.1, h _ _ hab.2.2⟩) e)
  | allOf e => exact .allOf (forall_mono (fun a _ b _ => h a b) e)
  | anyOf e => exact .anyOf (forall_mono (fun a _ b _ => h a b) e)
  | oneOf e => exact .oneOf (forall_mono (fun a _ b _ => h a b) e)
  | not e => exact .not (h _ _ e)
  | sens e => exact .sens (h _ _ e)

theorem SameNode.flip {T : Types} (hT : Closed T) {S S' : Nat → Nat → Prop} (h : ∀ a b, S a b → S' b a) {x y : Node} (hx : x ∈ T) (hy : y ∈ T)
    (hs : SameNode S x y) : SameNode S' y x := by
  cases hs with
  | leaf e => exact .leaf (plain_symm (hT.leaves _ hx) (hT.leaves _ hy) e)
  | arr e => exact .arr (h _ _ e)
  | tuple e => exact .tuple (forall_swap (fun a _ b _ => h a b) e)
  | map e e' => exact .map (h _ _ e) (h _ _ e')
  | struct e =>
    refine .struct (forall_swap (fun a ha b hb hab => ⟨wf_symm ?_ ?_ hab.1, hab.2.1.symm, h _ _ hab.2.2⟩) e)
    · exact hT.keys _ hx _ (List.mem_map.2 ⟨a, ha, rfl⟩)
    · exact hT.keys _ hy _ (List.mem_map.2 ⟨b, hb, rfl⟩)
  | allOf e => exact .allOf (forall_swap (fun a _ b _ => h a b) e)
  | anyOf e => exact .anyOf (forall_swap (fun a _ b _ => h a b) e)
  | oneOf e => exact .oneOf (forall_swap (fun a _ b _ => h a b) e)
  | not e => exact .not (h _ _ e)
  | sens e => exact .sens (h _ _ e)

theorem zip_true {f : Nat → Nat → Check} {S : Nat → Nat → Prop} (h : ∀ a b r, S a b → f a b = some r → r = true) :
    {as bs : List Nat} → List.Forall₂ S as bs → (r : Bool) → zipAllC f as bs = some r → r = true
  | _, _, .nil, r, e => by cases e; rfl
  | _, _, .cons (a := a) (b := b) h1 t, r, e => by
    rw [zipAllC] at e
    cases hf : f a b with
    | none => rw [hf] at e; cases e
    | some c =>
      cases h a b c h1 hf
      rw [hf] at e
      exact zip_true h t r e

theorem match_true {f : Nat → Nat → Check} {S : Nat → Nat → Prop} (h : ∀ a b r, S a b → f a b = some r → r = true) (hs : ∀ a b, S a b → S b a) :
    {as bs : List Nat} → List.Forall₂ S as bs → (r : Bool) → matchAllC f as bs = some r → r = true
  | _, _, .nil, r, e => by cases e; rfl
  | _, _, .cons (a := a) (b := b) h1 t, r, e => by
    rw [matchAllC, takeFirstC] at e
    cases hf : f b a with
    | none => rw [hf] at e; cases e
    | some c =>
      cases h b a c (hs a b h1) hf
      rw [hf] at e
      exact match_true h hs t r e

theorem same_true {f : Nat → Nat → Check} {S : Nat → Nat → Prop} (h : ∀ a b r, S a b → f a b = some r → r = true) (hs : ∀ a b, S a b → S b a)
    {as bs : List Nat} (hf : List.Forall₂ S as bs) (r : Bool) (e : sameValuesC f as bs = some r) : r = true := by
  unfold sameValuesC at e
  rw [if_pos hf.length_eq] at e
  exact match_true h hs hf r e

theorem struct_split {S : Nat → Nat → Prop} : {fs gs : List (Val × Bool × Nat)} →
    List.Forall₂ (fun f g => eq f.1 g.1 = true ∧ f.2.1 = g.2.1 ∧ S f.2.2 g.2.2) fs gs →
    fs.map (fun f => f.2.1) = gs.map (fun f => f.2.1) ∧ zipAll (fun f f' => eq f.1 f'.1) fs gs = true ∧
      List.Forall₂ S (fs.map fun f => f.2.2) (gs.map fun f => f.2.2)
  | _, _, .nil => ⟨rfl, rfl, .nil⟩
  | _, _, .cons h t => by
    obtain ⟨h1, h2, h3⟩ := struct_split t
    exact ⟨by simp only [List.map_cons, h.2.1, h1], by simp only [zipAll, h.1, h2, Bool.and_self], .cons h.2.2 h3⟩

theorem struct_join {S : Nat → Nat → Prop} : {fs gs : List (Val × Bool × Nat)} →
    fs.map (fun f => f.2.1) = gs.map (fun f => f.2.1) → zipAll (fun f f' => eq f.1 f'.1) fs gs = true →
      List.Forall₂ S (fs.map fun f => f.2.2) (gs.map fun f => f.2.2) →
    List.Forall₂ (fun f g => eq f.1 g.1 = true ∧ f.2.1 = g.2.1 ∧ S f.2.2 g.2.2) fs gs
  | [], [], _, _, _ => .nil
  | [], _ :: _, h, _, _ => by cases h
  | _ :: _, [], h, _, _ => by cases h
  | f :: fs, g :: gs, h1, h2, h3 => by
    simp only [List.map_cons, List.cons.injEq] at h1
    simp only [zipAll, Bool.and_eq_true] at h2
    cases h3 with
    | cons h3 t => exact .cons ⟨h2.1, h1.1, h3⟩ (struct_join h1.2 h2.2 t)

theorem eq_true {T : Types} {S : Nat → Nat → Prop} (hs : ∀ a b, S a b → S b a)
    (hS : ∀ c d, S c d → ∃ x y, T[c]? = some x ∧ T[d]? = some y ∧ SameNode S x y) :
    (n : Nat) → (g : Option (List Nat)) → (a b : Nat) → (r : Bool) → S a b → equals T n g a b = some r → r = true
  | 0, g, a, b, r, h, e => by cases e
  | n + 1, g, a, b, r, h, e => by
    obtain ⟨x, y, ha, hb, hn⟩ := hS a b h
    cases hd : x.isDeep
    · rw [eq_flat ha hb hd] at e
      split at e
      · cases e; rfl
      · cases hn <;> try cases hd
        · rename_i hl; rw [flatEq, hl] at e; cases e; rfl
        · rename_i hl; exact eq_true hs hS n none _ _ r hl e
    · rw [eq_deep ha hb hd] at e
      split at e
      · cases e; rfl
      · split at e
        · cases e; rfl
        · have ih := fun u v r => eq_true hs hS n (some (a :: g.getD [])) u v r
          cases hn with
          | leaf => cases hd
          | not => cases hd
          | arr h1 => simp only [deepEq, Node.isDeep, if_true, and_self] at e; exact ih _ _ r h1 e
          | tuple h1 =>
            simp only [deepEq, Node.isDeep, if_true, h1.length_eq, and_self] at e
            exact zip_true ih h1 r e
          | map h1 h2 =>
            rename_i k v k' v' lo hi
            simp only [deepEq, Node.isDeep, if_true, and_self] at e
            cases hf : equals T n (some (a :: g.getD [])) k k' with
            | none => rw [hf] at e; cases e
            | some c =>
              cases ih _ _ c h1 hf
              rw [hf] at e
              exact ih _ _ r h2 e
          | struct h1 =>
            rename_i add fs gs
            obtain ⟨e1, e2, e3⟩ := struct_split h1
            rw [if_pos (show (Node.struct add gs).isDeep = true from rfl)] at e
            simp only [deepEq] at e
            rw [if_pos ⟨trivial, e1, e2⟩] at e
            exact zip_true ih e3 r e
          | allOf h1 => exact same_true ih hs h1 r e
          | anyOf h1 => exact same_true ih hs h1 r e
          | oneOf h1 => exact same_true ih hs h1 r e
          | sens h1 => exact ih _ _ r h1 e

theorem Same.sym {T : Types} (hT : Closed T) {a b : Nat} (h : Same T a b) :
    ∃ S : Nat → Nat → Prop, (∀ a b, S a b → S b a) ∧ S a b ∧ ∀ c d, S c d → ∃ x y, T[c]? = some x ∧ T[d]? = some y ∧ SameNode S x y := by
  obtain ⟨S, hab, hS⟩ := h
  refine ⟨fun c d => S c d ∨ S d c, fun a b h => h.symm, .inl hab, ?_⟩
  rintro c d (h | h)
  · obtain ⟨x, y, hx, hy, hn⟩ := hS c d h
    exact ⟨x, y, hx, hy, hn.mono fun _ _ => .inl⟩
  · obtain ⟨x, y, hx, hy, hn⟩ := hS d c h
    exact ⟨y, x, hy, hx, hn.flip hT (fun _ _ => .inr) (List.mem_of_getElem? hx) (List.mem_of_getElem? hy)⟩

/-! ### Types that are equal are the same, if they do not contain themselves and have no operands -/

theorem zip_sound {f : Nat → Nat → Check} {S : Nat → Nat → Prop} : (as bs : List Nat) → (∀ a ∈ as, ∀ b, b ∈ bs → f a b = some true → S a b) →
    as.length = bs.length → zipAllC f as bs = some true → List.Forall₂ S as bs
  | [], [], _, _, _ => .nil
  | [], _ :: _, _, h, _ => by cases h
  | _ :: _, [], _, h, _ => by cases h
  | a :: as, b :: bs, h, hl, e => by
    rw [zipAllC] at e
    cases hf : f a b with
    | none => rw [hf] at e; cases e
    | some c =>
      rw [hf] at e
      cases c
      · cases e
      · exact .cons (h a (.head _) b (.head _) hf) (zip_sound as bs (fun a ha b hb => h a (.tail _ ha) b (.tail _ hb)) (Nat.succ.inj hl) e)

/-- The recursion is not cut off: the type does not contain itself, and nothing in `seen` is in it. -/
structure Clear (T : Types) (seen : List Nat) (a : Nat) : Prop where
  tree : ¬ ContainsItself T a
  bare : ¬ HasOperands T a
  seen : ∀ s ∈ seen, ¬ Reach T Node.refs a s

theorem Clear.ref {T : Types} {seen : List Nat} {a u : Nat} {x : Node} (h : Clear T seen a) (ha : T[a]? = some x) (hu : u ∈ x.refs) :
    Clear T (a :: seen) u where
  tree := fun ⟨c, w, y, h1, h2⟩ => h.tree ⟨c, w, y, .step ha hu h1, h2⟩
  bare := fun ⟨c, ts, h1, h2⟩ => h.bare ⟨c, ts, .step ha hu h1, h2⟩
  seen := by
    intro s hs hr
    cases hs with
    | head => exact h.tree ⟨a, u, x, .here a, ha, hu, hr⟩
    | tail _ hs => exact h.seen s hs (.step ha hu hr)

theorem Clear.sub {T : Types} {seen seen' : List Nat} {a : Nat} (h : Clear T seen a) (hs : ∀ s ∈ seen', s ∈ seen) : Clear T seen' a :=
  ⟨h.tree, h.bare, fun s hm => h.seen s (hs s hm)⟩

theorem forall_refl {S : Nat → Nat → Prop} (h : ∀ a, S a a) : (as : List Nat) → List.Forall₂ S as as
  | [] => .nil
  | a :: as => .cons (h a) (forall_refl h as)

theorem SameNode.rfl' {T : Types} (hT : Closed T) {S : Nat → Nat → Prop} {x : Node} (hx : x ∈ T) (h : ∀ a ∈ x.refs, S a a) : SameNode S x x := by
  have hl : ∀ (as : List Nat), (∀ a ∈ as, S a a) → List.Forall₂ S as as := by
    intro as
    induction as with
    | nil => exact fun _ => .nil
    | cons a as ih => exact fun h => .cons (h a (.head _)) (ih fun a ha => h a (.tail _ ha))
  cases x with
  | leaf t => exact .leaf (plain_refl (hT.leaves t hx))
  | arr e => exact .arr (h _ (.head _))
  | tuple ts var => exact .tuple (hl _ h)
  | map k v => exact .map (h _ (.head _)) (h _ (.tail _ (.head _)))
  | struct add fs =>
    refine .struct (struct_join rfl ?_ (hl _ h))
    have hk := hT.keys _ hx
    clear h hx
    induction fs with
    | nil => rfl
    | cons f fs ih =>
      simp only [zipAll, Bool.and_eq_true]
      exact ⟨wf_refl (hk f.1 (.head _)), ih fun k hm => hk k (.tail _ hm)⟩
  | allOf ts => exact .allOf (hl _ h)
  | anyOf ts => exact .anyOf (hl _ h)
  | oneOf ts => exact .oneOf (hl _ h)
  | not t => exact .not (h _ (.head _))
  | sens t => exact .sens (h _ (.head _))

theorem eq_same {T : Types} (hT : Closed T) {a b n : Nat} {g : Option (List Nat)} (hc : Clear T (g.getD []) a) (h : equals T n g a b = some true) :
    Same T a b := by
  refine ⟨fun (c d : Nat) => (c = d ∧ ∃ x, T[c]? = some x) ∨ ∃ n g, Clear T (g.getD []) c ∧ equals T n g c d = some true, .inr ⟨n, g, hc, h⟩, ?_⟩
  have hid : ∀ c d : Nat, (c = d ∧ ∃ x, T[c]? = some x) → ∃ x y, T[c]? = some x ∧ T[d]? = some y ∧
      SameNode (fun (c d : Nat) => (c = d ∧ ∃ x, T[c]? = some x) ∨ ∃ n g, Clear T (g.getD []) c ∧ equals T n g c d = some true) x y := by
    rintro c d ⟨rfl, x, hx⟩
    exact ⟨x, x, hx, hx, SameNode.rfl' hT (List.mem_of_getElem? hx) fun a ha => .inl ⟨rfl, hT.ref hx ha⟩⟩
  rintro c d (h | ⟨n, g, hc, h⟩)
  · exact hid c d h
  · cases n with
    | zero => cases h
    | succ n =>
      cases hx : T[c]? with
      | none => rw [equals, hx] at h; cases h
      | some x =>
        cases hy : T[d]? with
        | none => rw [equals, hx, hy] at h; cases h
        | some y =>
          by_cases hcd : c = d
          · rw [← hx, ← hy]; exact hid c d ⟨hcd, x, hx⟩
          · refine ⟨x, y, rfl, rfl, ?_⟩
            cases hd : x.isDeep
            · rw [eq_flat hx hy hd, if_neg fun h => hcd h.2] at h
              cases x with
              | leaf s =>
                cases y <;> first
                  | cases h
                  | exact .leaf (Option.some.inj h)
              | not t =>
                cases y <;> first
                  | cases h
                  | exact .not (.inr ⟨n, none, (hc.ref hx (.head _)).sub (fun s hs => absurd hs List.not_mem_nil), h⟩)
              | _ => cases hd
            · have hs : c ∉ g.getD [] := fun hs => hc.seen c hs (.here c)
              rw [eq_deep hx hy hd, if_neg hcd, if_neg hs] at h
              have ih : ∀ u ∈ x.refs, ∀ v, v ∈ y.refs → equals T n (some (c :: g.getD [])) u v = some true →
                  (u = v ∧ ∃ x, T[u]? = some x) ∨ ∃ n g, Clear T (g.getD []) u ∧ equals T n g u v = some true :=
                fun u hu v _ he => .inr ⟨n, some (c :: g.getD []), hc.ref hx hu, he⟩
              split at h
              · cases x with
                | leaf s => cases hd
                | not s => cases hd
                | allOf ts => exact absurd ⟨c, ts, .here c, .inl hx⟩ hc.bare
                | anyOf ts => exact absurd ⟨c, ts, .here c, .inr (.inl hx)⟩ hc.bare
                | oneOf ts => exact absurd ⟨c, ts, .here c, .inr (.inr hx)⟩ hc.bare
                | arr e lo hi =>
                  cases y <;> try (cases h)
                  simp only [deepEq] at h
                  split at h
                  · rename_i hb; obtain ⟨rfl, rfl⟩ := hb
                    exact .arr (ih _ (.head _) _ (.head _) h)
                  · cases h
                | sens e =>
                  cases y <;> try (cases h)
                  exact .sens (ih _ (.head _) _ (.head _) h)
                | tuple ts var =>
                  cases y <;> try (cases h)
                  simp only [deepEq] at h
                  split at h
                  · rename_i hb; obtain ⟨rfl, hl⟩ := hb
                    exact .tuple (zip_sound _ _ ih hl h)
                  · cases h
                | map k v lo hi =>
                  cases y <;> try (cases h)
                  rename_i k' v' lo' hi' _
                  simp only [deepEq] at h
                  split at h
                  · rename_i hb; obtain ⟨rfl, rfl⟩ := hb
                    cases hf : equals T n (some (c :: g.getD [])) k k' with
                    | none => rw [hf] at h; cases h
                    | some r =>
                      rw [hf] at h
                      cases r
                      · cases h
                      · exact .map (ih _ (.head _) _ (.head _) hf) (ih _ (.tail _ (.head _)) _ (.tail _ (.head _)) h)
                  · cases h
                | struct add fs =>
                  cases y <;> try (cases h)
                  rename_i add' gs _
                  simp only [deepEq] at h
                  split at h
                  · rename_i hb; obtain ⟨rfl, h1, h2⟩ := hb
                    refine .struct (struct_join h1 h2 (zip_sound _ _ ih ?_ h))
                    have := congrArg List.length h1
                    simpa using this
                  · cases h
              · cases h

end Verif.Types.RecEq
