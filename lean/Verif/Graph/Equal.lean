import Verif.Graph.Copy
import Verif.Value.Eq
import Batteries.Data.List.Perm
/-! # Lemmas about equality of object graphs -/
set_option autoImplicit false
set_option linter.unusedVariables false
namespace Verif.Graph

theorem geq_succ (n : Nat) (h : Heap) (seen : List Nat) (a b : Ref) : geq (n + 1) h seen a b =
    if a = b then some true
    else
      match a with
      | .atom _ => some false
      | .obj p =>
        match h[p]? with
        | none => none
        | some oa =>
          if oa.deep then
            if seen.contains p then some true
            else
              match b with
              | .atom _ => some false
              | .obj q =>
                match h[q]? with
                | none => none
                | some ob => if ob.deep then deepEq h (geq n h (p :: seen)) oa ob else some false
          else
            match oa, b with
            | .bin _ bs, .obj q =>
              match h[q]? with
              | some (.bin _ bs') => some (bs == bs')
              | some _ => some false
              | none => none
            | _, _ => some false := rfl

/-! ### Termination -/

theorem nodup_lt_length {l : List Nat} {n : Nat} (hn : l.Nodup) (hl : ∀ x ∈ l, x < n) : l.length ≤ n := by
  have := (List.subperm_of_subset hn (l₂ := List.range n) (fun x hx => List.mem_range.2 (hl x hx))).length_le
  simpa using this

theorem sliceEq_some {f : Ref → Ref → Option Bool} : ∀ {as bs : List Ref}, (∀ a ∈ as, ∀ b ∈ bs, ∃ x, f a b = some x) → ∃ x, sliceEq f as bs = some x := by
  intro as
  induction as with
  | nil => intro bs _; exact ⟨true, by cases bs <;> rfl⟩
  | cons a as ih =>
    intro bs h
    cases bs with
    | nil => exact ⟨true, rfl⟩
    | cons b bs =>
      obtain ⟨x, hx⟩ := h a (by simp) b (by simp)
      rw [sliceEq, hx]
      cases x
      · exact ⟨false, rfl⟩
      · exact ih fun a ha b hb => h a (by simp [ha]) b (by simp [hb])

theorem mapEq_some {f : Ref → Ref → Option Bool} {bs : List (BitVec 64 × Ref)} :
    ∀ {as : List (BitVec 64 × Ref)}, (∀ a ∈ as, ∀ b ∈ bs, ∃ x, f a.2 b.2 = some x) → ∃ x, mapEq f as bs = some x := by
  intro as
  induction as with
  | nil => intro _; exact ⟨true, rfl⟩
  | cons a as ih =>
    intro h
    obtain ⟨k, v⟩ := a
    rw [mapEq]
    split
    · exact ⟨_, rfl⟩
    · rename_i e he
      obtain ⟨x, hx⟩ := h (k, v) (by simp) e (List.mem_of_find?_eq_some he)
      rw [hx]
      cases x
      · exact ⟨false, rfl⟩
      · exact ih fun a ha b hb => h a (by simp [ha]) b hb

theorem entriesOf_some {h : Heap} : ∀ {es : List Nat}, (∀ e ∈ es, ∃ k v, h[e]? = some (.entry k v)) →
    ∃ as, entriesOf h es = some as ∧ ∀ a ∈ as, ∃ e ∈ es, h[e]? = some (.entry a.1 a.2) := by
  intro es
  induction es with
  | nil => intro _; exact ⟨[], rfl, by simp⟩
  | cons e es ih =>
    intro h1
    obtain ⟨k, v, hkv⟩ := h1 e (by simp)
    obtain ⟨as, has, h2⟩ := ih fun e he => h1 e (by simp [he])
    have : entryAt h e = some (k, v) := by unfold entryAt; rw [hkv]
    refine ⟨(k, v) :: as, by rw [entriesOf, this, has], ?_⟩
    intro a ha
    rcases List.mem_cons.1 ha with rfl | ha
    · exact ⟨e, by simp, hkv⟩
    · obtain ⟨e', he', h3⟩ := h2 a ha
      exact ⟨e', by simp [he'], h3⟩

theorem geq_some {h : Heap} (wf : WellFormed h) : ∀ (n : Nat) (seen : List Nat) (a b : Ref), seen.Nodup → (∀ s ∈ seen, s < h.length) →
    Exists' h a → Exists' h b → h.length + 2 ≤ n + seen.length → ∃ x, geq n h seen a b = some x := by
  intro n
  induction n with
  | zero =>
    intro seen a b hn hl _ _ hlen
    have := nodup_lt_length hn hl; omega
  | succ n ih =>
    intro seen a b hn hl ha hb hlen
    rw [geq_succ]
    split
    · exact ⟨_, rfl⟩
    cases a with
    | atom i => exact ⟨_, rfl⟩
    | obj p =>
      have hp : p < h.length := ha p rfl
      dsimp only
      rw [List.getElem?_eq_getElem hp]
      generalize hoa : h[p] = oa
      have hpa : h[p]? = some oa := by rw [List.getElem?_eq_getElem hp, hoa]
      dsimp only
      split
      · split
        · exact ⟨_, rfl⟩
        · rename_i hseen
          have hseen : p ∉ seen := by simpa using hseen
          cases b with
          | atom i => exact ⟨_, rfl⟩
          | obj q =>
            have hq : q < h.length := hb q rfl
            dsimp only
            rw [List.getElem?_eq_getElem hq]
            generalize hob : h[q] = ob
            have hpb : h[q]? = some ob := by rw [List.getElem?_eq_getElem hq, hob]
            dsimp only
            split
            · have ihc : ∀ a b, Exists' h a → Exists' h b → ∃ x, geq n h (p :: seen) a b = some x := fun a b ha hb =>
                ih (p :: seen) a b (List.nodup_cons.2 ⟨hseen, hn⟩) (by simpa [hp] using hl) ha hb (by simp; omega)
              have ca : ∀ {p : Nat} {o : Obj}, h[p]? = some o → ∀ c ∈ o.children, Exists' h c := fun {p o} e c hc q hcq =>
                wf.1 p o e q (hcq ▸ hc)
              cases oa <;> cases ob <;> try exact ⟨_, rfl⟩
              · rw [deepEq]
                split
                · exact sliceEq_some fun a ha b hb => ihc a b (ca hpa a ha) (ca hpb b hb)
                · exact ⟨_, rfl⟩
              · rw [deepEq]
                split
                · obtain ⟨as, has, h1⟩ := entriesOf_some (wf.2 p _ _ _ hpa)
                  obtain ⟨bs, hbs, h2⟩ := entriesOf_some (wf.2 q _ _ _ hpb)
                  rw [has, hbs]
                  refine mapEq_some fun a ha b hb => ?_
                  obtain ⟨e, _, he⟩ := h1 a ha
                  obtain ⟨e', _, he'⟩ := h2 b hb
                  exact ihc _ _ (ca he _ (by simp [Obj.children])) (ca he' _ (by simp [Obj.children]))
                · exact ⟨_, rfl⟩
              · rw [deepEq]
                split
                · exact ihc _ _ (ca hpa _ (by simp [Obj.children])) (ca hpb _ (by simp [Obj.children]))
                · exact ⟨_, rfl⟩
              · exact ihc _ _ (ca hpa _ (by simp [Obj.children])) (ca hpb _ (by simp [Obj.children]))
            · exact ⟨_, rfl⟩
      · cases b with
        | atom i => cases oa <;> exact ⟨_, rfl⟩
        | obj q =>
          have hq : q < h.length := hb q rfl
          cases oa <;> first | exact ⟨_, rfl⟩ | (
            dsimp only
            rw [List.getElem?_eq_getElem hq]
            cases h[q] <;> exact ⟨_, rfl⟩)

/-- More fuel does not change an answer. -/
theorem sliceEq_mono {f g : Ref → Ref → Option Bool} (hfg : ∀ a b x, f a b = some x → g a b = some x) :
    ∀ {as bs : List Ref} {x : Bool}, sliceEq f as bs = some x → sliceEq g as bs = some x := by
  intro as
  induction as with
  | nil => intro bs x h; cases bs <;> exact h
  | cons a as ih =>
    intro bs x h
    cases bs with
    | nil => exact h
    | cons b bs =>
      rw [sliceEq] at h ⊢
      match hx : f a b with
      | none => rw [hx] at h; cases h
      | some true => rw [hx] at h; rw [hfg _ _ _ hx]; exact ih h
      | some false => rw [hx] at h; rw [hfg _ _ _ hx]; exact h

theorem mapEq_mono {f g : Ref → Ref → Option Bool} (hfg : ∀ a b x, f a b = some x → g a b = some x) {bs : List (BitVec 64 × Ref)} :
    ∀ {as : List (BitVec 64 × Ref)} {x : Bool}, mapEq f as bs = some x → mapEq g as bs = some x := by
  intro as
  induction as with
  | nil => intro x h; exact h
  | cons a as ih =>
    intro x h
    obtain ⟨k, v⟩ := a
    rw [mapEq] at h ⊢
    split at h
    · exact h
    · rename_i e he
      match hx : f v e.2 with
      | none => rw [hx] at h; cases h
      | some true => rw [hx] at h; rw [hfg _ _ _ hx]; exact ih h
      | some false => rw [hx] at h; rw [hfg _ _ _ hx]; exact h

theorem geq_step {h : Heap} : ∀ (n : Nat) (seen : List Nat) (a b : Ref) (x : Bool), geq n h seen a b = some x → geq (n + 1) h seen a b = some x := by
  intro n
  induction n with
  | zero => intro seen a b x e; cases e
  | succ n ih =>
    intro seen a b x e
    rw [geq_succ] at e ⊢
    split
    · rename_i hab; rw [if_pos hab] at e; exact e
    · rename_i hab
      rw [if_neg hab] at e
      cases a with
      | atom i => exact e
      | obj p =>
        dsimp only at e ⊢
        match hp : h[p]? with
        | none => rw [hp] at e; exact e
        | some oa =>
          rw [hp] at e
          dsimp only at e ⊢
          split
          · rename_i hd
            rw [if_pos hd] at e
            split
            · rename_i hs; rw [if_pos hs] at e; exact e
            · rename_i hs
              rw [if_neg hs] at e
              cases b with
              | atom i => exact e
              | obj q =>
                dsimp only at e ⊢
                match hq : h[q]? with
                | none => rw [hq] at e; exact e
                | some ob =>
                  rw [hq] at e
                  dsimp only at e ⊢
                  split
                  · rename_i hd'
                    rw [if_pos hd'] at e
                    have ihs := fun a b x => ih (p :: seen) a b x
                    cases oa <;> cases ob <;> first
                      | exact e
                      | (rw [deepEq] at e ⊢; split at e <;> rename_i hl
                         · rw [if_pos hl]; first
                            | exact sliceEq_mono ihs e
                            | exact ihs _ _ _ e
                            | (split at e <;> first | exact mapEq_mono ihs e | cases e)
                         · rw [if_neg hl]; exact e)
                      | exact ihs _ _ _ e
                  · rename_i hd'
                    rw [if_neg hd'] at e; exact e
          · rename_i hd
            rw [if_neg hd] at e; exact e

theorem geq_mono {h : Heap} {n m : Nat} (hnm : n ≤ m) {seen : List Nat} {a b : Ref} {x : Bool} (e : geq n h seen a b = some x) :
    geq m h seen a b = some x := by
  induction hnm with
  | refl => exact e
  | step _ ih => exact geq_step _ _ _ _ _ ih

/-! ### Bisimulation -/

theorem sliceEq_true {f : Ref → Ref → Option Bool} {R : Ref → Ref → Prop} (hf : ∀ a b, R a b → f a b ≠ some false) {as bs : List Ref}
    (r : List.Forall₂ R as bs) : sliceEq f as bs ≠ some false := by
  induction r with
  | nil => simp [sliceEq]
  | @cons a b as bs h1 _ ih =>
    rw [sliceEq]
    have := hf _ _ h1
    match hx : f a b with
    | none => simp
    | some true => exact ih
    | some false => exact absurd hx this

theorem mapEq_true {f : Ref → Ref → Option Bool} {R : Ref → Ref → Prop} (hf : ∀ a b, R a b → f a b ≠ some false) {as bs : List (BitVec 64 × Ref)}
    (r : ∀ a ∈ as, ∃ b, bs.find? (fun e => a.1 == e.1) = some b ∧ R a.2 b.2) : mapEq f as bs ≠ some false := by
  induction as with
  | nil => simp [mapEq]
  | cons a as ih =>
    obtain ⟨k, v⟩ := a
    obtain ⟨b, hb, h1⟩ := r (k, v) (by simp)
    rw [mapEq]
    dsimp only at hb
    rw [hb]
    dsimp only
    have := hf _ _ h1
    match hx : f v b.2 with
    | none => simp
    | some true => exact ih fun a ha => r a (by simp [ha])
    | some false => exact absurd hx this

/-- Values that cannot be told apart are equal, or the comparison does not end. -/
theorem geq_bisim {h : Heap} {R : Ref → Ref → Prop} (hR : ∀ a b, R a b → SameStep h R a b) :
    ∀ (n : Nat) (seen : List Nat) (a b : Ref), R a b → geq n h seen a b ≠ some false := by
  intro n
  induction n with
  | zero => intro seen a b _ e; cases e
  | succ n ih =>
    intro seen a b r
    rw [geq_succ]
    split
    · simp
    · rename_i hab
      have s := hR a b r
      cases a with
      | atom i =>
        cases b with
        | atom j => simp only [SameStep] at s; subst s; exact absurd rfl hab
        | obj q => exact s.elim
      | obj p =>
        cases b with
        | atom j => exact s.elim
        | obj q =>
          dsimp only [SameStep] at s ⊢
          match hp : h[p]?, hq : h[q]? with
          | none, _ => simp
          | some oa, none =>
            dsimp only
            rw [hp, hq] at s
            cases oa <;> exact s.elim
          | some oa, some ob =>
            rw [hp, hq] at s
            dsimp only
            cases oa <;> cases ob <;> first | exact s.elim | skip
            · simp only [Obj.deep, if_true]
              split
              · simp
              · rw [deepEq, if_pos s.length_eq]
                exact sliceEq_true (ih _) s
            · simp only [Obj.deep, if_true]
              split
              · simp
              · obtain ⟨hl, as, bs, h1, h2, h3⟩ := s
                rw [deepEq, if_pos hl, h1, h2]
                exact mapEq_true (ih _) h3
            · simp only [Obj.deep, if_true]
              split
              · simp
              · obtain ⟨hk, h3⟩ := s
                rw [deepEq, if_pos (by simp [hk])]
                exact ih _ _ _ h3
            · simp only [Obj.deep, Bool.false_eq_true, if_false]
              rw [s, hq]; simp
            · simp only [Obj.deep, if_true]
              split
              · simp
              · exact ih _ _ _ s
            · exact absurd (congrArg Ref.obj s) hab

/-! ### Acyclic values -/

theorem find_corr {n : Nat} {h : Heap} {bs : List (BitVec 64 × Ref)} {ts : List (Value.Val × Value.Val)}
    (q : List.Forall₂ (fun (b : BitVec 64 × Ref) (t : Value.Val × Value.Val) => t.1 = .int b.1 ∧ tree n h b.2 = some t.2) bs ts) (k : BitVec 64) :
    (bs.find? (fun e => k == e.1) = none ∧ ts.find? (fun e => Value.eq (.int k) e.1) = none) ∨
    ∃ b t, bs.find? (fun e => k == e.1) = some b ∧ ts.find? (fun e => Value.eq (.int k) e.1) = some t ∧ t ∈ ts ∧ tree n h b.2 = some t.2 := by
  induction q with
  | nil => exact .inl ⟨rfl, rfl⟩
  | @cons b t bs ts h1 _ ih =>
    rw [List.find?_cons, List.find?_cons, h1.1]
    have : Value.eq (.int k) (.int b.1) = (k == b.1) := by rw [Value.eq]
    rw [this]
    cases hk : k == b.1
    · rcases ih with h2 | ⟨b', t', h2, h3, h4, h5⟩
      · exact .inl h2
      · exact .inr ⟨b', t', h2, h3, by simp [h4], h5⟩
    · exact .inr ⟨b, t, rfl, rfl, by simp, h1.2⟩

theorem entries_corr {n : Nat} {h : Heap} {es : List Nat} {ts : List (Value.Val × Value.Val)} (e : es.mapM (treeNode n h) = some ts) :
    ∃ as, entriesOf h es = some as ∧
      List.Forall₂ (fun (b : BitVec 64 × Ref) (t : Value.Val × Value.Val) => t.1 = .int b.1 ∧ tree n h b.2 = some t.2) as ts := by
  rw [mapM_eq_some] at e
  induction e with
  | nil => exact ⟨[], rfl, .nil⟩
  | cons h1 _ ih =>
    obtain ⟨as, h2, h3⟩ := ih
    obtain ⟨k, v, t', h4, h5, rfl⟩ := treeNode_some h1
    refine ⟨(k, v) :: as, ?_, .cons ⟨rfl, h5⟩ h3⟩
    rw [entriesOf, h4, h2]

theorem wf_arr {ts : List Value.Val} (w : Value.WF (.arr ts)) : ∀ t ∈ ts, Value.WF t := by
  rw [Value.WF] at w; exact (Value.WFs_iff ts).1 w

theorem wf_map {ts : List (Value.Val × Value.Val)} (w : Value.WF (.map ts)) : ∀ t ∈ ts, Value.WF t.2 := by
  rw [Value.WF] at w; exact fun t ht => ((Value.WFes_iff ts).1 w.1 t ht).2

/-- On acyclic values, `equals` is equality of the trees. -/
theorem geq_tree {h : Heap} : ∀ (n : Nat) (seen : List Nat) (a b : Ref) (t t' : Value.Val), tree n h a = some t → tree n h b = some t' →
    Value.WF t → (∀ s ∈ seen, ∃ ts : Value.Val, IsTree h (.obj s) ts ∧ sizeOf t < sizeOf ts) → geq (n + 1) h seen a b = some (Value.eq t t') := by
  intro n
  induction n with
  | zero =>
    intro seen a b t t' ha hb w _
    cases a with
    | obj p => cases ha
    | atom i =>
      cases b with
      | obj p => cases hb
      | atom j =>
        cases ha; cases hb
        rw [geq_succ, Value.eq]
        by_cases hij : i = j
        · subst hij; simp
        · rw [if_neg (by simpa using hij)]
          simp [hij]
  | succ n ih =>
    intro seen a b t t' ha hb w hs
    rw [geq_succ]
    split
    · rename_i hab
      subst hab
      rw [ha] at hb; cases hb
      rw [Value.laws.refl t w]
    · rename_i hab
      cases a with
      | atom i =>
        cases ha
        cases b with
        | atom j =>
          cases hb
          rw [Value.eq]
          simp only [Ref.atom.injEq] at hab
          simp [hab]
        | obj q =>
          match hq : h[q]? with
          | none => rw [tree, hq] at hb; cases hb
          | some ob =>
            rw [tree_obj n hq] at hb
            cases ob <;> simp only [Option.map_eq_some_iff] at hb <;> first
              | (obtain ⟨_, _, rfl⟩ := hb; rfl)
              | (cases hb; rfl)
              | cases hb
      | obj p =>
        match hp : h[p]? with
        | none => rw [tree, hp] at ha; cases ha
        | some oa =>
          have ha0 := ha
          rw [tree_obj n hp] at ha
          dsimp only
          rw [hp]
          dsimp only
          -- not seen
          have hns : seen.contains p = false := by
            cases hc : seen.contains p with
            | false => rfl
            | true =>
              obtain ⟨ts, h1, h2⟩ := hs p (by simpa using hc)
              have := h1.unique ⟨_, ha0⟩
              subst this; omega
          have hs' : ∀ t2 : Value.Val, sizeOf t2 < sizeOf t → ∀ s ∈ p :: seen, ∃ ts : Value.Val, IsTree h (.obj s) ts ∧ sizeOf t2 < sizeOf ts := by
            intro t2 ht2 s hs2
            rcases List.mem_cons.1 hs2 with rfl | hs2
            · exact ⟨t, ⟨_, ha0⟩, ht2⟩
            · obtain ⟨ts, h1, h2⟩ := hs s hs2
              exact ⟨ts, h1, by omega⟩
          cases b with
          | atom j =>
            cases hb
            cases oa <;> simp only [Option.map_eq_some_iff] at ha <;> first
              | (obtain ⟨_, _, rfl⟩ := ha; simp only [Obj.deep, if_true, hns, Bool.false_eq_true, if_false]; rfl)
              | (cases ha; rfl)
              | cases ha
          | obj q =>
            match hq : h[q]? with
            | none => rw [tree, hq] at hb; cases hb
            | some ob =>
              rw [tree_obj n hq] at hb
              dsimp only
              rw [hq]
              cases oa with
              | native i => cases ha
              | bin f bs =>
                cases ha
                simp only [Obj.deep, Bool.false_eq_true, if_false]
                rw [hq]
                cases ob <;> simp only [Option.map_eq_some_iff] at hb <;> first
                  | (obtain ⟨_, _, rfl⟩ := hb; rfl)
                  | (cases hb; rfl)
                  | (cases hb; rw [Value.eq])
                  | (cases hb; done)
              | arr f es =>
                simp only [Option.map_eq_some_iff] at ha
                obtain ⟨ts, ha, rfl⟩ := ha
                simp only [Obj.deep, if_true, hns, Bool.false_eq_true, if_false]
                cases ob with
                | arr f' es' =>
                  simp only [Option.map_eq_some_iff] at hb
                  obtain ⟨ts', hb, rfl⟩ := hb
                  rw [mapM_eq_some] at ha hb
                  simp only [if_true, deepEq, Value.eq]
                  have hsz : ∀ t ∈ ts, sizeOf t < sizeOf (Value.Val.arr ts) := by
                    intro t ht
                    have := List.sizeOf_lt_of_mem ht
                    simp; omega
                  have hw := wf_arr w
                  have key : ∀ {es es' : List Ref} {ts ts' : List Value.Val}, List.Forall₂ (fun a b => tree n h a = some b) es ts →
                      List.Forall₂ (fun a b => tree n h a = some b) es' ts' → (∀ t ∈ ts, Value.WF t) →
                      (∀ t ∈ ts, ∀ s ∈ p :: seen, ∃ t1 : Value.Val, IsTree h (.obj s) t1 ∧ sizeOf t < sizeOf t1) →
                      (if es.length = es'.length then sliceEq (geq (n + 1) h (p :: seen)) es es' else some false) = some (Value.eqSlice ts ts') := by
                    intro es es' ts ts' h1
                    induction h1 generalizing es' ts' with
                    | nil => intro h2 _ _; cases h2 <;> simp [sliceEq, Value.eqSlice]
                    | @cons a t es ts h1 _ ih2 =>
                      intro h2 hw hz
                      cases h2 with
                      | nil => simp [Value.eqSlice]
                      | @cons a' t' es' ts' h3 h4 =>
                        have := ih2 h4 (fun t ht => hw t (by simp [ht])) (fun t ht => hz t (by simp [ht]))
                        simp only [List.length_cons, Nat.add_right_cancel_iff, sliceEq, Value.eqSlice]
                        rw [ih (p :: seen) a a' t t' h1 h3 (hw t (by simp)) (hz t (by simp))]
                        cases hx : Value.eq t t' with
                        | true => simpa using this
                        | false => simp
                  exact key ha hb hw fun t ht => hs' t (hsz t ht)
                | bin f' bs' => cases hb; rfl
                | native i => cases hb
                | _ =>
                  simp only [Option.map_eq_some_iff] at hb
                  obtain ⟨_, _, rfl⟩ := hb; rfl
              | map f tl es =>
                simp only [Option.map_eq_some_iff] at ha
                obtain ⟨ts, ha, rfl⟩ := ha
                simp only [Obj.deep, if_true, hns, Bool.false_eq_true, if_false]
                cases ob with
                | map f' tl' es' =>
                  simp only [Option.map_eq_some_iff] at hb
                  obtain ⟨ts', hb, rfl⟩ := hb
                  have hl1 : es.length = ts.length := (mapM_eq_some.1 ha).length_eq
                  have hl2 : es'.length = ts'.length := (mapM_eq_some.1 hb).length_eq
                  obtain ⟨as, h1, h2⟩ := entries_corr ha
                  obtain ⟨bs, h3, h4⟩ := entries_corr hb
                  simp only [if_true, deepEq, Value.eq, h1, h3, hl1, hl2]
                  have hsz : ∀ t ∈ ts, sizeOf t.2 < sizeOf (Value.Val.map ts) := by
                    intro t ht
                    have h5 := List.sizeOf_lt_of_mem ht
                    have h6 : sizeOf t.2 < sizeOf t := by cases t; simp; omega
                    simp; omega
                  have hw := wf_map w
                  have hz : ∀ t ∈ ts, ∀ s ∈ p :: seen, ∃ ts : Value.Val, IsTree h (.obj s) ts ∧ sizeOf t.2 < sizeOf ts := fun t ht => hs' t.2 (hsz t ht)
                  by_cases hl : ts.length = ts'.length
                  · simp only [hl, if_true, beq_self_eq_true, Bool.true_and]
                    clear ha hb hl hl1 hl2 h1 h3 hsz hp ha0 hs' hs
                    clear w
                    induction h2 with
                    | nil => simp [mapEq, Value.eqMap]
                    | @cons a t as ts h1 _ ih2 =>
                      obtain ⟨k, v⟩ := a
                      obtain ⟨tk, tv⟩ := t
                      obtain ⟨h5, h6⟩ := h1
                      dsimp only at h5 h6
                      subst h5
                      have := ih2 (fun t ht => hw t (by simp [ht])) (fun t ht => hz t (by simp [ht]))
                      rw [mapEq, Value.eqMap]
                      rcases find_corr h4 k with ⟨h7, h8⟩ | ⟨b, t, h7, h8, _, h9⟩
                      · rw [h7, h8]; rfl
                      · rw [h7, h8]
                        dsimp only
                        rw [ih (p :: seen) v b.2 tv t.2 h6 h9 (hw _ (List.mem_cons_self ..)) (hz _ (List.mem_cons_self ..))]
                        cases hx : Value.eq tv t.2 with
                        | true => simpa using this
                        | false => simp
                  · simp [hl]
                | bin f' bs' => cases hb; rfl
                | native i => cases hb
                | _ =>
                  simp only [Option.map_eq_some_iff] at hb
                  obtain ⟨_, _, rfl⟩ := hb; rfl
              | entry k v =>
                simp only [Option.map_eq_some_iff] at ha
                obtain ⟨t, ha, rfl⟩ := ha
                simp only [Obj.deep, if_true, hns, Bool.false_eq_true, if_false]
                cases ob with
                | entry k' v' =>
                  simp only [Option.map_eq_some_iff] at hb
                  obtain ⟨t', hb, rfl⟩ := hb
                  simp only [if_true, deepEq, Value.eq]
                  rw [Value.WF] at w
                  rw [ih (p :: seen) v v' t t' ha hb w.2 (hs' t (by simp; omega))]
                  cases k == k' <;> simp
                | bin f' bs' => cases hb; rfl
                | native i => cases hb
                | _ =>
                  simp only [Option.map_eq_some_iff] at hb
                  obtain ⟨_, _, rfl⟩ := hb; rfl
              | sens v =>
                simp only [Option.map_eq_some_iff] at ha
                obtain ⟨t, ha, rfl⟩ := ha
                simp only [Obj.deep, if_true, hns, Bool.false_eq_true, if_false]
                cases ob with
                | sens v' =>
                  simp only [Option.map_eq_some_iff] at hb
                  obtain ⟨t', hb, rfl⟩ := hb
                  simp only [if_true, deepEq, Value.eq]
                  rw [Value.WF] at w
                  rw [ih (p :: seen) v v' t t' ha hb w (hs' t (by simp))]
                | bin f' bs' => cases hb; rfl
                | native i => cases hb
                | _ =>
                  simp only [Option.map_eq_some_iff] at hb
                  obtain ⟨_, _, rfl⟩ := hb; rfl

end Verif.Graph
