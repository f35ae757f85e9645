import Verif.Graph.Freeze
import Mathlib.Data.List.Forall2
/-! # Lemmas about frozen and thawed copies -/
set_option autoImplicit false
set_option linter.unusedVariables false
namespace Verif.Graph

/-- New objects only. -/
abbrev Ext (h h' : Heap) : Prop := h <+: h'

theorem Ext.get {h h' : Heap} (x : Ext h h') {p : Nat} {o : Obj} (e : h[p]? = some o) : h'[p]? = some o := by
  obtain ⟨t, rfl⟩ := x
  rw [List.getElem?_append_left (List.getElem?_eq_some_iff.1 e).1]; exact e

theorem Ext.alloc (h : Heap) (o : Obj) : Ext h (h ++ [o]) := List.prefix_append _ _
theorem Ext.rfl' (h : Heap) : Ext h h := List.prefix_rfl
theorem get_alloc (h : Heap) (o : Obj) : (h ++ [o])[h.length]? = some o := by
  rw [List.getElem?_append_right (Nat.le_refl _)]; simp

theorem Ext.entry {h h' : Heap} (x : Ext h h') {e : Nat} {kv : BitVec 64 × Ref} (he : entryAt h e = some kv) :
    entryAt h' e = some kv := by
  unfold Graph.entryAt at he ⊢
  split at he
  · rename_i k v hp; rw [x.get hp]; exact he
  · cases he

theorem Ext.done {h h' : Heap} (x : Ext h h') {r : Ref} (d : Done h r) : Done h' r := by
  induction d with
  | atom i => exact .atom i
  | flag hp hf => exact .flag (x.get hp) hf
  | wrap hp hw _ ih => exact .wrap (x.get hp) hw ih

theorem mapM_some_imp {α β : Type} {f g : α → Option β} {l : List α} {bs : List β} (hfg : ∀ a ∈ l, ∀ b, f a = some b → g a = some b)
    (h : l.mapM f = some bs) : l.mapM g = some bs := by
  induction l generalizing bs with
  | nil => simpa using h
  | cons a l ih =>
    rw [List.mapM_cons] at h ⊢
    match ha : f a with
    | none => rw [ha] at h; cases h
    | some b =>
      rw [ha] at h
      match hl : l.mapM f with
      | none => rw [hl] at h; cases h
      | some bs' =>
        rw [hl] at h
        rw [hfg a (by simp) b ha, ih (fun a' h' => hfg a' (by simp [h'])) hl]
        exact h

theorem mapM_eq_some {α β : Type} {f : α → Option β} {l : List α} {bs : List β} :
    l.mapM f = some bs ↔ List.Forall₂ (fun a b => f a = some b) l bs := by
  induction l generalizing bs with
  | nil =>
    cases bs <;> simp
  | cons a l ih =>
    rw [List.mapM_cons]
    constructor
    · intro h
      match ha : f a with
      | none => rw [ha] at h; cases h
      | some b =>
        rw [ha] at h
        match hl : l.mapM f with
        | none => rw [hl] at h; cases h
        | some bs' =>
          rw [hl] at h
          cases h
          exact .cons ha (ih.1 hl)
    · intro h
      cases h with
      | cons h1 h2 => rw [h1, ih.2 h2]; rfl

theorem Ext.tr {h h' : Heap} (x : Ext h h') {n : Nat} {r : Ref} {t : Value.Val} (e : tree n h r = some t) :
    tree n h' r = some t := by
  induction n generalizing r t with
  | zero =>
    cases r with
    | atom i => exact e
    | obj p => cases e
  | succ n ih =>
    cases r with
    | atom i => exact e
    | obj p =>
      unfold Graph.tree at e ⊢
      match hp : h[p]? with
      | none => rw [hp] at e; cases e
      | some o =>
        rw [hp] at e; rw [x.get hp]
        cases o with
        | arr f es =>
          simp only [Option.map_eq_some_iff] at e ⊢
          obtain ⟨bs, e, rfl⟩ := e
          exact ⟨bs, mapM_some_imp (fun a _ b => ih) e, rfl⟩
        | map f tl es =>
          simp only [Option.map_eq_some_iff] at e ⊢
          obtain ⟨bs, e, rfl⟩ := e
          refine ⟨bs, mapM_some_imp (fun a _ b hb => ?_) e, rfl⟩
          match ha : entryAt h a with
          | none => rw [ha] at hb; cases hb
          | some (k, v) =>
            rw [ha] at hb
            rw [x.entry ha]
            simp only [Option.map_eq_some_iff] at hb ⊢
            obtain ⟨t, ht, rfl⟩ := hb
            exact ⟨t, ih ht, rfl⟩
        | entry k v =>
          simp only [Option.map_eq_some_iff] at e ⊢
          obtain ⟨bs, e, rfl⟩ := e
          exact ⟨bs, ih e, rfl⟩
        | sens v =>
          simp only [Option.map_eq_some_iff] at e ⊢
          obtain ⟨bs, e, rfl⟩ := e
          exact ⟨bs, ih e, rfl⟩
        | bin f bs => exact e
        | native i => cases e

theorem tree_step (n : Nat) {h : Heap} {r : Ref} {t : Value.Val} (e : tree n h r = some t) : tree (n + 1) h r = some t := by
  induction n generalizing r t with
  | zero =>
    cases r with
    | atom i => exact e
    | obj p => cases e
  | succ n ih =>
    cases r with
    | atom i => exact e
    | obj p =>
      rw [Graph.tree] at e ⊢
      match hp : h[p]? with
      | none => rw [hp] at e; cases e
      | some o =>
        rw [hp] at e
        cases o with
        | arr f es =>
          simp only [Option.map_eq_some_iff] at e ⊢
          obtain ⟨bs, e, rfl⟩ := e
          exact ⟨bs, mapM_some_imp (fun a _ b => ih) e, rfl⟩
        | map f tl es =>
          simp only [Option.map_eq_some_iff] at e ⊢
          obtain ⟨bs, e, rfl⟩ := e
          refine ⟨bs, mapM_some_imp (fun a _ b hb => ?_) e, rfl⟩
          match ha : entryAt h a with
          | none => rw [ha] at hb; cases hb
          | some (k, v) =>
            rw [ha] at hb
            simp only [Option.map_eq_some_iff] at hb ⊢
            obtain ⟨t, ht, rfl⟩ := hb
            exact ⟨t, ih ht, rfl⟩
        | entry k v =>
          simp only [Option.map_eq_some_iff] at e ⊢
          obtain ⟨bs, e, rfl⟩ := e
          exact ⟨bs, ih e, rfl⟩
        | sens v =>
          simp only [Option.map_eq_some_iff] at e ⊢
          obtain ⟨bs, e, rfl⟩ := e
          exact ⟨bs, ih e, rfl⟩
        | bin f bs => exact e
        | native i => cases e

theorem tree_mono {n m : Nat} (hnm : n ≤ m) {h : Heap} {r : Ref} {t : Value.Val} (e : tree n h r = some t) :
    tree m h r = some t := by
  induction hnm with
  | refl => exact e
  | step _ ih => exact tree_step _ ih

theorem IsTree.unique {h : Heap} {r : Ref} {t t' : Value.Val} (a : IsTree h r t) (b : IsTree h r t') : t = t' := by
  obtain ⟨n, e⟩ := a
  obtain ⟨m, e'⟩ := b
  have h1 := tree_mono (Nat.le_max_left n m) e
  have h2 := tree_mono (Nat.le_max_right n m) e'
  rw [h1] at h2; cases h2; rfl

theorem forall₂_right {α β : Type} {P : β → Prop} {l : List α} {bs : List β} (q : List.Forall₂ (fun _ b => P b) l bs) {b : β}
    (hb : b ∈ bs) : P b := by
  induction q with
  | nil => cases hb
  | cons d _ ih =>
    rcases List.mem_cons.1 hb with rfl | hb
    · exact d
    · exact ih hb

/-! ### mapEach -/

/-- If each call returns, the loop returns. -/
theorem mapEach_total {α β : Type} {f : α → M Heap β} {Q : α → β → Heap → Prop} {h0 : Heap}
    (qmono : ∀ a b h h', Ext h h' → Q a b h → Q a b h') (l : List α)
    (hf : ∀ a ∈ l, ∀ h1, Ext h0 h1 → ∃ b h2, f a h1 = .ok b h2 ∧ Ext h1 h2 ∧ Q a b h2) {h : Heap} (x : Ext h0 h) :
    ∃ bs h', mapEach f l h = .ok bs h' ∧ Ext h h' ∧ List.Forall₂ (fun a b => Q a b h') l bs := by
  induction l generalizing h with
  | nil => exact ⟨[], h, rfl, List.prefix_rfl, .nil⟩
  | cons a l ih =>
    obtain ⟨b, h2, e, x2, q⟩ := hf a (by simp) h x
    obtain ⟨bs, h3, e3, x3, q3⟩ := ih (fun a' ha' => hf a' (by simp [ha'])) (x.trans x2)
    refine ⟨b :: bs, h3, ?_, x2.trans x3, .cons (qmono _ _ _ _ x3 q) q3⟩
    show (f a >>= fun b => mapEach f l >>= fun bs => pure (b :: bs)) h = _
    rw [M.bind_ok e, M.bind_ok e3]
    rfl

/-- What is true when the loop returns or panics. -/
theorem mapEach_post {α β : Type} {f : α → M Heap β} {R : Heap → Heap → Prop} {Q : α → β → Heap → Prop}
    (rrefl : ∀ h, R h h) (rtrans : ∀ a b c, R a b → R b c → R a c)
    (qmono : ∀ a b h h', R h h' → Q a b h → Q a b h') (l : List α) {h0 : Heap}
    (hok : ∀ a ∈ l, ∀ h1 b h2, R h0 h1 → f a h1 = .ok b h2 → R h1 h2 ∧ Q a b h2)
    (hpanic : ∀ a ∈ l, ∀ h1 h2, R h0 h1 → f a h1 = .panic h2 → R h1 h2) {h : Heap} (x : R h0 h) :
    (∀ bs h', mapEach f l h = .ok bs h' → R h h' ∧ List.Forall₂ (fun a b => Q a b h') l bs) ∧
    (∀ h', mapEach f l h = .panic h' → R h h') := by
  induction l generalizing h with
  | nil =>
    constructor
    · intro bs h' e; cases e; exact ⟨rrefl _, .nil⟩
    · intro h' e; cases e
  | cons a l ih =>
    constructor
    · intro bs h' e
      obtain ⟨b, h1, e1, e2⟩ := bind_eq_ok e
      obtain ⟨bs', h2, e3, e4⟩ := bind_eq_ok e2
      cases e4
      obtain ⟨r1, q1⟩ := hok a (by simp) h b h1 x e1
      obtain ⟨r2, q2⟩ := (ih (fun a' ha' => hok a' (by simp [ha'])) (fun a' ha' => hpanic a' (by simp [ha']))
        (rtrans _ _ _ x r1)).1 _ _ e3
      exact ⟨rtrans _ _ _ r1 r2, .cons (qmono _ _ _ _ r2 q1) q2⟩
    · intro h' e
      rcases bind_eq_panic e with e | ⟨b, h1, e1, e2⟩
      · exact hpanic a (by simp) h h' x e
      · obtain ⟨r1, q1⟩ := hok a (by simp) h b h1 x e1
        have ih' := ih (fun a' ha' => hok a' (by simp [ha'])) (fun a' ha' => hpanic a' (by simp [ha']))
          (rtrans _ _ _ x r1)
        rcases bind_eq_panic e2 with e | ⟨bs', h2, e3, e4⟩
        · exact rtrans _ _ _ r1 (ih'.2 _ e)
        · cases e4

theorem loadEntry_run {h : Heap} {e : Nat} {kv : BitVec 64 × Ref} (he : entryAt h e = some kv) : loadEntry e h = .ok kv h := by
  unfold entryAt at he
  split at he
  · rename_i k v hp
    cases he
    rw [loadEntry, M.bind_ok (load_run hp)]; rfl
  · cases he

theorem loadEntry_ok {h h' : Heap} {e : Nat} {kv : BitVec 64 × Ref} (hr : loadEntry e h = .ok kv h') :
    h' = h ∧ h[e]? = some (.entry kv.1 kv.2) := by
  match he : h[e]? with
  | none => rw [loadEntry, M.bind_panic (load_run_none he)] at hr; cases hr
  | some o =>
    rw [loadEntry, M.bind_ok (load_run he)] at hr
    cases o <;> first | (cases hr; exact ⟨rfl, rfl⟩) | cases hr

theorem loadEntry_panic {h h' : Heap} {e : Nat} (hr : loadEntry e h = .panic h') : h' = h := by
  match he : h[e]? with
  | none => rw [loadEntry, M.bind_panic (load_run_none he)] at hr; cases hr; rfl
  | some o =>
    rw [loadEntry, M.bind_ok (load_run he)] at hr
    cases o <;> cases hr <;> rfl

/-! ### isFrozen -/

theorem isFrozen_pure (n : Nat) {r : Ref} {h h' : Heap} {b : Bool} (e : isFrozen n r h = .ok b h') :
    h' = h ∧ (b = true ↔ Done h r) := by
  induction n generalizing r b with
  | zero =>
    cases r with
    | atom i => cases e; exact ⟨rfl, by simp [Done.atom]⟩
    | obj p => cases e
  | succ n ih =>
    cases r with
    | atom i => cases e; exact ⟨rfl, by simp [Done.atom]⟩
    | obj p =>
      match hp : h[p]? with
      | none => rw [isFrozen, M.bind_panic (load_run_none hp)] at e; cases e
      | some o =>
        rw [isFrozen, M.bind_ok (load_run hp)] at e
        have flagcase : ∀ f, o.flag = some f → o.wrapped = none → (f = true ↔ Done h (.obj p)) := by
          intro f hf hw
          constructor
          · rintro rfl; exact .flag hp hf
          · intro d
            cases d with
            | flag hp' hf' => rw [hp] at hp'; cases hp'; rw [hf] at hf'; cases hf'; rfl
            | wrap hp' hw' _ => rw [hp] at hp'; cases hp'; rw [hw] at hw'; cases hw'
        have wrapcase : ∀ v, o.wrapped = some v → o.flag = none → (Done h v ↔ Done h (.obj p)) := by
          intro v hv hf
          constructor
          · intro d; exact .wrap hp hv d
          · intro d
            cases d with
            | flag hp' hf' => rw [hp] at hp'; cases hp'; rw [hf] at hf'; cases hf'
            | wrap hp' hw' d => rw [hp] at hp'; cases hp'; rw [hv] at hw'; cases hw'; exact d
        cases o with
        | arr f es => cases e; exact ⟨rfl, flagcase _ rfl rfl⟩
        | map f tl es => cases e; exact ⟨rfl, flagcase _ rfl rfl⟩
        | bin f es => cases e; exact ⟨rfl, flagcase _ rfl rfl⟩
        | entry k v =>
          obtain ⟨rfl, i⟩ := ih e
          exact ⟨rfl, i.trans (wrapcase v rfl rfl)⟩
        | sens v =>
          obtain ⟨rfl, i⟩ := ih e
          exact ⟨rfl, i.trans (wrapcase v rfl rfl)⟩
        | native i =>
          cases e
          refine ⟨rfl, ?_⟩
          constructor
          · intro c; cases c
          · intro d
            cases d with
            | flag hp' hf' => rw [hp] at hp'; cases hp'; cases hf'
            | wrap hp' hw' d => rw [hp] at hp'; cases hp'; cases hw'

theorem isFrozen_tree (n : Nat) {r : Ref} {h : Heap} {t : Value.Val} (e : tree n h r = some t) :
    ∃ b, isFrozen n r h = .ok b h := by
  induction n generalizing r t with
  | zero =>
    cases r with
    | atom i => exact ⟨true, rfl⟩
    | obj p => cases e
  | succ n ih =>
    cases r with
    | atom i => exact ⟨true, rfl⟩
    | obj p =>
      rw [Graph.tree] at e
      match hp : h[p]? with
      | none => rw [hp] at e; cases e
      | some o =>
        rw [hp] at e
        rw [isFrozen, M.bind_ok (load_run hp)]
        cases o with
        | arr f es => exact ⟨f, rfl⟩
        | map f tl es => exact ⟨f, rfl⟩
        | bin f es => exact ⟨f, rfl⟩
        | entry k v =>
          simp only [Option.map_eq_some_iff] at e
          obtain ⟨bs, e, rfl⟩ := e
          exact ih e
        | sens v =>
          simp only [Option.map_eq_some_iff] at e
          obtain ⟨bs, e, rfl⟩ := e
          exact ih e
        | native i => cases e

/-! ### FrozenCopy -/

/-- New objects only, and the new frozen ones contain frozen things. -/
structure Cp (h h' : Heap) : Prop where
  ext : Ext h h'
  deep : ∀ (p : Nat) (o : Obj), h.length ≤ p → h'[p]? = some o → o.flag = some true → ∀ c ∈ o.children, Done h' c

theorem Cp.refl (h : Heap) : Cp h h :=
  ⟨List.prefix_rfl, fun p o hp e => absurd (List.getElem?_eq_some_iff.1 e).1 (by omega)⟩

theorem Cp.trans {a b c : Heap} (x : Cp a b) (y : Cp b c) : Cp a c := by
  refine ⟨x.ext.trans y.ext, fun p o hp e hf ch hc => ?_⟩
  by_cases hb : b.length ≤ p
  · exact y.deep p o hb e hf ch hc
  · have hlt : p < b.length := by omega
    have : b[p]? = some o := by
      have e2 := List.getElem?_eq_getElem hlt
      have := y.ext.get e2
      rw [e] at this; cases this; exact e2
    exact y.ext.done (x.deep p o hp this hf ch hc)

theorem Cp.localDeep {h h' : Heap} (x : Cp h h') (hd : LocalDeep h) : LocalDeep h' := by
  intro p o e hf c hc
  by_cases hb : h.length ≤ p
  · exact x.deep p o hb e hf c hc
  · have hlt : p < h.length := by omega
    have e2 := List.getElem?_eq_getElem hlt
    have := x.ext.get e2
    rw [e] at this; cases this
    exact x.ext.done (hd p _ e2 hf c hc)

theorem Cp.alloc {h : Heap} {o : Obj} (hd : o.flag = some true → ∀ c ∈ o.children, Done h c) : Cp h (h ++ [o]) := by
  refine ⟨Ext.alloc h o, fun p o' hp e hf c hc => ?_⟩
  have hl := (List.getElem?_eq_some_iff.1 e).1
  rw [List.length_append] at hl
  have : p = h.length := by simp at hl; omega
  subst this
  rw [get_alloc] at e; cases e
  exact (Ext.alloc h o).done (hd hf c hc)

/-- What `FrozenCopy` does when it returns, and when it panics. -/
theorem frozenCopy_spec (n : Nat) {r : Ref} {h : Heap} :
    (∀ r' h', frozenCopy n r h = .ok r' h' → Cp h h' ∧ Done h' r' ∧ (Done h r → r' = r ∧ h' = h) ∧
      (∀ p, r = .obj p → IsMutable h p → ∃ q, r' = .obj q ∧ h.length ≤ q)) ∧
    (∀ h', frozenCopy n r h = .panic h' → Cp h h') := by
  induction n generalizing r h with
  | zero =>
    cases r with
    | atom i =>
      refine ⟨fun r' h' e => ?_, fun h' e => ?_⟩ <;> cases e
      exact ⟨Cp.refl h, .atom i, fun _ => ⟨rfl, rfl⟩, fun p e => by cases e⟩
    | obj p => exact ⟨fun r' h' e => (by cases e), fun h' e => (by cases e)⟩
  | succ n ih =>
    cases r with
    | atom i =>
      refine ⟨fun r' h' e => ?_, fun h' e => ?_⟩ <;> cases e
      exact ⟨Cp.refl h, .atom i, fun _ => ⟨rfl, rfl⟩, fun p e => by cases e⟩
    | obj p =>
      match hp : h[p]? with
      | none =>
        rw [frozenCopy, M.bind_panic (load_run_none hp)]
        refine ⟨fun r' h' e => (by cases e), fun h' e => (by cases e; exact Cp.refl h)⟩
      | some o =>
        rw [frozenCopy, M.bind_ok (load_run hp)]
        -- the object itself is returned
        have same : o.flag = some true → ∀ r' h', Res.ok (Ref.obj p) h = Res.ok r' h' →
            Cp h h' ∧ Done h' r' ∧ (Done h (.obj p) → r' = .obj p ∧ h' = h) ∧
            (∀ p', Ref.obj p = .obj p' → IsMutable h p' → ∃ q, r' = .obj q ∧ h.length ≤ q) := by
          rintro hf r' h' ⟨⟩
          refine ⟨Cp.refl h, .flag hp hf, fun _ => ⟨rfl, rfl⟩, ?_⟩
          rintro _ ⟨⟩ ⟨o', ho', hf'⟩
          rw [hp] at ho'; cases ho'; rw [hf] at hf'; cases hf'
        have notdone : o.flag = some false → o.wrapped = none → ¬ Done h (.obj p) := by
          intro hf hw d
          cases d with
          | flag hp' hf' => rw [hp] at hp'; cases hp'; rw [hf] at hf'; cases hf'
          | wrap hp' hw' _ => rw [hp] at hp'; cases hp'; rw [hw] at hw'; cases hw'
        -- a new object is returned
        have fresh : ∀ (h1 : Heap) (o' : Obj), Cp h h1 → o.flag = some false → o.wrapped = none → o'.flag = some true →
            (∀ c ∈ o'.children, Done h1 c) → ∀ r' h', Res.ok (Ref.obj h1.length) (h1 ++ [o']) = Res.ok r' h' →
            Cp h h' ∧ Done h' r' ∧ (Done h (.obj p) → r' = .obj p ∧ h' = h) ∧
            (∀ p', Ref.obj p = .obj p' → IsMutable h p' → ∃ q, r' = .obj q ∧ h.length ≤ q) := by
          rintro h1 o' x hf hw hf' hc r' h' ⟨⟩
          exact ⟨x.trans (Cp.alloc fun _ => hc), .flag (get_alloc _ _) hf', fun d => absurd d (notdone hf hw),
            fun _ _ _ => ⟨_, rfl, x.ext.length_le⟩⟩
        -- entries and sensitive values
        have wrapcase : ∀ (v : Ref) (mk : Ref → Obj), o.wrapped = some v → (∀ v, (mk v).wrapped = some v) →
            (∀ v, (mk v).flag = none) → o.flag = none →
            (∀ r' h', (isFrozen n v >>= fun b => if b then pure (Ref.obj p) else
                frozenCopy n v >>= fun v' => Graph.alloc (mk v') >>= fun q => pure (Ref.obj q)) h = .ok r' h' →
              Cp h h' ∧ Done h' r' ∧ (Done h (.obj p) → r' = .obj p ∧ h' = h) ∧
              (∀ p', Ref.obj p = .obj p' → IsMutable h p' → ∃ q, r' = .obj q ∧ h.length ≤ q)) ∧
            (∀ h', (isFrozen n v >>= fun b => if b then pure (Ref.obj p) else
                frozenCopy n v >>= fun v' => Graph.alloc (mk v') >>= fun q => pure (Ref.obj q)) h = .panic h' → Cp h h') := by
          intro v mk hv hmk hmf hof
          have nomut : ∀ p', Ref.obj p = .obj p' → ¬ IsMutable h p' := by
            rintro _ ⟨⟩ ⟨o', ho', hf'⟩
            rw [hp] at ho'; cases ho'; rw [hof] at hf'; cases hf'
          constructor
          · intro r' h' e
            obtain ⟨b, h1, e1, e2⟩ := bind_eq_ok e
            obtain ⟨rfl, hb⟩ := isFrozen_pure n e1
            cases b with
            | true =>
              cases e2
              have d : Done _ (.obj p) := .wrap hp hv (hb.1 rfl)
              exact ⟨Cp.refl _, d, fun _ => ⟨rfl, rfl⟩, fun p' e hm => absurd hm (nomut p' e)⟩
            | false =>
              simp only [Bool.false_eq_true, if_false] at e2
              obtain ⟨v', h2, e3, e4⟩ := bind_eq_ok e2
              obtain ⟨x, d, _⟩ := ih.1 _ _ e3
              cases e4
              refine ⟨x.trans (Cp.alloc fun hf => ?_), .wrap (get_alloc _ _) (hmk v') ((Ext.alloc _ _).done d), fun d => ?_,
                fun p' e hm => absurd hm (nomut p' e)⟩
              · rw [hmf] at hf; cases hf
              · exfalso
                cases d with
                | flag hp' hf' => rw [hp] at hp'; cases hp'; rw [hof] at hf'; cases hf'
                | wrap hp' hw' d => rw [hp] at hp'; cases hp'; rw [hv] at hw'; cases hw'; exact absurd (hb.2 d) (by simp)
          · intro h' e
            rcases bind_eq_panic e with e | ⟨b, h1, e1, e2⟩
            · -- isFrozen never panics except on dangling references; it changes nothing
              have : ∀ (m : Nat) (r : Ref), isFrozen m r h = .panic h' → h' = h := by
                intro m
                induction m with
                | zero => intro r e; cases r <;> cases e
                | succ m ihm =>
                  intro r e
                  cases r with
                  | atom i => cases e
                  | obj p' =>
                    match hp' : h[p']? with
                    | none => rw [isFrozen, M.bind_panic (load_run_none hp')] at e; cases e; rfl
                    | some o' =>
                      rw [isFrozen, M.bind_ok (load_run hp')] at e
                      cases o' <;> first | exact ihm _ e | cases e
              rw [this n v e]; exact Cp.refl h
            · obtain ⟨rfl, hb⟩ := isFrozen_pure n e1
              cases b with
              | true => cases e2
              | false =>
                simp only [Bool.false_eq_true, if_false] at e2
                rcases bind_eq_panic e2 with e | ⟨v', h2, e3, e4⟩
                · exact ih.2 _ e
                · cases e4
        cases o with
        | arr f es =>
          cases f
          · simp only [Bool.false_eq_true, if_false]
            have hm := mapEach_post (f := frozenCopy n) (R := Cp) (Q := fun _ b h => Done h b) Cp.refl (fun _ _ _ => Cp.trans)
              (fun a b h h' x d => x.ext.done d) es (h0 := h) (fun a _ h1 b h2 _ e => ⟨(ih.1 b h2 e).1, (ih.1 b h2 e).2.1⟩)
              (fun a _ h1 h2 _ e => ih.2 h2 e) (Cp.refl h)
            constructor
            · intro r' h' e
              obtain ⟨es', h1, e1, e2⟩ := bind_eq_ok e
              obtain ⟨x, ds⟩ := hm.1 _ _ e1
              refine fresh h1 (.arr true es') x rfl rfl rfl ?_ _ _ e2
              intro c hc
              simp only [Obj.children] at hc
              exact forall₂_right ds hc
            · intro h' e
              rcases bind_eq_panic e with e | ⟨es', h1, e1, e2⟩
              · exact hm.2 _ e
              · cases e2
          · simp only [if_true]
            exact ⟨same rfl, fun h' e => by cases e⟩
        | map f tl es =>
          cases f
          · simp only [Bool.false_eq_true, if_false]
            have hm := mapEach_post (f := fun e => do
                let kv ← loadEntry e
                let v' ← frozenCopy n kv.2
                Graph.alloc (.entry kv.1 v')) (R := Cp) (Q := fun _ b h => Done h (.obj b)) Cp.refl (fun _ _ _ => Cp.trans)
              (fun a b h h' x d => x.ext.done d) es (h0 := h) (fun a _ h1 b h2 _ e => by
                obtain ⟨kv, h3, e3, e4⟩ := bind_eq_ok e
                obtain ⟨rfl, hkv⟩ := loadEntry_ok e3
                obtain ⟨v', h4, e5, e6⟩ := bind_eq_ok e4
                obtain ⟨x, d, _⟩ := ih.1 _ _ e5
                cases e6
                exact ⟨x.trans (Cp.alloc (by simp [Obj.flag])), .wrap (get_alloc _ _) rfl ((Ext.alloc _ _).done d)⟩)
              (fun a _ h1 h2 _ e => by
                rcases bind_eq_panic e with e | ⟨kv, h3, e3, e4⟩
                · rw [loadEntry_panic e]; exact Cp.refl _
                · obtain ⟨rfl, hkv⟩ := loadEntry_ok e3
                  rcases bind_eq_panic e4 with e | ⟨v', h4, e5, e6⟩
                  · exact ih.2 _ e
                  · cases e6) (Cp.refl h)
            constructor
            · intro r' h' e
              obtain ⟨es', h1, e1, e2⟩ := bind_eq_ok e
              obtain ⟨x, ds⟩ := hm.1 _ _ e1
              refine fresh h1 (.map true _ es') x rfl rfl rfl ?_ _ _ e2
              intro c hc
              simp only [Obj.children, List.mem_map] at hc
              obtain ⟨q, hq, rfl⟩ := hc
              exact forall₂_right (P := fun b => Done h1 (.obj b)) ds hq
            · intro h' e
              rcases bind_eq_panic e with e | ⟨es', h1, e1, e2⟩
              · exact hm.2 _ e
              · cases e2
          · simp only [if_true]
            exact ⟨same rfl, fun h' e => by cases e⟩
        | bin f bs =>
          cases f
          · simp only [Bool.false_eq_true, if_false]
            refine ⟨fun r' h' e => fresh h (.bin true bs) (Cp.refl h) rfl rfl rfl (by simp [Obj.children]) _ _ e, fun h' e => (by cases e)⟩
          · simp only [if_true]
            exact ⟨same rfl, fun h' e => by cases e⟩
        | entry k v => exact wrapcase v (.entry k) rfl (fun _ => rfl) (fun _ => rfl) rfl
        | sens v => exact wrapcase v .sens rfl (fun _ => rfl) (fun _ => rfl) rfl
        | native i => exact ⟨fun r' h' e => (by cases e), fun h' e => (by cases e; exact Cp.refl h)⟩

/-- A loop of copies: `P` reads what is copied, `P'` the copies. -/
theorem mapEach_tree {α β γ : Type} {f : α → M Heap β} {P : Heap → α → Option γ} {P' : Heap → β → Option γ} {A : γ → Prop}
    {G : Heap → β → Prop}
    (pmono : ∀ h h' a t, Ext h h' → P h a = some t → P h' a = some t)
    (pmono' : ∀ h h' b t, Ext h h' → P' h b = some t → P' h' b = some t)
    (gmono : ∀ h h' b, Ext h h' → G h b → G h' b)
    (h0 : Heap)
    (hf : ∀ a h t, Ext h0 h → P h a = some t → A t → ∃ b h', f a h = .ok b h' ∧ Ext h h' ∧ P' h' b = some t ∧ G h' b)
    {l : List α} {ts : List γ} {h : Heap} (x0 : Ext h0 h) (e : l.mapM (P h) = some ts) (ha : ∀ t ∈ ts, A t) :
    ∃ bs h', mapEach f l h = .ok bs h' ∧ Ext h h' ∧ bs.mapM (P' h') = some ts ∧ ∀ b ∈ bs, G h' b := by
  induction l generalizing ts h with
  | nil =>
    simp at e; subst e
    exact ⟨[], h, rfl, List.prefix_rfl, rfl, by simp⟩
  | cons a l ih =>
    rw [mapM_eq_some] at e
    cases e with
    | @cons _ t _ ts ht hts =>
      obtain ⟨b, h1, e1, x1, p1, g1⟩ := hf a h t x0 ht (ha t (by simp))
      rw [← mapM_eq_some] at hts
      obtain ⟨bs, h2, e2, x2, p2, g2⟩ := ih (x0.trans x1) (mapM_some_imp (fun a _ t => pmono _ _ a t x1) hts) (fun t' h' => ha t' (by simp [h']))
      refine ⟨b :: bs, h2, ?_, x1.trans x2, ?_, ?_⟩
      · show (f a >>= fun b => mapEach f l >>= fun bs => pure (b :: bs)) h = _
        rw [M.bind_ok e1, M.bind_ok e2]; rfl
      · rw [List.mapM_cons, pmono' _ _ b t x2 p1, p2]; rfl
      · intro b' hb'
        rcases List.mem_cons.1 hb' with rfl | hb'
        · exact gmono _ _ _ x2 g1
        · exact g2 _ hb'

/-- What `tree` reads at a node. -/
def treeNode (n : Nat) (h : Heap) (e : Nat) : Option (Value.Val × Value.Val) :=
  match entryAt h e with
  | some (k, v) => (tree n h v).map fun t => (Value.Val.int k, t)
  | none => none

theorem Ext.trn {h h' : Heap} (x : Ext h h') {n : Nat} {e : Nat} {t : Value.Val × Value.Val} (ht : treeNode n h e = some t) :
    treeNode n h' e = some t := by
  unfold treeNode at ht ⊢
  match ha : entryAt h e with
  | none => rw [ha] at ht; cases ht
  | some (k, v) =>
    rw [ha] at ht
    rw [x.entry ha]
    simp only [Option.map_eq_some_iff] at ht ⊢
    obtain ⟨t, ht, rfl⟩ := ht
    exact ⟨t, x.tr ht, rfl⟩

theorem treeNode_some {n : Nat} {h : Heap} {e : Nat} {t : Value.Val × Value.Val} (ht : treeNode n h e = some t) :
    ∃ k v t', entryAt h e = some (k, v) ∧ tree n h v = some t' ∧ t = (.int k, t') := by
  unfold treeNode at ht
  match ha : entryAt h e with
  | none => rw [ha] at ht; cases ht
  | some (k, v) =>
    rw [ha] at ht
    simp only [Option.map_eq_some_iff] at ht
    obtain ⟨t', ht, rfl⟩ := ht
    exact ⟨k, v, t', rfl, ht, rfl⟩

theorem treeNode_entry {n : Nat} {h : Heap} {e : Nat} {k : BitVec 64} {v : Ref} {t : Value.Val}
    (he : h[e]? = some (.entry k v)) (ht : tree n h v = some t) : treeNode n h e = some (.int k, t) := by
  have : entryAt h e = some (k, v) := by unfold entryAt; rw [he]
  unfold treeNode
  rw [this]
  simp [ht]

/-- `tree` at an object. -/
theorem tree_obj (n : Nat) {h : Heap} {p : Nat} {o : Obj} (hp : h[p]? = some o) :
    tree (n + 1) h (.obj p) = (match (generalizing := false) o with
      | .arr _ es => (es.mapM (tree n h)).map .arr
      | .map _ _ es => (es.mapM (treeNode n h)).map .map
      | .entry k v => (tree n h v).map fun t => .entry (.int k) t
      | .bin _ bs => some (.bin bs)
      | .sens v => (tree n h v).map .sens
      | .native _ => none) := by
  rw [tree, hp]
  cases o <;> rfl

/-- On an acyclic value, `FrozenCopy` returns, and the copy stands for the same tree. -/
theorem frozenCopy_tree (n : Nat) {r : Ref} {h : Heap} {t : Value.Val} (e : tree n h r = some t) :
    ∃ r' h', frozenCopy n r h = .ok r' h' ∧ Ext h h' ∧ tree n h' r' = some t := by
  induction n generalizing r h t with
  | zero =>
    cases r with
    | atom i => exact ⟨.atom i, h, rfl, List.prefix_rfl, e⟩
    | obj p => cases e
  | succ n ih =>
    cases r with
    | atom i => exact ⟨.atom i, h, rfl, List.prefix_rfl, e⟩
    | obj p =>
      match hp : h[p]? with
      | none => rw [tree, hp] at e; cases e
      | some o =>
        have e0 := e
        rw [tree_obj n hp] at e
        rw [frozenCopy, M.bind_ok (load_run hp)]
        cases o with
        | arr f es =>
          cases f
          · simp only [Bool.false_eq_true, if_false]
            simp only [Option.map_eq_some_iff] at e
            obtain ⟨ts, e, rfl⟩ := e
            obtain ⟨bs, h', e1, x, q, _⟩ := mapEach_tree (f := frozenCopy n) (P := tree n) (P' := tree n) (A := fun _ => True)
              (G := fun _ _ => True) (fun _ _ _ _ x => x.tr) (fun _ _ _ _ x => x.tr) (fun _ _ _ _ _ => trivial) h
              (fun a h t _ ht _ => by
                obtain ⟨r', h', e, x, ht'⟩ := ih ht
                exact ⟨r', h', e, x, ht', trivial⟩) List.prefix_rfl e (fun _ _ => trivial)
            refine ⟨.obj h'.length, h' ++ [.arr true bs], ?_, x.trans (Ext.alloc _ _), ?_⟩
            · rw [M.bind_ok e1]; rfl
            · rw [tree_obj n (get_alloc _ _)]
              simp only [Option.map_eq_some_iff]
              exact ⟨ts, mapM_some_imp (fun _ _ _ => (Ext.alloc _ _).tr) q, rfl⟩
          · exact ⟨.obj p, h, rfl, List.prefix_rfl, e0⟩
        | map f tl es =>
          cases f
          · simp only [Bool.false_eq_true, if_false]
            simp only [Option.map_eq_some_iff] at e
            obtain ⟨ts, e, rfl⟩ := e
            obtain ⟨bs, h', e1, x, q, _⟩ := mapEach_tree (f := fun e => do
                let kv ← loadEntry e
                let v' ← frozenCopy n kv.2
                Graph.alloc (.entry kv.1 v')) (P := treeNode n) (P' := treeNode n) (A := fun _ => True)
              (G := fun _ _ => True) (fun _ _ _ _ x => x.trn) (fun _ _ _ _ x => x.trn) (fun _ _ _ _ _ => trivial) h
              (fun a h t _ ht _ => by
                obtain ⟨k, v, t', ha, hv, rfl⟩ := treeNode_some ht
                obtain ⟨r', h', e, x, ht'⟩ := ih hv
                refine ⟨h'.length, h' ++ [.entry k r'], ?_, x.trans (Ext.alloc _ _),
                  treeNode_entry (get_alloc _ _) ((Ext.alloc _ _).tr ht'), trivial⟩
                rw [M.bind_ok (loadEntry_run ha), M.bind_ok e]
                rfl) List.prefix_rfl e (fun _ _ => trivial)
            refine ⟨.obj h'.length, h' ++ [.map true (HMap.tableSizeFor tl) bs], ?_, x.trans (Ext.alloc _ _), ?_⟩
            · rw [M.bind_ok e1]; rfl
            · rw [tree_obj n (get_alloc _ _)]
              simp only [Option.map_eq_some_iff]
              exact ⟨ts, mapM_some_imp (fun _ _ _ => (Ext.alloc _ _).trn) q, rfl⟩
          · exact ⟨.obj p, h, rfl, List.prefix_rfl, e0⟩
        | bin f bs =>
          cases f
          · refine ⟨.obj h.length, h ++ [.bin true bs], rfl, Ext.alloc _ _, ?_⟩
            rw [tree_obj n (get_alloc _ _)]; exact e
          · exact ⟨.obj p, h, rfl, List.prefix_rfl, e0⟩
        | entry k v =>
          simp only [Option.map_eq_some_iff] at e
          obtain ⟨t, e, rfl⟩ := e
          obtain ⟨b, eb⟩ := isFrozen_tree n e
          show ∃ r' h', (isFrozen n v >>= fun b => if b then pure (Ref.obj p) else
            frozenCopy n v >>= fun v' => Graph.alloc (.entry k v') >>= fun q => pure (Ref.obj q)) h = .ok r' h' ∧ _
          rw [M.bind_ok eb]
          cases b
          · obtain ⟨r', h', e1, x, ht'⟩ := ih e
            refine ⟨.obj h'.length, h' ++ [.entry k r'], ?_, x.trans (Ext.alloc _ _), ?_⟩
            · simp only [Bool.false_eq_true, if_false]
              rw [M.bind_ok e1]; rfl
            · rw [tree_obj n (get_alloc _ _)]
              simp only [Option.map_eq_some_iff]
              exact ⟨t, (Ext.alloc _ _).tr ht', rfl⟩
          · exact ⟨.obj p, h, rfl, List.prefix_rfl, e0⟩
        | sens v =>
          simp only [Option.map_eq_some_iff] at e
          obtain ⟨t, e, rfl⟩ := e
          obtain ⟨b, eb⟩ := isFrozen_tree n e
          show ∃ r' h', (isFrozen n v >>= fun b => if b then pure (Ref.obj p) else
            frozenCopy n v >>= fun v' => Graph.alloc (.sens v') >>= fun q => pure (Ref.obj q)) h = .ok r' h' ∧ _
          rw [M.bind_ok eb]
          cases b
          · obtain ⟨r', h', e1, x, ht'⟩ := ih e
            refine ⟨.obj h'.length, h' ++ [.sens r'], ?_, x.trans (Ext.alloc _ _), ?_⟩
            · simp only [Bool.false_eq_true, if_false]
              rw [M.bind_ok e1]; rfl
            · rw [tree_obj n (get_alloc _ _)]
              simp only [Option.map_eq_some_iff]
              exact ⟨t, (Ext.alloc _ _).tr ht', rfl⟩
          · exact ⟨.obj p, h, rfl, List.prefix_rfl, e0⟩
        | native i => cases e

end Verif.Graph
