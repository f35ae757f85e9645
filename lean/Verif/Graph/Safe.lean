import Verif.Graph.Inv
/-! # Careful programs keep the invariant -/
set_option autoImplicit false
set_option linter.unusedVariables false
namespace Verif.Graph

theorem FrozenValue.done {h : Heap} {r : Ref} (f : FrozenValue h r) : Done h r := by
  obtain ⟨n, e⟩ := f
  exact (isFrozen_pure n e).2.1 rfl

theorem Inv.arg_new {h1 : Heap} (i1 : Inv h1) {o : Obj} (hc : ∀ q, Ref.obj q ∈ o.children → q < h1.length) : Arg (h1 ++ [o]) (.obj h1.length) := by
  rintro q ⟨⟩
  refine ⟨by simp, fun q f tl es hq he => ?_⟩
  rcases get_snoc.1 hq with hq | ⟨rfl, rfl⟩
  · obtain ⟨k, v, e⟩ := i1.nodes q f tl es hq _ he
    have := get_lt e; omega
  · have := hc h1.length (by simp only [Obj.children, List.mem_map, Ref.obj.injEq, exists_eq_right]; exact he); omega

theorem Gr.only {h h' : Heap} {v : Ref} (y : Gr (fun x => x = v) h h') (nov : ∀ b, Unref h b → v ≠ .obj b) (S : Ref → Prop) : Gr S h h' :=
  ⟨y.ext, y.inv, y.fresh, fun b hb u _ => y.unref b hb u fun e => nov b u e.symm⟩

theorem thawedCopy_inv (n : Nat) {r : Ref} {h : Heap} {t : Value.Val} (i : Inv h) (ha : Arg h r) (ht : tree n h r = some t) (nf : EntryFree t) :
    Tri h (thawedCopy n r) (fun r' h' => Gr (fun x => x = r) h h' ∧ Arg h' r' ∧ From h r r') (Gr (fun x => x = r) h) := by
  induction n generalizing r h t with
  | zero =>
    cases r with
    | atom j => exact Tri.pure ⟨Gr.refl _ h, fun q e => (by cases e), fun b _ _ _ e => by cases e⟩
    | obj p => exact Tri.loop
  | succ n ih =>
    cases r with
    | atom j => exact Tri.pure ⟨Gr.refl _ h, fun q e => (by cases e), fun b _ _ _ e => by cases e⟩
    | obj p =>
      have fresh : ∀ (h1 : Heap), Ext h h1 → From h (.obj p) (.obj h1.length) := by
        intro h1 x b hb u _ e
        cases e
        have := x.length_le; omega
      refine Tri.load_bind (fun o ho => ?_) (Gr.refl _ _)
      rw [tree_obj n ho] at ht
      cases o with
      | arr f es =>
        simp only [Option.map_eq_some_iff] at ht
        obtain ⟨ts, ht, rfl⟩ := ht
        have nf' : ∀ t ∈ ts, EntryFree t := by cases nf; assumption
        have hts : ∀ a ∈ es, ∃ t, tree n h a = some t ∧ EntryFree t := by
          rw [mapM_eq_some] at ht
          clear ih ho nf
          induction ht with
          | nil => simp
          | cons h1 _ ih2 =>
            intro a ha'
            rcases List.mem_cons.1 ha' with rfl | ha'
            · exact ⟨_, h1, nf' _ (by simp)⟩
            · exact ih2 (fun t ht => nf' t (by simp [ht])) a ha'
        have nov : ∀ h1, Ext h h1 → ∀ a ∈ es, ∀ b, Unref h1 b → a ≠ .obj b := by
          rintro h1 x a ha' b u rfl; exact u p _ (x.get ho) ha'
        refine Tri.bind (Tri.mapEach (R := Gr fun _ => False) (Q' := fun a b h1 => Arg h1 b ∧ ∀ b', b' < h.length → Unref h b' → b ≠ .obj b')
          (Gr.refl _) (Gr.trans _) (fun a b h1 h2 x y => ⟨x.arg y.1, y.2⟩) es (fun a ha' h1 x => ?_)) (fun es' h1 x => ?_) (fun _ x => x.mono (by simp))
        · have i1 := x.inv i
          obtain ⟨t, h2, h3⟩ := hts a ha'
          refine (ih i1 (i1.child (x.ext.get ho) (by simp) ha') (x.ext.tr h2) h3).conseq ?_ (fun h2 y => y.only (nov h1 x.ext a ha') _)
          rintro r' h2 ⟨y, ya, yf⟩
          refine ⟨y.only (nov h1 x.ext a ha') _, ya, fun b hb u => ?_⟩
          have u1 := x.unref' hb u
          have := x.ext.length_le
          exact yf b (by omega) u1 (nov h1 x.ext a ha' b u1)
        · obtain ⟨x, q⟩ := x
          have q := fun c (hc : c ∈ es') => forall₂_right (P := fun b => Arg h1 b ∧ ∀ b', b' < h.length → Unref h b' → b ≠ .obj b') q hc
          refine Tri.alloc_bind (Tri.pure ⟨?_, ?_, fresh _ x.ext⟩)
          · refine (x.mono (by simp)).snoc (by simp) (fun c hc => (q c hc).1) (by simp [Obj.flag]) ?_
            intro b hb u _ hc
            exact (q _ hc).2 b hb u rfl
          · exact (x.inv i).arg_new (fun c hc => ((q _ hc).1 c rfl).1)
      | map f tl es =>
        simp only [Option.map_eq_some_iff] at ht
        obtain ⟨ts, ht, rfl⟩ := ht
        have nf' : ∀ t ∈ ts, EntryFree t.2 := by cases nf; assumption
        have hts : ∀ a ∈ es, ∃ t, treeNode n h a = some t ∧ EntryFree t.2 := by
          rw [mapM_eq_some] at ht
          clear ih ho nf
          induction ht with
          | nil => simp
          | cons h1 _ ih2 =>
            intro a ha'
            rcases List.mem_cons.1 ha' with rfl | ha'
            · exact ⟨_, h1, nf' _ (by simp)⟩
            · exact ih2 (fun t ht => nf' t (by simp [ht])) a ha'
        refine Tri.bind (renodes (fun _ => False) (by simp) i (fun _ v => thawedCopy n v) (D := fun _ _ => True) (fun _ _ _ _ _ => trivial) (i.nodes p _ _ _ ho) ?_) (fun es' h1 x => ?_) (fun _ x => x.mono (by simp))
        · intro e he k v h1 hkv x i1
          have hkv1 := x.ext.get hkv
          have nov : ∀ b, Unref h1 b → v ≠ .obj b := by
            rintro b u rfl; exact u e _ hkv1 (by simp [Obj.children])
          obtain ⟨t, h2, h3⟩ := hts e he
          obtain ⟨k', v', t', h4, h5, rfl⟩ := treeNode_some h2
          have : entryAt h e = some (k, v) := by unfold entryAt; rw [hkv]
          rw [this] at h4; cases h4
          refine (ih i1 (i1.child hkv1 (by simp) (by simp [Obj.children])) (x.ext.tr h5) h3).conseq ?_ (fun h2 y => y.only nov _)
          rintro r' h2 ⟨y, ya, yf⟩
          exact ⟨y.only nov _, ya, trivial, fun b hb u _ => yf b hb u (nov b u)⟩
        · obtain ⟨x, q⟩ := x
          refine Tri.alloc_bind (Tri.pure ⟨?_, ?_, fresh _ x.ext⟩)
          · refine (x.mono (by simp)).snocMap ?_ (by simp)
            intro e he
            obtain ⟨h1, h2, k, v, h3, h4⟩ := q e he
            exact ⟨h1, ⟨k, v, h3⟩, h2⟩
          · refine (x.inv i).arg_new (fun c hc => ?_)
            simp only [Obj.children, List.mem_map, Ref.obj.injEq, exists_eq_right] at hc
            obtain ⟨h1, h2, k, v, h3, h4⟩ := q c hc
            exact get_lt h3
      | bin f bs =>
        refine Tri.alloc_bind (Tri.pure ⟨?_, ?_, fresh _ (Ext.rfl' h)⟩)
        · exact (Gr.refl _ h).snoc (by simp) (by simp [Obj.children]) (by simp [Obj.children]) (by simp [Obj.children])
        · exact i.arg_new (by simp [Obj.children])
      | entry k v =>
        simp only [Option.map_eq_some_iff] at ht
        obtain ⟨t, ht, rfl⟩ := ht
        cases nf
      | sens v =>
        simp only [Option.map_eq_some_iff] at ht
        obtain ⟨t, ht, rfl⟩ := ht
        have nf' : EntryFree t := by cases nf; assumption
        cases v with
        | atom j => exact Tri.pure ⟨Gr.refl _ h, ha, fun b _ _ e => e⟩
        | obj v =>
          have nov : ∀ b, Unref h b → Ref.obj v ≠ .obj b := by
            intro b u e; exact u p _ ho (by simp [Obj.children, e])
          refine Tri.bind (ih i (i.child ho (by simp) (by simp [Obj.children])) ht nf') (fun v' h2 x => ?_) (fun _ x => x.only nov _)
          obtain ⟨x, xa, xf⟩ := x
          refine Tri.alloc_bind (Tri.pure ⟨?_, ?_, fresh _ x.ext⟩)
          · refine (x.only nov _).snoc (by simp) (fun c hc => ?_) (by simp [Obj.flag]) ?_
            · simp only [Obj.children, List.mem_singleton] at hc
              subst hc; exact xa
            · intro b hb u _ hc
              simp only [Obj.children, List.mem_singleton] at hc
              exact xf b hb u (nov b u) hc.symm
          · refine (x.inv i).arg_new fun c hc => ?_
            simp only [Obj.children, List.mem_singleton] at hc
            exact (xa c hc.symm).1
      | native j => exact Tri.throw (Gr.refl _ _)

/-! ### Freezing -/

theorem Fz.inv {h h' : Heap} (x : Fz h h') (i : Inv h) (d : LocalDeep h') : Inv h' := by
  have back : ∀ {p : Nat} {o' : Obj}, h'[p]? = some o' → ∃ o, h[p]? = some o ∧ o'.children = o.children ∧
      (∀ k v, o = .entry k v → o' = .entry k v) ∧ (∀ f tl es, o' = .map f tl es → ∃ f', o = .map f' tl es) := by
    intro p o' e
    obtain ⟨o, ho, rfl | rfl⟩ := x.back e
    · exact ⟨_, ho, rfl, fun _ _ e => e, fun f _ _ e => ⟨f, e⟩⟩
    · refine ⟨o, ho, froze_children o, ?_, ?_⟩
      · rintro k v rfl; rfl
      · intro f tl es e; cases o <;> cases e; exact ⟨_, rfl⟩
  have fwd : ∀ {p : Nat} {k : BitVec 64} {v : Ref}, h[p]? = some (.entry k v) → h'[p]? = some (.entry k v) := by
    intro p k v e
    rcases x.2 p _ e with h1 | h1 <;> exact h1
  refine ⟨?_, ?_, ?_, d⟩
  · intro p o' hp q hq
    obtain ⟨o, ho, hc, _⟩ := back hp
    rw [x.1]
    exact i.closed p o ho q (hc ▸ hq)
  · intro p f tl es hp e he
    obtain ⟨o, ho, _, _, hm⟩ := back hp
    obtain ⟨f', rfl⟩ := hm f tl es rfl
    obtain ⟨k, v, e⟩ := i.nodes p f' tl es ho e he
    exact ⟨k, v, fwd e⟩
  · intro p o' q f tl es e hp hc hq he
    obtain ⟨o, ho, hc', _⟩ := back hp
    obtain ⟨o2, ho2, _, _, hm⟩ := back hq
    obtain ⟨f', rfl⟩ := hm f tl es rfl
    exact i.own p o q f' tl es e ho (hc' ▸ hc) ho2 he

/-! ### Maps -/

theorem Arg.setMap {h : Heap} {p : Nat} {fr : Bool} {tl : Nat} {es : List Nat} {r : Ref} (a : Arg h r) (hn : ∀ e ∈ es, r ≠ .obj e) :
    Arg (h.set p (.map fr tl es)) r := by
  rintro q rfl
  obtain ⟨h1, h2⟩ := a q rfl
  refine ⟨by rw [List.length_set]; exact h1, fun p' f tl' es' hp' hq => ?_⟩
  rcases get_set_some hp' with ⟨rfl, y⟩ | ⟨_, hp1⟩
  · cases y; exact hn q hq rfl
  · exact h2 p' f tl' es' hp1 hq

theorem Arg.ne_node {h : Heap} {p : Nat} {f : Bool} {tl : Nat} {es : List Nat} (hp : h[p]? = some (.map f tl es)) {r : Ref}
    (a : Arg h r) {e : Nat} (he : e ∈ es) : r ≠ .obj e := by
  rintro rfl
  exact (a e rfl).2 p f tl es hp he

theorem Mine.alloc {h : Heap} {p e : Nat} (m : Mine h p e) {o : Obj} (ho : Ref.obj e ∉ o.children) : Mine (h ++ [o]) p e := by
  obtain ⟨⟨k, v, x⟩, hm⟩ := m
  refine ⟨⟨k, v, (Ext.alloc _ _).get x⟩, fun q o' hq hc => ?_⟩
  rcases get_snoc.1 hq with hq1 | ⟨rfl, rfl⟩
  · exact hm q o' hq1 hc
  · exact absurd hc ho

theorem Unref.mine {h : Heap} {e : Nat} (u : Unref h e) (x : ∃ k v, h[e]? = some (.entry k v)) (p : Nat) : Mine h p e :=
  ⟨x, fun q o hq hc => absurd hc (u q o hq)⟩

theorem grow_inv {h : Heap} (i : Inv h) {p : Nat} {f : Bool} {tl : Nat} (tl0 : Nat) {es : List Nat} (hp : h[p]? = some (.map f tl es)) :
    Tri h (grow tl0 es) (fun x h' => Gr (fun _ => False) h h' ∧ ∀ e ∈ x.2, Mine h' p e ∧ (h.length ≤ e ∨ e ∈ es) ∧
      ((∀ e ∈ es, Done h (.obj e)) → Done h' (.obj e))) (Gr (fun _ => False) h) := by
  unfold grow
  split
  · refine Tri.bind (renode_inv i (i.nodes p f tl es hp) (fun v => (∀ e ∈ es, Done h (.obj e)) → Done h v)
      (fun e he k v hkv hall => (hall e he).value hkv)) (fun es' h1 x => ?_) (fun _ x => x)
    obtain ⟨x, q⟩ := x
    refine Tri.pure ⟨x, fun e he => ?_⟩
    obtain ⟨h1, h2, k, v, h3, h4⟩ := q e he
    exact ⟨h2.mine ⟨k, v, h3⟩ p, .inl h1, fun hall => .wrap h3 rfl (x.ext.done (h4 hall))⟩
  · exact Tri.pure ⟨Gr.refl _ h, fun e he => ⟨i.node_mine hp he, .inr he, fun hall => hall e he⟩⟩

theorem mput_inv {h : Heap} (i : Inv h) {p : Nat} {tl : Nat} {es : List Nat} (hp : h[p]? = some (.map false tl es)) (k : BitVec 64)
    {r : Ref} (ha : Arg h r) :
    Tri h (mput p k r) (fun _ h' => Inv h' ∧ ∃ tl' es', h'[p]? = some (.map false tl' es') ∧
      ((∀ e ∈ es, Done h (.obj e)) → Done h r → ∀ e ∈ es', Done h' (.obj e))) Inv := by
  refine Tri.loadMap_bind (fun fr tl0 es0 e => ?_) i
  rw [hp] at e; cases e
  dsimp only
  refine Tri.findNode_bind (fun e hes v he => ?_) ?_ i
  · have hne : e ≠ p := by rintro rfl; rw [he] at hp; cases hp
    refine Tri.store_bind (Tri.store ?_)
    have i1 := i.setMap hp (fr := false) (tl' := if tl = 0 then HMap.tableSizeFor 1 else tl) (es' := es) (fun e he => i.node_mine hp he) (by simp)
    have hp1 : (h.set p (.map false (if tl = 0 then HMap.tableSizeFor 1 else tl) es))[p]? = _ := get_set hp
    have m1 : Mine (h.set p (.map false (if tl = 0 then HMap.tableSizeFor 1 else tl) es)) p e := (i.node_mine hp hes).setMap hp
    have hre := ha.ne_node hp hes
    refine ⟨i1.setNode hp1 m1 (ha.setMap fun e he => ha.ne_node hp he), _, es, by rw [get_set_ne (Ne.symm hne)]; exact hp1, ?_⟩
    intro hall hr e' he'
    by_cases hee : e' = e
    · subst hee
      exact .wrap (get_set (by rw [get_set_ne hne]; exact he)) rfl ((hr.set_flagged hp rfl rfl).set_node hp1 m1 hre)
    · exact ((hall e' he').set_flagged hp rfl rfl).set_node hp1 m1 (by simpa using hee)
  · refine Tri.bind (grow_inv i _ hp) ?_ (fun _ x => x.inv i)
    rintro ⟨tl', es'⟩ h1 ⟨x, q⟩
    have i1 := x.inv i
    have ha1 := x.arg ha
    dsimp only at q ⊢
    have hre : ∀ e ∈ es', r ≠ .obj e := by
      intro e he
      rcases (q e he).2.1 with h2 | h2
      · rintro rfl
        have := (ha e rfl).1; omega
      · exact ha.ne_node hp h2
    have i2 : Inv (h1 ++ [.entry k r]) := i1.alloc (fun _ c hc => by
      simp only [Obj.children, List.mem_singleton] at hc; subst hc; exact ha1) (by simp) (by simp [Obj.flag])
    have hp2 := (x.ext.snoc (.entry k r)).get hp
    refine Tri.alloc_bind (Tri.store ⟨i2.setMap hp2 ?_ (by simp), _, _, get_set hp2, ?_⟩)
    · intro e he
      rcases List.mem_append.1 he with he | he
      · refine (q e he).1.alloc ?_
        simp only [Obj.children, List.mem_singleton]
        exact fun e' => hre e he e'.symm
      · simp only [List.mem_singleton] at he
        subst he
        refine (i1.unref_new _ fun q hq => ?_).mine ⟨k, r, get_alloc _ _⟩ p
        simp only [Obj.children, List.mem_singleton] at hq
        exact (ha1 q hq.symm).1
    · intro hall hr e he
      refine Done.set_flagged hp2 rfl rfl ?_
      rcases List.mem_append.1 he with he | he
      · exact (Ext.alloc _ _).done ((q e he).2.2 hall)
      · simp only [List.mem_singleton] at he
        subst he
        exact .wrap (get_alloc _ _) rfl ((Ext.alloc _ _).done (x.ext.done hr))

theorem putNodes_inv {p : Nat} {tl : Nat} {es0 : List Nat} (as : List Nat) : ∀ {h : Heap} (i : Inv h) (hp : h[p]? = some (.map false tl es0))
    {es : List Nat} (hm : ∀ e ∈ es, Mine h p e) (hent : ∀ a ∈ as, ∃ k v, h[a]? = some (.entry k v)),
    Tri h (putNodes es as) (fun es' h' => Inv h' ∧ h'[p]? = some (.map false tl es0) ∧ (∀ e ∈ es', Mine h' p e) ∧
      ((∀ e ∈ es, Done h (.obj e)) → (∀ a ∈ as, Done h (.obj a)) → ∀ e ∈ es', Done h' (.obj e))) Inv := by
  induction as with
  | nil => intro h i hp es hm hent; exact Tri.pure ⟨i, hp, hm, fun h1 _ => h1⟩
  | cons a as ih =>
    intro h i hp es hm hent
    refine Tri.loadEntry_bind (fun k v hkv => ?_) i
    have hav : Arg h v := i.child hkv (by simp) (by simp [Obj.children])
    refine Tri.bind (Q1 := fun es' h' => Inv h' ∧ h'[p]? = some (.map false tl es0) ∧ (∀ e ∈ es', Mine h' p e) ∧
      (∀ a ∈ as, ∃ k v, h'[a]? = some (.entry k v)) ∧
      ((∀ e ∈ es, Done h (.obj e)) → (∀ a' ∈ a :: as, Done h (.obj a')) →
        (∀ e ∈ es', Done h' (.obj e)) ∧ ∀ a ∈ as, Done h' (.obj a))) (E1 := Inv) ?_ ?_ (fun _ x => x)
    · refine Tri.findNode_bind (fun e he w hw => ?_) ?_ i
      · have hne : p ≠ e := by rintro rfl; rw [hw] at hp; cases hp
        have me := hm e he
        refine Tri.store_bind (Tri.pure ⟨i.setNode hp me hav, by rw [get_set_ne hne]; exact hp, fun e' he' => ?_, fun a' ha' => ?_, ?_⟩)
        · exact (hm e' he').setNode hw ((hm e' he').arg_ne hp hkv)
        · obtain ⟨k', v', x⟩ := hent a' (by simp [ha'])
          by_cases hae : a' = e
          · subst hae; exact ⟨k, v, get_set hw⟩
          · exact ⟨k', v', by rw [get_set_ne hae]; exact x⟩
        · intro hall has
          have de : Done (h.set e (.entry k v)) (.obj e) :=
            .wrap (get_set hw) rfl (((has a (by simp)).value hkv).set_node hp me (me.arg_ne hp hkv))
          have : ∀ e', Done h (.obj e') → Done (h.set e (.entry k v)) (.obj e') := by
            intro e' d
            by_cases hee : e' = e
            · subst hee; exact de
            · exact d.set_node hp me (by simpa using hee)
          exact ⟨fun e' he' => this e' (hall e' he'), fun a' ha' => this a' (has a' (by simp [ha']))⟩
      · have i2 : Inv (h ++ [.entry k v]) := i.alloc (fun _ c hc => by
          simp only [Obj.children, List.mem_singleton] at hc; subst hc; exact hav) (by simp) (by simp [Obj.flag])
        refine Tri.alloc_bind (Tri.pure ⟨i2, (Ext.alloc _ _).get hp, fun e he => ?_, fun a' ha' => ?_, ?_⟩)
        · rcases List.mem_append.1 he with he | he
          · refine (hm e he).alloc ?_
            simp only [Obj.children, List.mem_singleton]
            exact fun e' => (hm e he).arg_ne hp hkv e'.symm
          · simp only [List.mem_singleton] at he
            subst he
            refine (i.unref_new _ fun q hq => ?_).mine ⟨k, v, get_alloc _ _⟩ p
            simp only [Obj.children, List.mem_singleton] at hq
            exact (hav q hq.symm).1
        · obtain ⟨k', v', x⟩ := hent a' (by simp [ha'])
          exact ⟨k', v', (Ext.alloc _ _).get x⟩
        · intro hall has
          refine ⟨fun e he => ?_, fun a' ha' => (Ext.alloc _ _).done (has a' (by simp [ha']))⟩
          rcases List.mem_append.1 he with he | he
          · exact (Ext.alloc _ _).done (hall e he)
          · simp only [List.mem_singleton] at he
            subst he
            exact .wrap (get_alloc _ _) rfl ((Ext.alloc _ _).done ((has a (by simp)).value hkv))
    · rintro es' h' ⟨i', hp', hm', hent', hd'⟩
      exact (ih i' hp' hm' hent').conseq (fun es'' h'' ⟨x1, x2, x3, x4⟩ =>
        ⟨x1, x2, x3, fun h1 h2 => x4 (hd' h1 h2).1 (hd' h1 h2).2⟩) (fun _ x => x)

theorem mputAll_inv {h : Heap} (i : Inv h) {p q : Nat} {tl : Nat} {es : List Nat} (hp : h[p]? = some (.map false tl es)) :
    Tri h (mputAll p q) (fun _ h' => Inv h' ∧ ∃ tl' es', h'[p]? = some (.map false tl' es') ∧
      ((∀ e ∈ es, Done h (.obj e)) → (∀ f tl as, h[q]? = some (.map f tl as) → ∀ a ∈ as, Done h (.obj a)) → ∀ e ∈ es', Done h' (.obj e))) Inv := by
  refine Tri.loadMap_bind (fun qf qt as hq => ?_) i
  dsimp only
  split
  · exact Tri.pure ⟨i, _, _, hp, fun h1 _ => h1⟩
  refine Tri.loadMap_bind (fun fr tl0 es0 e => ?_) i
  rw [hp] at e; cases e
  dsimp only
  refine Tri.bind (renode_inv i (i.nodes p _ _ _ hp) (fun v => (∀ e ∈ es, Done h (.obj e)) → Done h v)
      (fun e he k v hkv hall => (hall e he).value hkv)) (fun es' h1 x => ?_) (fun _ x => x.inv i)
  obtain ⟨x, n⟩ := x
  have i1 := x.inv i
  have hp1 := x.ext.get hp
  refine Tri.store_bind ?_
  have m1 : ∀ e ∈ es', Mine h1 p e := by
    intro e he
    obtain ⟨n1, n2, k, v, n3, n4⟩ := n e he
    exact n2.mine ⟨k, v, n3⟩ p
  have i2 := i1.setMap hp1 (fr := false) (tl' := HMap.tableSizeFor (tl + as.length)) m1 (by simp)
  have hp2 : (h1.set p (.map false (HMap.tableSizeFor (tl + as.length)) es'))[p]? = _ := get_set hp1
  have dn : (∀ e ∈ es, Done h (.obj e)) → ∀ e ∈ es', Done (h1.set p (.map false (HMap.tableSizeFor (tl + as.length)) es')) (.obj e) := by
    intro hall e he
    obtain ⟨n1, n2, k, v, n3, n4⟩ := n e he
    exact Done.set_flagged hp1 rfl rfl (.wrap n3 rfl (x.ext.done (n4 hall)))
  refine Tri.loadMap_bind (fun qf' qt' as' hq' => ?_) i2
  dsimp only
  refine Tri.bind (putNodes_inv as' i2 hp2 (fun e he => (m1 e he).setMap hp1) (i2.nodes q _ _ _ hq')) ?_ (fun _ x => x)
  rintro es'' h3 ⟨i3, hp3, m3, d3⟩
  refine Tri.store ⟨i3.setMap hp3 m3 (by simp), _, _, get_set hp3, fun hall has e he => ?_⟩
  refine Done.set_flagged hp3 rfl rfl (d3 (dn hall) ?_ e he)
  intro a ha
  by_cases hqp : q = p
  · subst hqp
    rw [hp2] at hq'; cases hq'
    exact dn hall a ha
  · rw [get_set_ne hqp] at hq'
    have := x.ext.get hq
    rw [hq'] at this; cases this
    exact Done.set_flagged hp1 rfl rfl (x.ext.done (has _ _ _ hq a ha))

/-! ### All calls -/

theorem onMutableArr_inv {p : Nat} {f : List Ref → M Heap Ref} {h : Heap} (i : Inv h)
    (hf : ∀ es, h[p]? = some (.arr false es) → Tri h (f es) (fun _ h' => Inv h') Inv) :
    Tri h (onMutableArr p f) (fun _ h' => Inv h') Inv := by
  refine Tri.loadArr_bind (fun fr es e => ?_) i
  cases fr
  · exact hf es e
  · exact Tri.throw i

theorem arrStore_inv {p : Nat} {es es' : List Ref} {r : Ref} {h : Heap} (i : Inv h) (e : h[p]? = some (.arr false es))
    (ha : ∀ c ∈ es', Arg h c) : Tri h (store p (.arr false es') >>= fun _ => pure r) (fun _ h' => Inv h') Inv :=
  Tri.store_bind (Tri.pure (i.setArr e ha))

theorem Inv.elem {h : Heap} (i : Inv h) {p : Nat} {f : Bool} {es : List Ref} (e : h[p]? = some (.arr f es)) {c : Ref} (hc : c ∈ es) : Arg h c :=
  i.child e (by simp) hc

theorem allocArr_inv {h : Heap} (i : Inv h) {f : Bool} {es : List Ref} (ha : ∀ c ∈ es, Arg h c) (hd : f = true → ∀ c ∈ es, Done h c) :
    Tri h (allocObj (.arr f es)) (fun _ h' => Inv h') Inv :=
  Tri.allocObj (i.alloc (fun _ => ha) (by simp) (by simpa [Obj.flag, Obj.children] using hd))

theorem mapEach_frozenCopy_inv (n : Nat) {l : List Ref} {h : Heap} (i : Inv h) (ha : ∀ r ∈ l, Arg h r) :
    Tri h (mapEach (frozenCopy n) l) (fun bs h' => Gr (fun _ => True) h h' ∧ ∀ b ∈ bs, Arg h' b ∧ Done h' b) (Gr (fun _ => True) h) := by
  refine (Tri.mapEach (Q' := fun _ b h' => Arg h' b ∧ Done h' b) (Gr.refl fun _ => True) (Gr.trans _) (fun a b h1 h2 x y => ⟨x.arg y.1, x.ext.done y.2⟩) l
    (fun a ha' h1 x => (frozenCopy_inv n (x.inv i) (x.arg (ha a ha'))).conseq (fun r' h' ⟨y1, y2, y3, _⟩ => ⟨y1.mono (by simp), y2, y3⟩) (fun _ y => y.mono (by simp)))).conseq
    (fun bs h' x => ⟨x.1, fun b hb => forall₂_right (P := fun b => Arg h' b ∧ Done h' b) x.2 hb⟩) (fun _ x => x)

theorem frozenIf_inv (n : Nat) {b : Bool} {l : List Ref} {h : Heap} (i : Inv h) (ha : ∀ r ∈ l, Arg h r) :
    Tri h (frozenIf n b l) (fun bs h' => Gr (fun _ => True) h h' ∧ ∀ c ∈ bs, Arg h' c ∧ (b = true ∨ c ∈ l) ∧ (b = true → Done h' c)) (Gr (fun _ => True) h) := by
  unfold frozenIf
  split
  · rename_i hb
    exact (mapEach_frozenCopy_inv n i ha).conseq (fun bs h' x => ⟨x.1, fun b hb' => ⟨(x.2 b hb').1, .inl hb, fun _ => (x.2 b hb').2⟩⟩) (fun _ x => x)
  · rename_i hb
    exact Tri.pure ⟨Gr.refl _ h, fun c hc => ⟨ha c hc, .inr hc, fun h => absurd h hb⟩⟩

theorem thaw_mono {n m : Nat} (hnm : n ≤ m) (r : Ref) : Le (thawedCopy n r) (thawedCopy m r) := by
  induction hnm with
  | refl => exact Le.refl _
  | step _ ih => exact ih.trans (thawedCopy_step _ r)

theorem thawedCopy_inv' (n : Nat) {r : Ref} {h : Heap} (i : Inv h) (ha : Arg h r) (ht : PlainTree h r) :
    Tri h (thawedCopy n r) (fun r' h' => Gr (fun x => x = r) h h' ∧ Arg h' r' ∧ From h r r') (Gr (fun x => x = r) h) := by
  obtain ⟨t, ⟨m, e⟩, nf⟩ := ht
  have := thawedCopy_inv (max n m) i ha (tree_mono (Nat.le_max_right n m) e) nf
  have le := thaw_mono (Nat.le_max_left n m) r
  refine ⟨fun r' h' e => this.ok _ _ ((le h (by rw [e]; simp)).trans e), fun h' e => this.panic _ ((le h (by rw [e]; simp)).trans e)⟩

theorem safe_inv (n : Nat) {op : Op} {h : Heap} (i : Inv h) (s : SafeOp n h op) : Tri h (exec n op) (fun _ h' => Inv h') Inv := by
  cases op with
  | newArr es => exact allocArr_inv i s (by simp)
  | values es =>
    refine Tri.bind (mapEach_frozenCopy_inv n i s) (fun bs h1 x => ?_) (fun _ x => x.inv i)
    exact allocArr_inv (x.1.inv i) (fun c hc => (x.2 c hc).1) (fun _ c hc => (x.2 c hc).2)
  | add p r =>
    rw [exec]
    refine onMutableArr_inv i fun es e => arrStore_inv i e fun c hc => ?_
    rcases List.mem_append.1 hc with hc | hc
    · exact i.elem e hc
    · simp only [List.mem_singleton] at hc; subst hc; exact s
  | set p j r =>
    rw [exec]
    refine onMutableArr_inv i fun es e => ?_
    split
    · refine arrStore_inv i e fun c hc => ?_
      rcases List.mem_or_eq_of_mem_set hc with hc | rfl
      · exact i.elem e hc
      · exact s
    · exact Tri.throw i
  | insert p j r =>
    rw [exec]
    refine onMutableArr_inv i fun es e => ?_
    split
    · refine arrStore_inv i e fun c hc => ?_
      rcases List.mem_append.1 hc with hc | hc
      · exact i.elem e (List.mem_of_mem_take hc)
      · rcases List.mem_cons.1 hc with rfl | hc
        · exact s
        · exact i.elem e (List.mem_of_mem_drop hc)
    · exact Tri.throw i
  | removeAt p j =>
    rw [exec]
    exact onMutableArr_inv i fun es e => arrStore_inv i e fun c hc => i.elem e (List.mem_of_mem_eraseIdx hc)
  | addAll p q =>
    rw [exec]
    refine onMutableArr_inv i fun es e => Tri.loadArr_bind (fun _ as e' => arrStore_inv i e fun c hc => ?_) i
    rcases List.mem_append.1 hc with hc | hc
    · exact i.elem e hc
    · exact i.elem e' hc
  | pick p is =>
    refine Tri.loadArr_bind (fun fr es e => ?_) i
    have hm : ∀ c ∈ is.filterMap (fun j => es[j]?), c ∈ es := by
      intro c hc
      obtain ⟨j, _, hj⟩ := List.mem_filterMap.1 hc
      exact List.mem_of_getElem? hj
    refine allocArr_inv i (fun c hc => i.elem e (hm c hc)) ?_
    rintro rfl c hc
    exact i.deep p _ e rfl c (hm c hc)
  | arrMap p f =>
    refine Tri.loadArr_bind (fun fr es e => ?_) i
    refine allocArr_inv i (fun c hc => ?_) (fun hf c hc => ?_)
    · obtain ⟨r, hr, rfl⟩ := List.mem_map.1 hc
      exact (s fr es e r hr).1
    · obtain ⟨r, hr, rfl⟩ := List.mem_map.1 hc
      exact ((s fr es e r hr).2 hf).done
  | «with» p r =>
    refine Tri.loadArr_bind (fun fr es e => ?_) i
    refine allocArr_inv i (fun c hc => ?_) ?_
    · rcases List.mem_append.1 hc with hc | hc
      · exact i.elem e hc
      · simp only [List.mem_singleton] at hc; subst hc; exact s.1
    · rintro rfl c hc
      rcases List.mem_append.1 hc with hc | hc
      · exact i.deep p _ e rfl c hc
      · simp only [List.mem_singleton] at hc; subst hc; exact (s.2 ⟨_, e, rfl⟩).done
  | withValues p rs =>
    refine Tri.loadArr_bind (fun fr es e => ?_) i
    dsimp only
    split
    · exact Tri.pure i
    · refine Tri.bind (frozenIf_inv n i s) (fun bs h1 x => ?_) (fun _ x => x.inv i)
      obtain ⟨x, q⟩ := x
      refine allocArr_inv (x.inv i) (fun c hc => ?_) ?_
      · rcases List.mem_append.1 hc with hc | hc
        · exact x.arg (i.elem e hc)
        · exact (q c hc).1
      · rintro rfl c hc
        rcases List.mem_append.1 hc with hc | hc
        · exact x.ext.done (i.deep p _ e rfl c hc)
        · exact (q c hc).2.2 rfl
  | withAll p q =>
    refine Tri.loadArr_bind (fun _ as0 e0 => ?_) i
    dsimp only
    split
    · exact Tri.pure i
    refine Tri.loadArr_bind (fun fr es e => ?_) i
    obtain ⟨s1, s2⟩ := s fr es e
    refine Tri.bind (Q1 := fun bs h' => Gr (fun _ => True) h h' ∧ ∀ b ∈ bs, Arg h' b ∧ (fr = true → Done h' b)) (E1 := Gr (fun _ => True) h) ?_ ?_ (fun _ x => x.inv i)
    · have hl : ∀ a ∈ es, ∀ h1, Gr (fun _ => True) h h1 → Tri h1 (thawedCopy n a) (fun b h2 => Gr (fun _ => True) h1 h2 ∧ Arg h2 b ∧ (fr = true → Done h2 b)) (Gr (fun _ => True) h1) := by
        intro a ha h1 x
        cases fr with
        | false =>
          obtain ⟨t, ⟨m, hm⟩, nf⟩ := s1 a ha
          exact (thawedCopy_inv' n (x.inv i) (x.arg (i.elem e ha)) ⟨t, ⟨m, x.ext.tr hm⟩, nf⟩).conseq (fun r' h' ⟨y1, y2, _⟩ => ⟨y1.mono (by simp), y2, by simp⟩) (fun _ y => y.mono (by simp))
        | true =>
          obtain ⟨j, rfl⟩ := s2 rfl a ha
          have : thawedCopy n (.atom j) = pure (.atom j) := by cases n <;> rfl
          rw [this]
          exact Tri.pure ⟨Gr.refl _ _, fun q e => (by cases e), fun _ => .atom j⟩
      exact (Tri.mapEach (Q' := fun _ b h2 => Arg h2 b ∧ (fr = true → Done h2 b)) (Gr.refl fun _ => True) (Gr.trans _)
        (fun a b h1 h2 x y => ⟨x.arg y.1, fun hf => x.ext.done (y.2 hf)⟩) es hl).conseq
        (fun bs h' x => ⟨x.1, fun b hb => forall₂_right (P := fun b => Arg h' b ∧ (fr = true → Done h' b)) x.2 hb⟩) (fun _ x => x)
    · rintro es' h1 ⟨x, q1⟩
      have i1 := x.inv i
      refine Tri.loadArr_bind (fun qf as e1 => ?_) i1
      refine Tri.bind (frozenIf_inv n i1 (fun r hr => i1.elem e1 hr)) (fun bs h2 y => ?_) (fun _ y => y.inv i1)
      obtain ⟨y, q2⟩ := y
      refine allocArr_inv (y.inv i1) (fun c hc => ?_) ?_
      · rcases List.mem_append.1 hc with hc | hc
        · exact y.arg (q1 c hc).1
        · exact (q2 c hc).1
      · rintro rfl c hc
        rcases List.mem_append.1 hc with hc | hc
        · exact y.ext.done ((q1 c hc).2 rfl)
        · cases qf with
          | false => exact (q2 c hc).2.2 rfl
          | true =>
            rcases (q2 c hc).2.1 with h3 | h3
            · cases h3
            · exact y.ext.done (i1.deep q _ e1 rfl c h3)
  | newMap tl => exact Tri.allocObj (i.alloc (fun h => absurd rfl (h _ _ _)) (fun f tl es e => by cases e; simp) (by simp [Obj.flag]))
  | emptyMap => exact Tri.allocObj (i.alloc (fun h => absurd rfl (h _ _ _)) (fun f tl es e => by cases e; simp) (by simp [Obj.children]))
  | put p k r =>
    by_cases hp : ∃ tl es, h[p]? = some (.map false tl es)
    · obtain ⟨tl, es, hp⟩ := hp
      exact Tri.bind (mput_inv i hp k s) (fun _ h1 x => Tri.pure x.1) (fun _ x => x)
    · refine Tri.bind (Q1 := fun _ h' => False) (E1 := fun h' => h' = h) ?_ (fun _ _ x => x.elim) (fun _ x => x ▸ i)
      refine Tri.loadMap_bind (fun fr tl es e => ?_) rfl
      cases fr
      · exact absurd ⟨_, _, e⟩ hp
      · exact Tri.throw rfl
  | putAll p q =>
    by_cases hp : ∃ tl es, h[p]? = some (.map false tl es)
    · obtain ⟨tl, es, hp⟩ := hp
      exact Tri.bind (mputAll_inv i hp) (fun _ h1 x => Tri.pure x.1) (fun _ x => x)
    · refine Tri.bind (Q1 := fun _ h' => h' = h) (E1 := fun h' => h' = h) ?_ (fun _ _ x => Tri.pure (x ▸ i)) (fun _ x => x ▸ i)
      refine Tri.loadMap_bind (fun _ _ as _ => ?_) rfl
      dsimp only
      split
      · exact Tri.pure rfl
      · refine Tri.loadMap_bind (fun fr tl es e => ?_) rfl
        cases fr
        · exact absurd ⟨_, _, e⟩ hp
        · exact Tri.throw rfl
  | remove p k =>
    refine Tri.loadMap_bind (fun fr tl es e => ?_) i
    cases fr
    · refine Tri.bind (Q1 := fun es' h' => h' = h ∧ ∀ e ∈ es', e ∈ es) (E1 := fun h' => h' = h) ?_ ?_ (fun _ x => x ▸ i)
      · exact Tri.findNode_bind (fun _ _ _ _ => Tri.pure ⟨rfl, fun e he => (List.mem_filter.1 he).1⟩) (Tri.pure ⟨rfl, fun _ h => h⟩) rfl
      · rintro es' h' ⟨rfl, hs⟩
        exact Tri.store_bind (Tri.pure (i.setMap e (fun e' he' => i.node_mine e (hs e' he')) (by simp)))
    · exact Tri.throw i
  | mapWith p k r =>
    refine Tri.loadMap_bind (fun fr tl es e => ?_) i
    dsimp only
    split
    · have i1 : Inv (h ++ [.entry k r]) := i.alloc (fun _ c hc => by
        simp only [Obj.children, List.mem_singleton] at hc; subst hc; exact s.1) (by simp) (by simp [Obj.flag])
      refine Tri.alloc_bind (Tri.allocObj (i1.alloc (fun h => absurd rfl (h _ _ _)) ?_ ?_))
      · intro f tl es e; cases e
        intro e' he'
        simp only [List.mem_singleton] at he'
        subst he'
        refine ⟨⟨k, r, get_alloc _ _⟩, i.unref_new _ fun q hq => ?_⟩
        simp only [Obj.children, List.mem_singleton] at hq
        exact (s.1 q hq.symm).1
      · intro hf c hc
        cases hf
        simp only [Obj.children, List.map_cons, List.map_nil, List.mem_singleton] at hc
        subst hc
        exact .wrap (get_alloc _ _) rfl ((Ext.alloc _ _).done (s.2 ⟨_, e, rfl⟩).done)
    · refine Tri.bind (hasValue_same n k r es h) ?_ (fun _ x => x ▸ i)
      rintro same h' rfl
      split
      · exact Tri.pure i
      · refine Tri.bind (renode_inv i (i.nodes p _ _ _ e) (fun v => fr = true → Done h' v)
          (fun e' he' k v hkv hf => Done.value hkv (by subst hf; exact i.deep p _ e rfl _ (by simpa [Obj.children] using he')))) (fun es' h1 x => ?_) (fun _ x => x.inv i)
        obtain ⟨x, q⟩ := x
        have x2 : Gr (fun _ => False) h' (h1 ++ [.map false (HMap.tableSizeFor (tl + 1)) es']) := by
          refine x.snocMap (fun e he => ?_) (by simp)
          obtain ⟨h1, h2, k, v, h3, h4⟩ := q e he
          exact ⟨h1, ⟨k, v, h3⟩, h2⟩
        have hc := get_alloc h1 (.map false (HMap.tableSizeFor (tl + 1)) es')
        refine Tri.alloc_bind (Tri.bind (mput_inv (x2.inv i) hc k (x2.arg s.1)) ?_ (fun _ y => y))
        rintro _ h2 ⟨i2, tl', es'', hc2, d2⟩
        refine Tri.loadMap_bind (fun fr' tl' es'' e' => ?_) i2
        rw [hc2] at e'; cases e'
        refine Tri.store_bind (Tri.pure (i2.setMap hc2 (fun e he => i2.node_mine hc2 he) ?_))
        rintro rfl
        refine d2 (fun e he => ?_) (x2.ext.done (s.2 ⟨_, e, rfl⟩).done)
        obtain ⟨h1, h2, k, v, h3, h4⟩ := q e he
        exact (Ext.alloc _ _).done (.wrap h3 rfl (x.ext.done (h4 rfl)))
  | without p k =>
    refine Tri.loadMap_bind (fun fr tl es e => ?_) i
    refine Tri.findNode_bind (fun e' _ v he => ?_) (Tri.pure i) i
    refine Tri.bind (renode_inv i (i.nodes p _ _ _ e) (fun v => fr = true → Done h v)
          (fun e' he' k v hkv hf => Done.value hkv (by subst hf; exact i.deep p _ e rfl _ (by simpa [Obj.children] using he')))) (fun es' h1 x => ?_) (fun _ x => x.inv i)
    obtain ⟨x, q⟩ := x
    refine Tri.bind (Q1 := fun es'' h' => h' = h1 ∧ ∀ e ∈ es'', e ∈ es') (E1 := fun h' => h' = h1) ?_ ?_ (fun _ y => y ▸ x.inv i)
    · exact Tri.findNode_bind (fun _ _ _ _ => Tri.pure ⟨rfl, fun e he => (List.mem_filter.1 he).1⟩) (Tri.pure ⟨rfl, fun _ h => h⟩) rfl
    · rintro es'' h' ⟨rfl, hs⟩
      refine Tri.allocObj ((x.snocMap (fun e he => ?_) ?_).inv i)
      · obtain ⟨h1, h2, k, v, h3, h4⟩ := q e (hs e he)
        exact ⟨h1, ⟨k, v, h3⟩, h2⟩
      · intro hf e he
        obtain ⟨h1, h2, k, v, h3, h4⟩ := q e (hs e he)
        exact .wrap h3 rfl (x.ext.done (h4 hf))
  | merge p q =>
    refine Tri.loadMap_bind (fun _ _ as hq => ?_) i
    dsimp only
    split
    · exact Tri.pure i
    · refine Tri.loadMap_bind (fun fr tl es e => ?_) i
      dsimp only
      split
      · exact Tri.pure i
      · refine Tri.bind (renode_inv i (i.nodes p _ _ _ e) (fun v => fr = true → Done h v)
          (fun e' he' k v hkv hf => Done.value hkv (by subst hf; exact i.deep p _ e rfl _ (by simpa [Obj.children] using he')))) (fun es' h1 x => ?_) (fun _ x => x.inv i)
        obtain ⟨x, qn⟩ := x
        have x2 : Gr (fun _ => False) h (h1 ++ [.map false (HMap.tableSizeFor (tl + es.length + as.length)) es']) := by
          refine x.snocMap (fun e he => ?_) (by simp)
          obtain ⟨h1, h2, k, v, h3, h4⟩ := qn e he
          exact ⟨h1, ⟨k, v, h3⟩, h2⟩
        have hc := get_alloc h1 (.map false (HMap.tableSizeFor (tl + es.length + as.length)) es')
        refine Tri.alloc_bind (Tri.bind (mputAll_inv (q := q) (x2.inv i) hc) ?_ (fun _ y => y))
        rintro _ h2 ⟨i2, tl', es'', hc2, d2⟩
        refine Tri.loadMap_bind (fun fr' tl' es'' e' => ?_) i2
        rw [hc2] at e'; cases e'
        refine Tri.store_bind (Tri.pure (i2.setMap hc2 (fun e he => i2.node_mine hc2 he) ?_))
        rintro rfl
        refine d2 (fun e he => ?_) ?_
        · obtain ⟨h1, h2, k, v, h3, h4⟩ := qn e he
          exact (Ext.alloc _ _).done (.wrap h3 rfl (x.ext.done (h4 rfl)))
        · intro f tl3 as3 hq3 a ha
          have := x2.ext.get hq
          rw [this] at hq3; cases hq3
          exact x2.ext.done (s ⟨_, e, rfl⟩ _ _ _ hq a ha).done
  | mapMap p f =>
    refine Tri.loadMap_bind (fun fr tl es e => ?_) i
    refine Tri.bind (renodes (fun x => ∃ q, x = .obj q ∧ q < h.length) (fun b hb ⟨q, e, hq⟩ => by cases e; omega) i (fun k v => pure (f k v)) (D := fun h' v => fr = true → Done h' v) (fun _ _ _ x d hf => x.done (d hf)) (i.nodes p _ _ _ e) ?_)
      (fun es' h1 x => ?_) (fun _ x => x.inv i)
    · intro e' he' k v h1 hkv x i1
      obtain ⟨s1, s2⟩ := s fr tl es e e' he' k v hkv
      refine Tri.pure ⟨Gr.refl _ _, x.arg s1, fun hf => x.ext.done (s2 hf).done, ?_⟩
      intro b hb u hs eq
      exact hs ⟨b, rfl, (s1 b eq).1⟩
    · obtain ⟨x, q⟩ := x
      refine Tri.allocObj ((x.snocMap (fun e he => ?_) ?_).inv i)
      · obtain ⟨h1, h2, k, v, h3, h4⟩ := q e he
        exact ⟨h1, ⟨k, v, h3⟩, h2⟩
      · intro hf e he
        obtain ⟨h1, h2, k, v, h3, h4⟩ := q e he
        exact .wrap h3 rfl (h4 hf)
  | mapValues p =>
    refine Tri.loadMap_bind (fun fr tl es e => ?_) i
    refine Tri.bind (Tri.mapEach (Q' := fun e v _ => ∃ k, h[e]? = some (Obj.entry k v)) (R := fun a b => b = a) (fun _ => rfl) (fun _ _ _ x y => y.trans x) (fun _ _ _ _ _ x => x) es
      fun a _ h1 x => Tri.loadEntry_bind (fun k v hkv => Tri.pure ⟨rfl, k, x ▸ hkv⟩) rfl) ?_ (fun _ x => x ▸ i)
    rintro vs h1 ⟨rfl, q⟩
    have q : ∀ v ∈ vs, ∃ e ∈ es, ∃ k, h1[e]? = some (.entry k v) := by
      clear e
      induction q with
      | nil => simp
      | cons h2 _ ih =>
        intro v hv
        rcases List.mem_cons.1 hv with rfl | hv
        · exact ⟨_, by simp, h2⟩
        · obtain ⟨e, he, h3⟩ := ih v hv
          exact ⟨e, by simp [he], h3⟩
    refine allocArr_inv i (fun v hv => ?_) ?_
    · obtain ⟨e', he', k, hk⟩ := q v hv
      exact i.child hk (by simp) (by simp [Obj.children])
    · rintro rfl v hv
      obtain ⟨e', he', k, hk⟩ := q v hv
      exact Done.value hk (i.deep p _ e rfl _ (by simpa [Obj.children] using he'))
  | newEntry k r => exact Tri.allocObj (i.alloc (fun _ c hc => by simp only [Obj.children, List.mem_singleton] at hc; subst hc; exact s) (by simp) (by simp [Obj.flag]))
  | newBin f bs => exact Tri.allocObj (i.alloc (by simp [Obj.children]) (by simp) (by simp [Obj.children]))
  | sensitive r => exact Tri.allocObj (i.alloc (fun _ c hc => by simp only [Obj.children, List.mem_singleton] at hc; subst hc; exact s) (by simp) (by simp [Obj.flag]))
  | native id => exact Tri.allocObj (i.alloc (by simp [Obj.children]) (by simp) (by simp [Obj.flag]))
  | freeze r =>
    refine Tri.bind (Q1 := fun _ h' => Inv h') (E1 := fun _ => False) ⟨fun _ h' e => ?_, fun h' e => absurd e (s h')⟩ (fun _ h1 x => Tri.pure x) (fun _ x => x.elim)
    exact (freeze_fz n (.inl e)).inv i ((freeze_froze n e).1.localDeep i.deep)
  | frozenCopy r => exact (frozenCopy_inv n i s).conseq (fun _ _ x => x.1.inv i) (fun _ x => x.inv i)
  | thawedCopy r => exact (thawedCopy_inv' n i s.1 s.2).conseq (fun _ _ x => x.1.inv i) (fun _ x => x.inv i)

end Verif.Graph
