import Verif.Graph.Sep
/-! # What calls do to maps -/
set_option autoImplicit false
set_option linter.unusedVariables false
set_option linter.unusedSimpArgs false
namespace Verif.Graph

theorem tsf {n : Nat} {es : List Nat} (h : HMap.tableSizeFor n = 0) : es = [] := absurd h (Nat.ne_of_gt (HMap.tableSizeFor_pos n))

/-! ### Copies -/

theorem not_map {f : Bool} {es : List Ref} : ∀ f' tl es', Obj.arr f es ≠ .map f' tl es' := fun _ _ _ h => by cases h
theorem not_map' {k : BitVec 64} {v : Ref} : ∀ f' tl es', Obj.entry k v ≠ .map f' tl es' := fun _ _ _ h => by cases h

theorem unowned_new {h : Heap} (s : Sep h) (k : BitVec 64) (v : Ref) : Unowned (h ++ [.entry k v]) h.length := fun q f tl es hq hm =>
  absurd ((s.own' (snoc_map not_map' hq)).lt hm) (by omega)

theorem frozenCopy_w (n : Nat) (r : Ref) (h : Heap) (s : Sep h) : Tri h (frozenCopy n r) (fun _ h' => W h h') (W h) := by
  induction n generalizing r h with
  | zero =>
    cases r with
    | atom i => exact Tri.pure (W.refl h)
    | obj p => exact Tri.loop
  | succ n ih =>
    cases r with
    | atom i => exact Tri.pure (W.refl h)
    | obj p =>
      refine Tri.load_bind (fun o ho => ?_) (W.refl h)
      cases o with
      | arr f es =>
        dsimp only
        split
        · exact Tri.pure (W.refl h)
        refine Tri.bind (Tri.mapEach (R := W) (Q' := fun _ _ _ => True) W.refl W.trans (fun _ _ _ _ _ _ => trivial) es
          fun a _ h1 w => (ih a h1 (w.sep s)).conseq (fun _ _ x => ⟨x, trivial⟩) (fun _ x => x)) (fun bs h1 x => ?_) (fun _ x => x)
        exact Tri.alloc_bind (Tri.pure (W.trans _ _ _ x.1 (W.alloc _ not_map)))
      | map f tl es =>
        dsimp only
        split
        · exact Tri.pure (W.refl h)
        refine Tri.bind (Tri.mapEach (R := W) (Q' := Twin h) W.refl W.trans Twin.mono es fun a ha h1 w => ?_) (fun bs h1 x => ?_) (fun _ x => x)
        · refine Tri.loadEntry_bind (fun k v hv => ?_) (W.refl _)
          refine Tri.bind (ih v h1 (w.sep s)) (fun v' h2 x => ?_) (fun _ x => x)
          refine Tri.alloc ⟨W.trans _ _ _ x (W.alloc _ not_map'), ?_⟩
          obtain ⟨l, hl, _⟩ := s.own' ho
          obtain ⟨kv, _, hk⟩ := hl.mem ha
          obtain ⟨v1, h3⟩ := w.nd.entry hk
          rw [hv] at h3
          cases h3
          exact ⟨kv.1, kv.2, v', hk, get_alloc _ _, unowned_new (x.sep (w.sep s)) _ _, Nat.le_trans w.len x.len⟩
        · obtain ⟨h2, h3, h4⟩ := Twin.own x.2 (s.own' ho)
          exact Tri.alloc_bind (Tri.pure (x.1.allocMap h2 h3 h4 _ tsf))
      | entry k v =>
        refine Tri.bind (isFrozen_same n v h) (fun b h1 x => ?_) (fun h1 x => x ▸ W.refl h)
        obtain ⟨rfl, _⟩ := x
        split
        · exact Tri.pure (W.refl _)
        refine Tri.bind (ih v _ s) (fun v' h2 x => ?_) (fun _ x => x)
        exact Tri.alloc_bind (Tri.pure (W.trans _ _ _ x (W.alloc _ not_map')))
      | bin f bs =>
        dsimp only
        split
        · exact Tri.pure (W.refl h)
        · exact Tri.alloc_bind (Tri.pure (W.alloc _ fun _ _ _ h => by cases h))
      | sens v =>
        refine Tri.bind (isFrozen_same n v h) (fun b h1 x => ?_) (fun h1 x => x ▸ W.refl h)
        obtain ⟨rfl, _⟩ := x
        split
        · exact Tri.pure (W.refl _)
        refine Tri.bind (ih v _ s) (fun v' h2 x => ?_) (fun _ x => x)
        exact Tri.alloc_bind (Tri.pure (W.trans _ _ _ x (W.alloc _ fun _ _ _ h => by cases h)))
      | native i => exact Tri.throw (W.refl h)

theorem thawedCopy_w (n : Nat) (r : Ref) (h : Heap) (s : Sep h) : Tri h (thawedCopy n r) (fun _ h' => W h h') (W h) := by
  induction n generalizing r h with
  | zero =>
    cases r with
    | atom i => exact Tri.pure (W.refl h)
    | obj p => exact Tri.loop
  | succ n ih =>
    cases r with
    | atom i => exact Tri.pure (W.refl h)
    | obj p =>
      refine Tri.load_bind (fun o ho => ?_) (W.refl h)
      cases o with
      | arr f es =>
        refine Tri.bind (Tri.mapEach (R := W) (Q' := fun _ _ _ => True) W.refl W.trans (fun _ _ _ _ _ _ => trivial) es
          fun a _ h1 w => (ih a h1 (w.sep s)).conseq (fun _ _ x => ⟨x, trivial⟩) (fun _ x => x)) (fun bs h1 x => ?_) (fun _ x => x)
        exact Tri.alloc_bind (Tri.pure (W.trans _ _ _ x.1 (W.alloc _ not_map)))
      | map f tl es =>
        refine Tri.bind (Tri.mapEach (R := W) (Q' := Twin h) W.refl W.trans Twin.mono es fun a ha h1 w => ?_) (fun bs h1 x => ?_) (fun _ x => x)
        · refine Tri.loadEntry_bind (fun k v hv => ?_) (W.refl _)
          refine Tri.bind (ih v h1 (w.sep s)) (fun v' h2 x => ?_) (fun _ x => x)
          refine Tri.alloc ⟨W.trans _ _ _ x (W.alloc _ not_map'), ?_⟩
          obtain ⟨l, hl, _⟩ := s.own' ho
          obtain ⟨kv, _, hk⟩ := hl.mem ha
          obtain ⟨v1, h3⟩ := w.nd.entry hk
          rw [hv] at h3
          cases h3
          exact ⟨kv.1, kv.2, v', hk, get_alloc _ _, unowned_new (x.sep (w.sep s)) _ _, Nat.le_trans w.len x.len⟩
        · obtain ⟨h2, h3, h4⟩ := Twin.own x.2 (s.own' ho)
          exact Tri.alloc_bind (Tri.pure (x.1.allocMap h2 h3 h4 _ tsf))
      | entry k v =>
        refine Tri.alloc_bind ?_
        have w0 : W h (h ++ [.entry k v]) := W.alloc _ not_map'
        refine Tri.bind (ih v _ (w0.sep s)) (fun v' h1 x => ?_) (fun h1 x => W.trans _ _ _ w0 x)
        obtain ⟨w, hw⟩ := x.nd.entry ((Ext.alloc _ _).get ho)
        exact Tri.store_bind (Tri.pure (W.trans _ _ _ (W.trans _ _ _ w0 x) (W.setEntry hw)))
      | bin f bs => exact Tri.alloc_bind (Tri.pure (W.alloc _ fun _ _ _ h => by cases h))
      | sens v =>
        cases v with
        | atom i => exact Tri.pure (W.refl h)
        | obj v =>
          refine Tri.bind (ih (.obj v) h s) (fun v' h2 x => ?_) (fun _ x => x)
          exact Tri.alloc_bind (Tri.pure (W.trans _ _ _ x (W.alloc _ fun _ _ _ h => by cases h)))
      | native i => exact Tri.throw (W.refl h)

/-! ### New nodes -/

/-- Nothing is changed, maps stay apart, and new maps have new nodes. -/
def WE (h h' : Heap) : Prop := Ext h h' ∧ W h h'

theorem WE.refl (h : Heap) : WE h h := ⟨Ext.rfl' h, W.refl h⟩
theorem WE.trans (a b c : Heap) (x : WE a b) (y : WE b c) : WE a c := ⟨Ext.trans' _ _ _ x.1 y.1, W.trans _ _ _ x.2 y.2⟩
theorem WE.alloc (h : Heap) {o : Obj} (ho : ∀ f tl es, o ≠ .map f tl es) : WE h (h ++ [o]) := ⟨Ext.alloc _ _, W.alloc _ ho⟩

theorem Tri.and {α : Type} {h : Heap} {m : M Heap α} {Q Q' : α → Heap → Prop} {E E' : Heap → Prop} (t : Tri h m Q E) (t' : Tri h m Q' E') :
    Tri h m (fun a h' => Q a h' ∧ Q' a h') (fun h' => E h' ∧ E' h') :=
  ⟨fun a h' e => ⟨t.ok _ _ e, t'.ok _ _ e⟩, fun h' e => ⟨t.panic _ e, t'.panic _ e⟩⟩

theorem frozenCopy_we (n : Nat) (r : Ref) (h : Heap) (s : Sep h) : Tri h (frozenCopy n r) (fun _ h' => WE h h') (WE h) :=
  (frozenCopy_ext n r h).and (frozenCopy_w n r h s)

theorem mapEach_frozenCopy_we (n : Nat) (l : List Ref) (h : Heap) (s : Sep h) : Tri h (mapEach (frozenCopy n) l) (fun _ h' => WE h h') (WE h) :=
  (Tri.mapEach (Q' := fun _ _ _ => True) WE.refl WE.trans (fun _ _ _ _ _ _ => trivial) l
    fun a _ h1 w => (frozenCopy_we n a h1 (w.2.sep s)).conseq (fun _ _ x => ⟨x, trivial⟩) (fun _ x => x)).conseq (fun _ _ x => x.1) fun _ x => x

theorem Ents.nodes {h : Heap} {es : List Nat} {l : Entries} (x : Ents h es l) : ∀ e ∈ es, ∃ k v, h[e]? = some (.entry k v) := fun e he => by
  obtain ⟨kv, _, hx⟩ := x.mem he
  exact ⟨_, _, hx⟩

theorem Tri.loadMap_is {β : Type} {h : Heap} {E : Heap → Prop} {p tl : Nat} {f : Bool} {es : List Nat} (hp : h[p]? = some (.map f tl es))
    {g : Bool × Nat × List Nat → M Heap β} {Q' : β → Heap → Prop} (t : Tri h (g (f, tl, es)) Q' E) : Tri h (loadMap p >>= g) Q' E := by
  have e : loadMap p h = .ok (f, tl, es) h := by unfold loadMap; rw [M.bind_ok (load_run hp)]; rfl
  exact ⟨fun a h' x => t.ok _ _ (by rwa [M.bind_ok e] at x), fun h' x => t.panic _ (by rwa [M.bind_ok e] at x)⟩

theorem Tri.loadEntry_is {β : Type} {h : Heap} {E : Heap → Prop} {p : Nat} {k : BitVec 64} {v : Ref} (hp : h[p]? = some (.entry k v))
    {g : BitVec 64 × Ref → M Heap β} {Q' : β → Heap → Prop} (t : Tri h (g (k, v)) Q' E) : Tri h (loadEntry p >>= g) Q' E := by
  have e : loadEntry p h = .ok (k, v) h := by unfold loadEntry; rw [M.bind_ok (load_run hp)]; rfl
  exact ⟨fun a h' x => t.ok _ _ (by rwa [M.bind_ok e] at x), fun h' x => t.panic _ (by rwa [M.bind_ok e] at x)⟩

theorem Tri.mapEachF {α γ : Type} {h : Heap} {f : α → M Heap γ} {R : Heap → Heap → Prop} {Q' : α → γ → Heap → Prop}
    (rrefl : ∀ h, R h h) (rtrans : ∀ a b c, R a b → R b c → R a c)
    (qmono : ∀ a b h h', R h h' → Q' a b h → Q' a b h') (l : List α)
    (hf : ∀ a ∈ l, ∀ h1, R h h1 → Tri h1 (f a) (fun b h2 => R h1 h2 ∧ Q' a b h2) (fun _ => False)) :
    Tri h (Graph.mapEach f l) (fun bs h' => R h h' ∧ List.Forall₂ (fun a b => Q' a b h') l bs) (fun _ => False) := by
  refine ⟨(Tri.mapEach rrefl rtrans qmono l fun a ha h1 x => (hf a ha h1 x).conseq (fun _ _ y => y) fun _ y => y.elim).ok, ?_⟩
  have : ∀ (l' : List α) (h1 : Heap), (∀ a ∈ l', a ∈ l) → R h h1 → Tri h1 (Graph.mapEach f l') (fun _ _ => True) (fun _ => False) := by
    intro l'
    induction l' with
    | nil => intro h1 _ _; exact Tri.pure trivial
    | cons a l' ih =>
      intro h1 hs x
      refine Tri.bind (hf a (hs a (.head _)) h1 x) (fun b h2 y => ?_) (fun _ y => y)
      exact Tri.bind (ih h2 (fun b hb => hs b (.tail _ hb)) (rtrans _ _ _ x y.1)) (fun _ _ _ => Tri.pure trivial) (fun _ y => y)
  exact (this l h (fun _ h => h) (rrefl h)).panic

/-- The nodes are new, in no map, and have these entries. -/
structure NewNodes (h h' : Heap) (bs : List Nat) (l : Entries) : Prop where
  ents : Ents h' bs l
  free : ∀ b ∈ bs, Unowned h' b
  new : ∀ b ∈ bs, h.length ≤ b

/-- The loop of `renode` and of `Map` -/
def renodeWith (f : BitVec 64 → Ref → Ref) (es : List Nat) : M Heap (List Nat) :=
  mapEach (fun e => do
    let kv ← loadEntry e
    Graph.alloc (.entry kv.1 (f kv.1 kv.2))) es

theorem renodeWith_we (f : BitVec 64 → Ref → Ref) {es : List Nat} {l : Entries} {h : Heap} (s : Sep h) (x : Ents h es l) :
    Tri h (renodeWith f es) (fun bs h' => WE h h' ∧ NewNodes h h' bs (l.map fun kv => (kv.1, f kv.1 kv.2))) (fun _ => False) := by
  refine (Tri.mapEachF (R := WE) (Q' := fun a b hh => ∃ k v, h[a]? = some (.entry k v) ∧ hh[b]? = some (.entry k (f k v)) ∧ Unowned hh b ∧ h.length ≤ b)
    WE.refl WE.trans ?_ es fun a ha h1 w => ?_).conseq (fun bs h1 y => ?_) fun _ y => y
  · rintro a b h1 h2 w ⟨k, v, h3, h4, h5, h6⟩
    exact ⟨k, v, h3, w.1.get h4, h5.mono (get_lt h4) w.2, h6⟩
  · obtain ⟨kv, _, hk⟩ := x.mem ha
    refine Tri.loadEntry_is (w.1.get hk) ?_
    exact Tri.alloc ⟨WE.alloc _ not_map', kv.1, kv.2, hk, get_alloc _ _, unowned_new (w.2.sep s) _ _, w.2.len⟩
  · refine ⟨y.1, ?_, ?_, ?_⟩
    · have hf := y.2
      clear y
      induction hf generalizing l with
      | nil => cases x; exact .nil
      | cons h2 _ ih =>
        obtain ⟨k, v, h3, h4, _⟩ := h2
        cases x with
        | cons h5 h6 =>
          rw [h3] at h5
          refine .cons ?_ (ih h6)
          cases h5
          exact h4
    · intro b hb
      obtain ⟨a, k, v, _, _, h3, _⟩ := forall₂_right' y.2 hb
      exact h3
    · intro b hb
      obtain ⟨a, k, v, _, _, _, h3⟩ := forall₂_right' y.2 hb
      exact h3

theorem renode_we {es : List Nat} {l : Entries} {h : Heap} (s : Sep h) (x : Ents h es l) :
    Tri h (renode es) (fun bs h' => WE h h' ∧ NewNodes h h' bs l) (fun _ => False) := by
  have := renodeWith_we (fun _ v => v) s x
  rw [show (fun kv : BitVec 64 × Ref => (kv.1, kv.2)) = id from rfl, List.map_id] at this
  exact this

/-! ### Put -/

/-- Looking up a key, when it is known whether it is there. -/
theorem Tri.findNode {β : Type} {h : Heap} {E : Heap → Prop} {k : BitVec 64} {es : List Nat} {f : Option Nat → M Heap β} {Q' : β → Heap → Prop}
    (hs : ∀ e ∈ es, ∀ v, h[e]? = some (.entry k v) → Tri h (f (some e)) Q' E)
    (hn : (∀ e ∈ es, ∀ v, h[e]? ≠ some (.entry k v)) → Tri h (f none) Q' E) (x : ∀ e ∈ es, ∃ k v, h[e]? = some (.entry k v)) :
    Tri h (findNode k es >>= f) Q' E := by
  refine Tri.bind (Q1 := fun a h' => h' = h ∧ (∀ e, a = some e → e ∈ es ∧ ∃ v, h[e]? = some (.entry k v)) ∧ (a = none → ∀ e ∈ es, ∀ v, h[e]? ≠ some (.entry k v)))
    (E1 := fun h' => False) ?_ ?_ (fun _ z => z.elim)
  · clear hs hn
    induction es with
    | nil => exact Tri.pure ⟨rfl, fun e x => (by cases x), fun _ e he => (by cases he)⟩
    | cons a es ih =>
      obtain ⟨k', v, hv⟩ := x a (.head _)
      refine Tri.loadEntry_is hv ?_
      dsimp only
      split
      · rename_i hk
        have hk : k = k' := by simpa using hk
        subst hk
        exact Tri.pure ⟨rfl, fun e x => (by cases x; exact ⟨by simp, v, hv⟩), fun x => by cases x⟩
      · rename_i hk
        have hk : k ≠ k' := by simpa using hk
        refine (ih fun e he => x e (.tail _ he)).conseq (fun a h' ⟨e1, e2, e3⟩ => ⟨e1, fun e x => ⟨List.mem_cons_of_mem _ (e2 e x).1, (e2 e x).2⟩, fun x e he w hw => ?_⟩) fun _ x => x
        cases he with
        | head => rw [hv] at hw; cases hw; exact hk rfl
        | tail _ he => exact e3 x e he w hw
  · rintro (_ | a) h' ⟨rfl, x, y⟩
    · exact hn (y rfl)
    · obtain ⟨h1, v, h2⟩ := x a rfl
      exact hs a h1 v h2

/-- All objects but that at `p` and the nodes are as before. -/
def Frame (p : Nat) (es : List Nat) (h h' : Heap) : Prop := ∀ (q : Nat) (o : Obj), q ≠ p → q ∉ es → h[q]? = some o → h'[q]? = some o

theorem Frame.of_ext {p : Nat} {es : List Nat} {h h' : Heap} (x : Ext h h') : Frame p es h h' := fun q o _ _ e => x.get e

theorem Frame.trans {p : Nat} {es es' : List Nat} {a b c : Heap} (x : Frame p es a b) (y : Frame p es' b c) (h : ∀ e ∈ es', e ∈ es ∨ a.length ≤ e) : Frame p es a c := by
  intro q o hp he e
  refine y q o hp (fun hm => ?_) (x q o hp he e)
  rcases h q hm with h1 | h1
  · exact he h1
  · exact absurd (get_lt e) (by omega)

theorem Frame.set {p : Nat} (es : List Nat) (h : Heap) (o : Obj) : Frame p es h (h.set p o) := fun q o' hp _ e => by rw [get_set_ne hp]; exact e
theorem Frame.setNode {p : Nat} {es : List Nat} (h : Heap) {e : Nat} (he : e ∈ es) (o : Obj) : Frame p es h (h.set e o) := fun q o' _ hq hx => by
  rw [get_set_ne (by rintro rfl; exact hq he)]; exact hx

theorem ne_of_key {h : Heap} {es : List Nat} {l : Entries} (x : Ents h es l) {k : BitVec 64} (hn : ∀ e ∈ es, ∀ v, h[e]? ≠ some (.entry k v)) : ∀ kv ∈ l, kv.1 ≠ k := by
  induction x with
  | nil => intro kv hm; cases hm
  | cons h1 _ ih =>
    intro kv hm
    cases hm with
    | head => rintro rfl; exact hn _ (.head _) _ h1
    | tail _ hm => exact ih (fun e he => hn e (.tail _ he)) kv hm

theorem mput_eff {h : Heap} (s : Sep h) {p tl : Nat} {es : List Nat} {l : Entries} (hp : h[p]? = some (.map false tl es)) (x : Ents h es l)
    (k : BitVec 64) (r : Ref) :
    Tri h (mput p k r) (fun _ h' => Sep h' ∧ (∃ tl' es', h'[p]? = some (.map false tl' es') ∧ Ents h' es' (upd k r l)) ∧ Frame p es h h')
      (fun _ => False) := by
  have hnd : (l.map (·.1)).Nodup := by
    obtain ⟨l', h1, h2⟩ := s.own' hp
    rw [x.inj h1]; exact h2
  refine Tri.loadMap_is hp ?_
  dsimp only
  refine Tri.findNode (fun e he v hv => ?_) (fun hn => ?_) x.nodes
  · have hne : e ≠ p := by rintro rfl; rw [hv] at hp; cases hp
    have ht : (if tl = 0 then HMap.tableSizeFor 1 else tl) ≠ 0 := by
      split
      · exact Nat.ne_of_gt (HMap.tableSizeFor_pos 1)
      · assumption
    generalize (if tl = 0 then HMap.tableSizeFor 1 else tl) = tl' at ht
    have s1 : Sep (h.set p (.map false tl' es)) :=
      s.setMap hp (fun _ _ h => by cases h) ⟨l, x, hnd⟩ (fun q f' tl'' es' hq hx e he he' => s.apart _ _ _ _ _ _ _ _ hx hp hq e he' he) fun h0 => absurd h0 ht
    have hv1 : (h.set p (.map false tl' es))[e]? = some (.entry k v) := by rw [get_set_ne hne]; exact hv
    have x1 : Ents (h.set p (.map false tl' es)) es l := x.cong fun e' he' k' v' hx => by
      rw [get_set_ne (by rintro rfl; rw [hx] at hp; cases hp)]; exact hx
    refine Tri.store_bind (Tri.store ⟨s1.setEntry hv1, ⟨tl', es, ?_, x1.upd hnd r he hv1⟩, ?_⟩)
    · rw [get_set_ne hne.symm]; exact get_set hp
    · exact (Frame.set es h _).trans (Frame.setNode _ he _) fun _ => .inl
  · have ht : (if tl = 0 then HMap.tableSizeFor 1 else tl) ≠ 0 := by
      split
      · exact Nat.ne_of_gt (HMap.tableSizeFor_pos 1)
      · assumption
    generalize (if tl = 0 then HMap.tableSizeFor 1 else tl) = tl0 at ht
    refine Tri.bind (Q1 := fun a h1 => a.1 ≠ 0 ∧ WE h h1 ∧ Ents h1 a.2 l ∧ ∀ (q : Nat) (f' : Bool) (tl' : Nat) (es' : List Nat), q ≠ p → h1[q]? = some (.map f' tl' es') → ∀ e ∈ a.2, e ∉ es')
      (E1 := fun _ => False) ?_ ?_ (fun _ z => z.elim)
    · unfold grow
      split
      · refine Tri.bind (renode_we s x) (fun bs h1 y => ?_) (fun _ y => y)
        refine Tri.pure ?_
        exact ⟨Nat.ne_of_gt (HMap.tableSizeFor_pos _), y.1, y.2.ents, fun q f' tl' es' _ hx e he => y.2.free e he _ _ _ _ hx⟩
      · refine Tri.pure ?_
        exact ⟨ht, WE.refl h, x, fun q f' tl' es' hq hx e he he' => s.apart _ _ _ _ _ _ _ _ hx hp hq e he' he⟩
    · rintro ⟨tl', es'⟩ h1 ⟨ht, w, y, hu⟩
      dsimp only at ht y hu ⊢
      have s1 := w.2.sep s
      refine Tri.alloc_bind (Tri.store ?_)
      have hp2 : (h1 ++ [.entry k r])[p]? = some (.map false tl es) := (w.1.snoc _).get hp
      have y2 := y.snoc k r
      rw [← upd_new (ne_of_key x hn)] at y2
      have s2 : Sep (h1 ++ [.entry k r]) := s1.alloc not_map'
      refine ⟨s2.setMap hp2 (fun _ _ h => by cases h) ⟨_, y2, upd_nodup hnd⟩ ?_ (fun h0 => absurd h0 ht), ⟨tl', es' ++ [h1.length], get_set hp2, ?_⟩, ?_⟩
      · intro q f' tl'' es'' hq hx e he he'
        have hx' := snoc_map not_map' hx
        rcases List.mem_append.1 he with he | he
        · exact hu q f' tl'' es'' hq hx' e he he'
        · cases List.mem_singleton.1 he
          exact unowned_new s1 k r _ _ _ _ hx he'
      · exact y2.cong fun e he k' v' hx => by rw [get_set_ne (by rintro rfl; rw [hx] at hp2; cases hp2)]; exact hx
      · exact (Frame.of_ext (w.1.snoc _)).trans (Frame.set es _ _) fun _ => .inl

/-! ### PutAll -/

/-- What `putNodes` leaves behind: only the nodes change, and new nodes are added. -/
structure Puts (h h' : Heap) (es es' : List Nat) : Prop where
  len : h.length ≤ h'.length
  rest : ∀ (q : Nat) (o : Obj), q ∉ es → h[q]? = some o → h'[q]? = some o
  maps : ∀ (q : Nat) (f : Bool) (tl : Nat) (es : List Nat), h'[q]? = some (.map f tl es) → h[q]? = some (.map f tl es)
  nodes : ∀ e ∈ es', e ∈ es ∨ h.length ≤ e

theorem Puts.trans {a b c : Heap} {es es' es'' : List Nat} (x : Puts a b es es') (y : Puts b c es' es'') : Puts a c es es'' where
  len := Nat.le_trans x.len y.len
  rest q o hq e := by
    refine y.rest q o (fun hm => ?_) (x.rest q o hq e)
    rcases x.nodes q hm with h1 | h1
    · exact hq h1
    · exact absurd (get_lt e) (by omega)
  maps q f tl es hx := x.maps q f tl es (y.maps q f tl es hx)
  nodes e he := by
    rcases y.nodes e he with h1 | h1
    · exact x.nodes e h1
    · exact .inr (Nat.le_trans x.len h1)

theorem putNode_eff {h : Heap} (s : Sep h) {es : List Nat} {l : Entries} (x : Ents h es l) (hnd : (l.map (·.1)).Nodup) (k : BitVec 64) (r : Ref) :
    Tri h (putNode es k r) (fun es' h' => Sep h' ∧ Ents h' es' (upd k r l) ∧ Puts h h' es es') (fun _ => False) := by
  refine Tri.findNode (fun e he v hv => ?_) (fun hn => ?_) x.nodes
  · refine Tri.store_bind (Tri.pure ⟨s.setEntry hv, x.upd hnd r he hv, by simp, fun q o hq hx => ?_, fun q f tl es hx => ?_, fun _ => .inl⟩)
    · rw [get_set_ne (by rintro rfl; exact hq he)]; exact hx
    · rcases get_set_some hx with ⟨_, h1⟩ | h1
      · cases h1
      · exact h1.2
  · refine Tri.alloc_bind (Tri.pure ⟨s.alloc not_map', ?_, by simp, fun q o _ hx => (Ext.alloc _ _).get hx, fun q f tl es hx => snoc_map not_map' hx, fun e he => ?_⟩)
    · rw [upd_new (ne_of_key x hn)]; exact x.snoc k r
    · rcases List.mem_append.1 he with he | he
      · exact .inl he
      · exact .inr (by simp at he; omega)

theorem putNodes_eff (as : List Nat) : ∀ {h : Heap} (s : Sep h) {es : List Nat} {l la : Entries} (x : Ents h es l) (hnd : (l.map (·.1)).Nodup)
    (y : Ents h as la) (hd : ∀ a ∈ as, a ∉ es),
    Tri h (putNodes es as) (fun es' h' => Sep h' ∧ Ents h' es' (updAll l la) ∧ Puts h h' es es') (fun _ => False) := by
  induction as with
  | nil =>
    intro h s es l la x hnd y hd
    cases y
    exact Tri.pure ⟨s, x, Nat.le_refl _, fun _ _ _ e => e, fun _ _ _ _ e => e, fun _ => .inl⟩
  | cons a as ih =>
    intro h s es l la x hnd y hd
    cases y with
    | cons y1 y2 =>
    rename_i kv la
    refine Tri.loadEntry_is y1 ?_
    refine Tri.bind (putNode_eff s x hnd kv.1 kv.2) ?_ (fun _ z => z)
    rintro es1 h1 ⟨s1, x1, p1⟩
    refine (ih s1 x1 (upd_nodup hnd) (Ents.cong y2 fun e he k v hx => p1.rest e _ (hd e (.tail _ he)) hx) ?_).conseq ?_ (fun _ z => z.elim)
    · intro b hb hm
      rcases p1.nodes b hm with h2 | h2
      · exact hd b (.tail _ hb) h2
      · obtain ⟨kv', _, hx⟩ := Ents.mem y2 hb
        exact absurd (get_lt hx) (by omega)
    · rintro es2 h2 ⟨s2, x2, p2⟩
      exact ⟨s2, x2, p1.trans p2⟩

theorem set_self {h : Heap} {e : Nat} {o : Obj} (he : h[e]? = some o) : h.set e o = h := by
  apply List.ext_getElem?
  intro i
  by_cases hi : i = e
  · subst hi; rw [get_set he, he]
  · rw [get_set_ne hi]

/-- The entry of a key, when keys are distinct -/
theorem Ents.key_inj {h : Heap} {es : List Nat} {l : Entries} (x : Ents h es l) (hnd : (l.map (·.1)).Nodup) {a b : Nat} (ha : a ∈ es) (hb : b ∈ es)
    {k : BitVec 64} {v w : Ref} (hka : h[a]? = some (.entry k v)) (hkb : h[b]? = some (.entry k w)) : a = b := by
  induction x with
  | nil => cases ha
  | cons h1 t ih =>
    simp only [List.map_cons, List.nodup_cons] at hnd
    have out : ∀ {c : Nat} {u : Ref} {kv : BitVec 64 × Ref} {es : List Nat} {l : Entries}, Ents h es l → kv.1 ∉ l.map (·.1) → kv.1 = k → c ∈ es → h[c]? = some (.entry k u) → False := by
      intro c u kv es l t hn hk hc hx
      obtain ⟨kv', hm, hx'⟩ := Ents.mem t hc
      rw [hx] at hx'
      simp only [Option.some.injEq, Obj.entry.injEq] at hx'
      exact hn (List.mem_map.2 ⟨kv', hm, by rw [hk, hx'.1]⟩)
    cases ha with
    | head =>
      rw [h1] at hka
      simp only [Option.some.injEq, Obj.entry.injEq] at hka
      cases hb with
      | head => rfl
      | tail _ hb => exact (out t hnd.1 hka.1 hb hkb).elim
    | tail _ ha =>
      cases hb with
      | head =>
        rw [h1] at hkb
        simp only [Option.some.injEq, Obj.entry.injEq] at hkb
        exact (out t hnd.1 hkb.1 ha hka).elim
      | tail _ hb => exact ih hnd.2 ha hb

theorem putNodes_self (as : List Nat) {h : Heap} {es : List Nat} {l : Entries} (x : Ents h es l) (hnd : (l.map (·.1)).Nodup) (hs : ∀ a ∈ as, a ∈ es) :
    Tri h (putNodes es as) (fun es' h' => es' = es ∧ h' = h) (fun _ => False) := by
  induction as with
  | nil => exact Tri.pure ⟨rfl, rfl⟩
  | cons a as ih =>
    obtain ⟨k, v, hv⟩ := x.nodes a (hs a (.head _))
    refine Tri.loadEntry_is hv ?_
    refine Tri.bind (Q1 := fun es' h' => es' = es ∧ h' = h) (E1 := fun h' => False) ?_ ?_ (fun _ z => z)
    · refine Tri.findNode (fun e he w hw => ?_) (fun hn => absurd hv (hn a (hs a (.head _)) v)) x.nodes
      cases x.key_inj hnd he (hs a (.head _)) hw hv
      rw [hv] at hw
      cases hw
      exact Tri.store_bind (Tri.pure ⟨rfl, set_self hv⟩)
    · rintro es' h' ⟨rfl, rfl⟩
      exact ih fun b hb => hs b (.tail _ hb)

theorem updAll_self {l : Entries} (hnd : (l.map (·.1)).Nodup) : (l' : Entries) → (∀ e ∈ l', e ∈ l) → updAll l l' = l
  | [], _ => rfl
  | e :: l', h => by
    unfold updAll
    rw [List.foldl_cons, upd_same hnd (h e (.head _))]
    exact updAll_self hnd l' fun e he => h e (.tail _ he)

theorem updAll_nodup {l : Entries} (hnd : (l.map (·.1)).Nodup) (l' : Entries) : ((updAll l l').map (·.1)).Nodup := by
  unfold updAll
  induction l' generalizing l with
  | nil => exact hnd
  | cons e l' ih => exact ih (upd_nodup hnd)

theorem mputAll_eff {h : Heap} (s : Sep h) {p q tl tq : Nat} {fq : Bool} {es as : List Nat} {l la : Entries} (hp : h[p]? = some (.map false tl es)) (x : Ents h es l)
    (hq : h[q]? = some (.map fq tq as)) (y : Ents h as la) :
    Tri h (mputAll p q) (fun _ h' => Sep h' ∧ (∃ tl' es', h'[p]? = some (.map false tl' es') ∧ Ents h' es' (updAll l la)) ∧ Frame p es h h')
      (fun _ => False) := by
  have hnd : (l.map (·.1)).Nodup := by
    obtain ⟨l', h1, h2⟩ := s.own' hp
    rw [x.inj h1]; exact h2
  have f0 : Frame p es h h := fun _ _ _ _ e => e
  refine Tri.loadMap_is hq ?_
  dsimp only
  split
  · rename_i h0
    cases List.length_eq_zero_iff.1 h0
    cases y
    exact Tri.pure ⟨s, ⟨tl, es, hp, x⟩, f0⟩
  refine Tri.loadMap_is hp ?_
  dsimp only
  refine Tri.bind (renode_we s x) (fun es1 h1 w => ?_) (fun _ z => z.elim)
  obtain ⟨w, nn⟩ := w
  have ht : HMap.tableSizeFor (tl + as.length) ≠ 0 := Nat.ne_of_gt (HMap.tableSizeFor_pos _)
  generalize HMap.tableSizeFor (tl + as.length) = tl1 at ht
  have s1 := w.2.sep s
  have hp1 := w.1.get hp
  refine Tri.store_bind ?_
  have keep : ∀ {hh : Heap} {o : Obj} {e : Nat} {k : BitVec 64} {v : Ref}, hh[p]? = some (.map false tl es) → hh[e]? = some (.entry k v) → (hh.set p o)[e]? = some (.entry k v) := by
    intro hh o e k v h1 h2
    rw [get_set_ne (by rintro rfl; rw [h1] at h2; cases h2)]; exact h2
  have s2 : Sep (h1.set p (.map false tl1 es1)) :=
    s1.setMap hp1 (fun _ _ h => by cases h) ⟨l, nn.ents, hnd⟩ (fun q f' tl'' es' _ hx e he => nn.free e he _ _ _ _ hx) fun h0 => absurd h0 ht
  have x2 : Ents (h1.set p (.map false tl1 es1)) es1 l := nn.ents.cong fun e _ k v hx => keep hp1 hx
  have f2 : Frame p es h (h1.set p (.map false tl1 es1)) := (Frame.of_ext w.1).trans (Frame.set es _ _) fun _ => .inl
  have hp2 : (h1.set p (.map false tl1 es1))[p]? = some (.map false tl1 es1) := get_set hp1
  by_cases hpq : q = p
  · subst hpq
    refine Tri.loadMap_is hp2 ?_
    rw [hp] at hq
    cases hq
    have hl := x.inj y
    subst hl
    refine Tri.bind (putNodes_self es1 x2 hnd fun _ h => h) ?_ (fun _ z => z.elim)
    rintro es' h' ⟨e1, e2⟩
    subst e2
    rw [e1]
    refine Tri.store ?_
    rw [set_self hp2, updAll_self hnd l fun _ h => h]
    exact ⟨s2, ⟨tl1, es1, hp2, x2⟩, f2⟩
  · have hq' : (h1.set p (.map false tl1 es1))[q]? = some (.map fq tq as) := by rw [get_set_ne hpq, w.1.get hq]
    refine Tri.loadMap_is hq' ?_
    have y2 : Ents (h1.set p (.map false tl1 es1)) as la := y.cong fun e _ k v hx => keep hp1 (w.1.get hx)
    refine Tri.bind (putNodes_eff as s2 x2 hnd y2 fun a ha hm => ?_) ?_ (fun _ z => z.elim)
    · obtain ⟨kv, _, hx⟩ := y.mem ha
      exact absurd (get_lt hx) (by have := nn.new a hm; omega)
    · rintro es3 h3 ⟨s3, x3, p3⟩
      have hp3 : h3[p]? = some (.map false tl1 es1) := p3.rest p _ (fun hm => by
        obtain ⟨kv, _, hx⟩ := x2.mem hm
        rw [hp2] at hx; cases hx) hp2
      refine Tri.store ⟨s3.setMap hp3 (fun _ _ h => by cases h) ⟨_, x3, updAll_nodup hnd la⟩ ?_ (fun h0 => absurd h0 ht), ⟨tl1, es3, get_set hp3, ?_⟩, ?_⟩
      · intro q' f' tl' es' hq' hx e he he'
        have hx2 := p3.maps _ _ _ _ hx
        rcases p3.nodes e he with h4 | h4
        · exact s2.apart _ _ _ _ _ _ _ _ hx2 hp2 hq' e he' h4
        · exact absurd ((s2.own' hx2).lt he') (by omega)
      · exact x3.cong fun e _ k v hx => by rw [get_set_ne (by rintro rfl; rw [hp3] at hx; cases hx)]; exact hx
      · intro q' o hq' he hx
        rw [get_set_ne hq']
        exact p3.rest q' o (fun hm => absurd (get_lt hx) (by have := nn.new q' hm; omega)) (f2 q' o hq' he hx)

/-! ### Remove -/

theorem del_none {k : BitVec 64} {l : Entries} (h : ∀ kv ∈ l, kv.1 ≠ k) : del k l = l := by
  unfold del
  rw [List.filter_eq_self]
  intro kv hm
  simpa using h kv hm

theorem Ents.del {h : Heap} {es : List Nat} {l : Entries} (x : Ents h es l) (hnd : (l.map (·.1)).Nodup) {e : Nat} {k : BitVec 64} {v : Ref}
    (he : e ∈ es) (hk : h[e]? = some (.entry k v)) : Ents h (es.filter (· != e)) (Graph.del k l) := by
  have key : ∀ {es' l'}, Ents h es' l' → (∀ a ∈ es', a ∈ es) → Ents h (es'.filter (· != e)) (Graph.del k l') := by
    intro es' l' y
    induction y with
    | nil => exact fun _ => .nil
    | cons h1 t ih =>
      rename_i a kv es' l'
      intro hs
      have ih := ih fun b hb => hs b (.tail _ hb)
      by_cases hae : a = e
      · subst hae
        rw [hk] at h1
        simp only [Option.some.injEq, Obj.entry.injEq] at h1
        rw [List.filter_cons_of_neg (by simp), Graph.del, List.filter_cons_of_neg (by simp [h1.1])]
        exact ih
      · have hkv : kv.1 ≠ k := by
          rintro rfl
          exact hae (x.key_inj hnd (hs a (.head _)) he h1 hk)
        rw [List.filter_cons_of_pos (by simpa using hae), Graph.del, List.filter_cons_of_pos (by simpa using hkv)]
        exact .cons h1 ih
  exact key x fun _ h => h

theorem dropNode_eff {h : Heap} {es : List Nat} {l : Entries} (x : Ents h es l) (hnd : (l.map (·.1)).Nodup) (k : BitVec 64) :
    Tri h (dropNode k es) (fun es' h' => h' = h ∧ Ents h es' (del k l) ∧ ∀ e ∈ es', e ∈ es) (fun _ => False) := by
  refine Tri.findNode (fun e he v hv => ?_) (fun hn => ?_) x.nodes
  · exact Tri.pure ⟨rfl, x.del hnd he hv, fun e he => (List.mem_filter.1 he).1⟩
  · refine Tri.pure ⟨rfl, ?_, fun _ h => h⟩
    rw [del_none (ne_of_key x hn)]
    exact x

theorem del_nodup {k : BitVec 64} {l : Entries} (h : (l.map (·.1)).Nodup) : ((del k l).map (·.1)).Nodup :=
  h.sublist (List.Sublist.map _ List.filter_sublist)

end Verif.Graph
