import Verif.Graph.Thaw
/-! # What no call changes: frozen collections -/
set_option autoImplicit false
set_option linter.unusedVariables false
namespace Verif.Graph

/-- A computation that starts in `h`, and what holds when it returns or panics. -/
structure Tri {α : Type} (h : Heap) (m : M Heap α) (Q : α → Heap → Prop) (E : Heap → Prop) : Prop where
  ok : ∀ a h', m h = .ok a h' → Q a h'
  panic : ∀ h', m h = .panic h' → E h'

namespace Tri
variable {α β : Type} {h : Heap} {m : M Heap α} {Q : α → Heap → Prop} {E : Heap → Prop}

theorem pure {a : α} (q : Q a h) : Tri h (pure a) Q E :=
  ⟨fun a' h' e => (by cases e; exact q), fun h' e => (by cases e)⟩
theorem throw (q : E h) : Tri h (M.throw : M Heap α) Q E :=
  ⟨fun a' h' e => (by cases e), fun h' e => (by cases e; exact q)⟩
theorem loop : Tri h (M.loop : M Heap α) Q E :=
  ⟨fun a' h' e => (by cases e), fun h' e => (by cases e)⟩
theorem bind {f : α → M Heap β} {Q1 : α → Heap → Prop} {E1 : Heap → Prop} {Q' : β → Heap → Prop} (t : Tri h m Q1 E1)
    (f2 : ∀ a h', Q1 a h' → Tri h' (f a) Q' E) (e : ∀ h', E1 h' → E h') : Tri h (m >>= f) Q' E := by
  constructor
  · intro b h' e'
    obtain ⟨a, h1, e1, e2⟩ := bind_eq_ok e'
    exact (f2 a h1 (t.ok _ _ e1)).ok _ _ e2
  · intro h' e'
    rcases bind_eq_panic e' with e1 | ⟨a, h1, e1, e2⟩
    · exact e _ (t.panic _ e1)
    · exact (f2 a h1 (t.ok _ _ e1)).panic _ e2
theorem conseq {Q1 : α → Heap → Prop} {E1 : Heap → Prop} (t : Tri h m Q1 E1) (q : ∀ a h', Q1 a h' → Q a h')
    (e : ∀ h', E1 h' → E h') : Tri h m Q E :=
  ⟨fun a h' x => q _ _ (t.ok _ _ x), fun h' x => e _ (t.panic _ x)⟩
theorem load_bind {p : Nat} {f : Obj → M Heap β} {Q' : β → Heap → Prop} (hf : ∀ o, h[p]? = some o → Tri h (f o) Q' E) (e : E h) :
    Tri h (load p >>= f) Q' E := by
  match hp : h[p]? with
  | none => exact ⟨fun a h' x => (by rw [M.bind_panic (load_run_none hp)] at x; cases x),
      fun h' x => (by rw [M.bind_panic (load_run_none hp)] at x; cases x; exact e)⟩
  | some o =>
    have := hf o hp
    exact ⟨fun a h' x => this.ok _ _ (by rw [M.bind_ok (load_run hp)] at x; exact x),
      fun h' x => this.panic _ (by rw [M.bind_ok (load_run hp)] at x; exact x)⟩
theorem loadArr_bind {p : Nat} {f : Bool × List Ref → M Heap β} {Q' : β → Heap → Prop}
    (hf : ∀ fr es, h[p]? = some (.arr fr es) → Tri h (f (fr, es)) Q' E) (e : E h) : Tri h (loadArr p >>= f) Q' E := by
  refine bind (Q1 := fun a h' => h' = h ∧ h[p]? = some (.arr a.1 a.2)) (E1 := fun h' => h' = h) ?_ ?_ ?_
  · refine load_bind (fun o ho => ?_) rfl
    cases o <;> first | exact throw rfl | exact pure ⟨rfl, ho⟩
  · rintro ⟨a, b⟩ h' ⟨rfl, x⟩; exact hf _ _ x
  · rintro h' rfl; exact e
theorem loadMap_bind {p : Nat} {f : Bool × Nat × List Nat → M Heap β} {Q' : β → Heap → Prop}
    (hf : ∀ fr tl es, h[p]? = some (.map fr tl es) → Tri h (f (fr, tl, es)) Q' E) (e : E h) : Tri h (loadMap p >>= f) Q' E := by
  refine bind (Q1 := fun a h' => h' = h ∧ h[p]? = some (.map a.1 a.2.1 a.2.2)) (E1 := fun h' => h' = h) ?_ ?_ ?_
  · refine load_bind (fun o ho => ?_) rfl
    cases o <;> first | exact throw rfl | exact pure ⟨rfl, ho⟩
  · rintro ⟨a, b, c⟩ h' ⟨rfl, x⟩; exact hf _ _ _ x
  · rintro h' rfl; exact e
theorem loadEntry_bind {p : Nat} {f : BitVec 64 × Ref → M Heap β} {Q' : β → Heap → Prop}
    (hf : ∀ k v, h[p]? = some (.entry k v) → Tri h (f (k, v)) Q' E) (e : E h) : Tri h (loadEntry p >>= f) Q' E := by
  refine bind (Q1 := fun a h' => h' = h ∧ h[p]? = some (.entry a.1 a.2)) (E1 := fun h' => h' = h) ?_ ?_ ?_
  · refine load_bind (fun o ho => ?_) rfl
    cases o <;> first | exact throw rfl | exact pure ⟨rfl, ho⟩
  · rintro ⟨a, b⟩ h' ⟨rfl, x⟩; exact hf _ _ x
  · rintro h' rfl; exact e
theorem store {p : Nat} {o : Obj} {Q' : Unit → Heap → Prop} (q : Q' () (h.set p o)) : Tri h (store p o) Q' E :=
  ⟨fun a h' x => (by cases x; exact q), fun h' x => (by cases x)⟩
theorem store_bind {p : Nat} {o : Obj} {f : Unit → M Heap β} {Q' : β → Heap → Prop} (t : Tri (h.set p o) (f ()) Q' E) :
    Tri h (Graph.store p o >>= f) Q' E := ⟨fun a h' x => t.ok _ _ x, fun h' x => t.panic _ x⟩
theorem alloc {o : Obj} {Q' : Nat → Heap → Prop} (q : Q' h.length (h ++ [o])) : Tri h (alloc o) Q' E :=
  ⟨fun a h' x => (by cases x; exact q), fun h' x => (by cases x)⟩
theorem alloc_bind {o : Obj} {f : Nat → M Heap β} {Q' : β → Heap → Prop} (t : Tri (h ++ [o]) (f h.length) Q' E) :
    Tri h (Graph.alloc o >>= f) Q' E := ⟨fun a h' x => t.ok _ _ x, fun h' x => t.panic _ x⟩
theorem allocObj {o : Obj} {Q' : Ref → Heap → Prop} (q : Q' (.obj h.length) (h ++ [o])) : Tri h (allocObj o) Q' E :=
  alloc_bind (pure q)
theorem get_bind {f : Heap → M Heap β} {Q' : β → Heap → Prop} (t : Tri h (f h) Q' E) : Tri h (M.get >>= f) Q' E :=
  ⟨fun a h' x => t.ok _ _ x, fun h' x => t.panic _ x⟩
theorem findNode_bind {k : BitVec 64} {es : List Nat} {f : Option Nat → M Heap β} {Q' : β → Heap → Prop}
    (hs : ∀ e ∈ es, ∀ v, h[e]? = some (.entry k v) → Tri h (f (some e)) Q' E) (hn : Tri h (f none) Q' E) (e : E h) :
    Tri h (findNode k es >>= f) Q' E := by
  refine bind (Q1 := fun a h' => h' = h ∧ ∀ e, a = some e → e ∈ es ∧ ∃ v, h[e]? = some (.entry k v)) (E1 := fun h' => h' = h) ?_ ?_ ?_
  · clear hs hn
    induction es with
    | nil => exact pure ⟨rfl, fun e x => by cases x⟩
    | cons a es ih =>
      refine loadEntry_bind (fun k' v hv => ?_) rfl
      dsimp only
      split
      · rename_i hk
        have hk : k = k' := by simpa using hk
        subst hk
        exact pure ⟨rfl, fun e x => by cases x; exact ⟨by simp, v, hv⟩⟩
      · exact ih.conseq (fun a h' ⟨e1, e2⟩ => ⟨e1, fun e x => ⟨List.mem_cons_of_mem _ (e2 e x).1, (e2 e x).2⟩⟩) fun _ x => x
  · rintro (_ | a) h' ⟨rfl, x⟩
    · exact hn
    · obtain ⟨h1, v, h2⟩ := x a rfl
      exact hs a h1 v h2
  · rintro h' rfl; exact e
theorem mapEach {γ : Type} {f : α → M Heap γ} {R : Heap → Heap → Prop} {Q' : α → γ → Heap → Prop}
    (rrefl : ∀ h, R h h) (rtrans : ∀ a b c, R a b → R b c → R a c)
    (qmono : ∀ a b h h', R h h' → Q' a b h → Q' a b h') (l : List α)
    (hf : ∀ a ∈ l, ∀ h1, R h h1 → Tri h1 (f a) (fun b h2 => R h1 h2 ∧ Q' a b h2) (R h1)) :
    Tri h (mapEach f l) (fun bs h' => R h h' ∧ List.Forall₂ (fun a b => Q' a b h') l bs) (R h) := by
  have := mapEach_post (f := f) (R := R) (Q := Q') rrefl rtrans qmono l (h0 := h)
    (fun a ha h1 b h2 x e => (hf a ha h1 x).ok _ _ e) (fun a ha h1 h2 x e => (hf a ha h1 x).panic _ e) (rrefl h)
  exact ⟨this.1, this.2⟩
end Tri

/-- Existing objects are as before, but entries may have got other values. -/
def Nd (h h' : Heap) : Prop := ∀ (p : Nat) (o : Obj), h[p]? = some o →
  h'[p]? = some o ∨ ∃ k v v', o = .entry k v ∧ h'[p]? = some (.entry k v')

/-- Frozen arrays, maps and binaries are as before. -/
def Kp (h h' : Heap) : Prop := ∀ (p : Nat) (o : Obj), h[p]? = some o → o.flag = some true → h'[p]? = some o

theorem Nd.refl (h : Heap) : Nd h h := fun _ _ e => .inl e
theorem Nd.trans (a b c : Heap) (x : Nd a b) (y : Nd b c) : Nd a c := by
  intro p o e
  rcases x p o e with h1 | ⟨k, v, v', rfl, h1⟩
  · exact y p o h1
  · rcases y p _ h1 with h2 | ⟨k', w, w', e', h2⟩
    · exact .inr ⟨k, v, v', rfl, h2⟩
    · cases e'; exact .inr ⟨k, v, w', rfl, h2⟩
theorem Kp.refl (h : Heap) : Kp h h := fun _ _ e _ => e
theorem Kp.trans {a b c : Heap} (x : Kp a b) (y : Kp b c) : Kp a c := fun p o e hf => y p o (x p o e hf) hf
theorem Nd.flagged {h h' : Heap} (x : Nd h h') {p : Nat} {o : Obj} {b : Bool} (e : h[p]? = some o) (hf : o.flag = some b) :
    h'[p]? = some o := by
  rcases x p o e with h1 | ⟨k, v, v', rfl, h1⟩
  · exact h1
  · cases hf
theorem Nd.kp {h h' : Heap} (x : Nd h h') : Kp h h' := fun p o e hf => x.flagged e hf
theorem Ext.nd {h h' : Heap} (x : Ext h h') : Nd h h' := fun p o e => .inl (x.get e)
theorem Ext.kp {h h' : Heap} (x : Ext h h') : Kp h h' := fun p o e _ => x.get e

theorem Nd.entry {h h' : Heap} (x : Nd h h') {e : Nat} {k : BitVec 64} {v : Ref} (he : h[e]? = some (.entry k v)) :
    ∃ v', h'[e]? = some (.entry k v') := by
  rcases x e _ he with h1 | ⟨k, v, v', e1, h1⟩
  · exact ⟨v, h1⟩
  · cases e1; exact ⟨v', h1⟩

theorem get_set {h : Heap} {p : Nat} {o o' : Obj} (e : h[p]? = some o) : (h.set p o')[p]? = some o' := by
  rw [List.getElem?_set_self (List.getElem?_eq_some_iff.1 e).1]

theorem Nd.set {h : Heap} {e : Nat} {k : BitVec 64} {v v' : Ref} (he : h[e]? = some (.entry k v)) :
    Nd h (h.set e (.entry k v')) := by
  intro p o1 hp
  by_cases hpe : p = e
  · subst hpe; rw [he] at hp; cases hp
    exact .inr ⟨k, v, v', rfl, get_set he⟩
  · rw [List.getElem?_set_ne (by omega)]; exact .inl hp

theorem Kp.set {h : Heap} {e : Nat} {o o' : Obj} (he : h[e]? = some o) (hf : o.flag ≠ some true) : Kp h (h.set e o') := by
  intro p o1 hp hb
  by_cases hpe : p = e
  · subst hpe; rw [he] at hp; cases hp; exact absurd hb hf
  · rw [List.getElem?_set_ne (by omega)]; exact hp

theorem thawedCopy_nd (n : Nat) (r : Ref) (h : Heap) : Tri h (thawedCopy n r) (fun _ h' => Nd h h') (Nd h) := by
  induction n generalizing r h with
  | zero =>
    cases r with
    | atom i => exact Tri.pure (Nd.refl h)
    | obj p => exact Tri.loop
  | succ n ih =>
    cases r with
    | atom i => exact Tri.pure (Nd.refl h)
    | obj p =>
      refine Tri.load_bind (fun o ho => ?_) (Nd.refl h)
      cases o with
      | arr f es =>
        refine Tri.bind (Tri.mapEach (Q' := fun _ _ _ => True) Nd.refl Nd.trans (fun _ _ _ _ _ _ => trivial) es
          fun a _ h1 _ => (ih a h1).conseq (fun _ _ x => ⟨x, trivial⟩) (fun _ x => x)) (fun bs h1 x => ?_) (fun _ x => x)
        exact Tri.alloc_bind (Tri.pure (Nd.trans _ _ _ x.1 (Ext.alloc _ _).nd))
      | map f tl es =>
        refine Tri.bind (Tri.mapEach (Q' := fun _ _ _ => True) Nd.refl Nd.trans (fun _ _ _ _ _ _ => trivial) es
          fun a _ h1 _ => ?_) (fun bs h1 x => ?_) (fun _ x => x)
        · refine Tri.loadEntry_bind (fun k v _ => ?_) (Nd.refl _)
          refine Tri.bind (ih v h1) (fun v' h2 x => ?_) (fun _ x => x)
          exact Tri.alloc ⟨Nd.trans _ _ _ x (Ext.alloc _ _).nd, trivial⟩
        · exact Tri.alloc_bind (Tri.pure (Nd.trans _ _ _ x.1 (Ext.alloc _ _).nd))
      | entry k v =>
        refine Tri.alloc_bind ?_
        refine Tri.bind (ih v (h ++ [.entry k v])) (fun v' h1 x => ?_) (fun h1 x => Nd.trans _ _ _ (Ext.alloc _ _).nd x)
        obtain ⟨w, hw⟩ := x.entry ((Ext.alloc _ _).get ho)
        exact Tri.store_bind (Tri.pure (Nd.trans _ _ _ (Nd.trans _ _ _ (Ext.alloc _ _).nd x) (Nd.set hw)))
      | bin f bs => exact Tri.alloc_bind (Tri.pure (Ext.alloc _ _).nd)
      | sens v =>
        cases v with
        | atom i => exact Tri.pure (Nd.refl h)
        | obj v =>
          refine Tri.bind (ih (.obj v) h) (fun v' h2 x => ?_) (fun _ x => x)
          exact Tri.alloc_bind (Tri.pure (Nd.trans _ _ _ x (Ext.alloc _ _).nd))
      | native i => exact Tri.throw (Nd.refl h)

theorem frozenCopy_ext (n : Nat) (r : Ref) (h : Heap) : Tri h (frozenCopy n r) (fun _ h' => Ext h h') (Ext h) :=
  ⟨fun a h' e => ((frozenCopy_spec n).1 a h' e).1.ext, fun h' e => ((frozenCopy_spec n).2 h' e).ext⟩

theorem Ext.trans' (a b c : Heap) (x : Ext a b) (y : Ext b c) : Ext a c := List.IsPrefix.trans x y

theorem Ext.snoc {a b : Heap} (x : Ext a b) (o : Obj) : Ext a (b ++ [o]) := Ext.trans' _ _ _ x (Ext.alloc _ _)

theorem mapEach_frozenCopy_ext (n : Nat) (l : List Ref) (h : Heap) :
    Tri h (mapEach (frozenCopy n) l) (fun _ h' => Ext h h') (Ext h) :=
  (Tri.mapEach (Q' := fun _ _ _ => True) Ext.rfl' Ext.trans' (fun _ _ _ _ _ _ => trivial) l
    fun a _ h1 _ => (frozenCopy_ext n a h1).conseq (fun _ _ x => ⟨x, trivial⟩) (fun _ x => x)).conseq (fun _ _ x => x.1) fun _ x => x

theorem renode_ext (es : List Nat) (h : Heap) : Tri h (renode es) (fun _ h' => Ext h h') (Ext h) :=
  (Tri.mapEach (Q' := fun _ _ _ => True) Ext.rfl' Ext.trans' (fun _ _ _ _ _ _ => trivial) es
    fun a _ h1 _ => Tri.loadEntry_bind (fun k v _ => Tri.alloc ⟨Ext.alloc _ _, trivial⟩) (Ext.rfl' _)).conseq (fun _ _ x => x.1) fun _ x => x

theorem grow_ext (tl : Nat) (es : List Nat) (h : Heap) : Tri h (grow tl es) (fun _ h' => Ext h h') (Ext h) := by
  unfold grow
  split
  · exact Tri.bind (renode_ext es h) (fun _ _ x => Tri.pure x) (fun _ x => x)
  · exact Tri.pure (Ext.rfl' h)

theorem frozenIf_ext (n : Nat) (b : Bool) (l : List Ref) (h : Heap) : Tri h (frozenIf n b l) (fun _ h' => Ext h h') (Ext h) := by
  unfold frozenIf
  split
  · exact mapEach_frozenCopy_ext n l h
  · exact Tri.pure (Ext.rfl' h)

theorem hasValue_same (n : Nat) (k : BitVec 64) (r : Ref) (es : List Nat) (h : Heap) :
    Tri h (hasValue n k r es) (fun _ h' => h' = h) (fun h' => h' = h) := by
  refine Tri.findNode_bind (fun e' _ v he => ?_) (Tri.pure rfl) rfl
  refine Tri.loadEntry_bind (fun k v _ => Tri.get_bind ?_) rfl
  dsimp only
  split
  · exact Tri.pure rfl
  · exact Tri.loop

theorem putNode_nd (es : List Nat) (k : BitVec 64) (r : Ref) (h : Heap) :
    Tri h (putNode es k r) (fun _ h' => Nd h h') (Nd h) := by
  refine Tri.findNode_bind (fun e _ v he => ?_) ?_ (Nd.refl h)
  · exact Tri.store_bind (Tri.pure (Nd.set he))
  · exact Tri.alloc_bind (Tri.pure (Ext.alloc _ _).nd)

theorem putNodes_nd (es as : List Nat) (h : Heap) : Tri h (putNodes es as) (fun _ h' => Nd h h') (Nd h) := by
  induction as generalizing es h with
  | nil => exact Tri.pure (Nd.refl h)
  | cons a as ih =>
    refine Tri.loadEntry_bind (fun k v _ => ?_) (Nd.refl h)
    refine Tri.bind (putNode_nd es k v h) (fun es' h1 x => ?_) (fun _ x => x)
    exact (ih es' h1).conseq (fun _ _ y => Nd.trans _ _ _ x y) (fun _ y => Nd.trans _ _ _ x y)

/-- All but the object at `p` are as before, or entries with other values. -/
def NdBut (p : Nat) (h h' : Heap) : Prop := ∀ (q : Nat) (o : Obj), q ≠ p → h[q]? = some o →
  h'[q]? = some o ∨ ∃ k v v', o = .entry k v ∧ h'[q]? = some (.entry k v')

theorem Nd.but {p : Nat} {h h' : Heap} (x : Nd h h') : NdBut p h h' := fun q o _ e => x q o e
theorem NdBut.trans {p : Nat} {a b c : Heap} (x : NdBut p a b) (y : NdBut p b c) : NdBut p a c := by
  intro q o hq e
  rcases x q o hq e with h1 | ⟨k, v, v', rfl, h1⟩
  · exact y q o hq h1
  · rcases y q _ hq h1 with h2 | ⟨k', w, w', e', h2⟩
    · exact .inr ⟨k, v, v', rfl, h2⟩
    · cases e'; exact .inr ⟨k, v, w', rfl, h2⟩
theorem NdBut.set (p : Nat) (h : Heap) (o' : Obj) : NdBut p h (h.set p o') := by
  intro q o hq e
  rw [List.getElem?_set_ne (by omega)]; exact .inl e
theorem NdBut.kp {p : Nat} {h h' : Heap} (x : NdBut p h h') {o : Obj} (hp : h[p]? = some o) (hf : o.flag ≠ some true) : Kp h h' := by
  intro q o' e hf'
  by_cases hq : q = p
  · subst hq; rw [hp] at e; cases e; exact absurd hf' hf
  · rcases x q o' hq e with h1 | ⟨k, v, v', rfl, h1⟩
    · exact h1
    · cases hf'

theorem mput_ndBut {p : Nat} (k : BitVec 64) (r : Ref) {h : Heap} {tl : Nat} {es : List Nat} (hp : h[p]? = some (.map false tl es)) :
    Tri h (mput p k r) (fun _ h' => NdBut p h h' ∧ ∃ tl' es', h'[p]? = some (.map false tl' es')) (NdBut p h) := by
  refine Tri.loadMap_bind (fun fr tl0 es0 e => ?_) (Nd.refl h).but
  rw [hp] at e; cases e
  dsimp only
  refine Tri.findNode_bind (fun e _ v he => ?_) ?_ (Nd.refl h).but
  · have hne : e ≠ p := by rintro rfl; rw [he] at hp; cases hp
    refine Tri.store_bind (Tri.store ⟨(NdBut.set _ _ _).trans (Nd.set (k := k) (v := v) ?_).but, ?_⟩)
    · rw [List.getElem?_set_ne (by omega)]; exact he
    · rw [List.getElem?_set_ne (by omega)]
      exact ⟨_, _, get_set hp⟩
  · refine Tri.bind (grow_ext _ es h) ?_ (fun _ x => x.nd.but)
    · rintro ⟨tl', es'⟩ h1 x
      refine Tri.alloc_bind (Tri.store ⟨(x.snoc _).nd.but.trans (NdBut.set _ _ _), _, _, get_set ((x.snoc _).get hp)⟩)

theorem mputAll_ndBut {p : Nat} (q : Nat) {h : Heap} {tl : Nat} {es : List Nat} (hp : h[p]? = some (.map false tl es)) :
    Tri h (mputAll p q) (fun _ h' => NdBut p h h' ∧ ∃ tl' es', h'[p]? = some (.map false tl' es')) (NdBut p h) := by
  refine Tri.loadMap_bind (fun _ _ as _ => ?_) (Nd.refl h).but
  dsimp only
  split
  · exact Tri.pure ⟨(Nd.refl h).but, _, _, hp⟩
  refine Tri.loadMap_bind (fun fr tl0 es0 e => ?_) (Nd.refl h).but
  rw [hp] at e; cases e
  dsimp only
  refine Tri.bind (renode_ext es h) (fun es' h1 x => ?_) (fun _ x => x.nd.but)
  refine Tri.store_bind ?_
  have x1 := x.nd.but.trans (NdBut.set p h1 (.map false (HMap.tableSizeFor (tl + as.length)) es'))
  have hp1 : (h1.set p (.map false (HMap.tableSizeFor (tl + as.length)) es'))[p]? = _ := get_set (x.get hp)
  refine Tri.loadMap_bind (fun _ _ as' _ => ?_) x1
  refine Tri.bind (putNodes_nd es' as' _) (fun es'' h2 y => ?_) (fun _ y => x1.trans y.but)
  exact Tri.store ⟨(x1.trans y.but).trans (NdBut.set _ _ _), _, _, get_set (y.flagged hp1 rfl)⟩

theorem onMutableArr_kp {p : Nat} {f : List Ref → M Heap Ref} {h : Heap}
    (hf : ∀ es, h[p]? = some (.arr false es) → Tri h (f es) (fun _ h' => Kp h h') (Kp h)) :
    Tri h (onMutableArr p f) (fun _ h' => Kp h h') (Kp h) := by
  refine Tri.loadArr_bind (fun fr es e => ?_) (Kp.refl h)
  cases fr
  · exact hf es e
  · exact Tri.throw (Kp.refl h)

theorem arrStore_kp {p : Nat} {es : List Ref} {o : Obj} {r : Ref} {h : Heap} (e : h[p]? = some (.arr false es)) :
    Tri h (store p o >>= fun _ => pure r) (fun _ h' => Kp h h') (Kp h) :=
  Tri.store_bind (Tri.pure (Kp.set e (by simp [Obj.flag])))

theorem thaw_kp (n : Nat) (l : List Ref) (h : Heap) : Tri h (mapEach (thawedCopy n) l) (fun _ h' => Nd h h') (Nd h) :=
  (Tri.mapEach (Q' := fun _ _ _ => True) Nd.refl Nd.trans (fun _ _ _ _ _ _ => trivial) l
    fun a _ h1 _ => (thawedCopy_nd n a h1).conseq (fun _ _ x => ⟨x, trivial⟩) (fun _ x => x)).conseq (fun _ _ x => x.1) fun _ x => x

theorem Fz.kp {h h' : Heap} (x : Fz h h') : Kp h h' := by
  intro p o e hf
  rcases x.2 p o e with h1 | h1
  · exact h1
  · rw [froze_of_flag hf] at h1; exact h1

/-- No call changes a frozen array, map or binary. -/
theorem exec_kp (n : Nat) (op : Op) (h : Heap) : Tri h (exec n op) (fun _ h' => Kp h h') (Kp h) := by
  cases op with
  | newArr es => exact Tri.allocObj (Ext.alloc _ _).kp
  | values es =>
    exact Tri.bind (mapEach_frozenCopy_ext n es h) (fun _ h1 x => Tri.allocObj (x.snoc _).kp) (fun _ x => x.kp)
  | add p r => rw [exec]; exact onMutableArr_kp fun es e => arrStore_kp e
  | set p i r =>
    rw [exec]
    refine onMutableArr_kp fun es e => ?_
    split
    · exact arrStore_kp e
    · exact Tri.throw (Kp.refl h)
  | insert p i r =>
    rw [exec]
    refine onMutableArr_kp fun es e => ?_
    split
    · exact arrStore_kp e
    · exact Tri.throw (Kp.refl h)
  | removeAt p i => rw [exec]; exact onMutableArr_kp fun es e => arrStore_kp e
  | addAll p q => rw [exec]; exact onMutableArr_kp fun es e => Tri.loadArr_bind (fun _ as _ => arrStore_kp e) (Kp.refl h)
  | pick p is => exact Tri.loadArr_bind (fun fr es _ => Tri.allocObj (Ext.alloc _ _).kp) (Kp.refl h)
  | arrMap p f => exact Tri.loadArr_bind (fun fr es _ => Tri.allocObj (Ext.alloc _ _).kp) (Kp.refl h)
  | «with» p r => exact Tri.loadArr_bind (fun fr es _ => Tri.allocObj (Ext.alloc _ _).kp) (Kp.refl h)
  | withValues p rs =>
    refine Tri.loadArr_bind (fun fr es _ => ?_) (Kp.refl h)
    dsimp only
    split
    · exact Tri.pure (Kp.refl h)
    · exact Tri.bind (frozenIf_ext n fr rs h) (fun _ h1 x => Tri.allocObj (x.snoc _).kp) (fun _ x => x.kp)
  | withAll p q =>
    refine Tri.loadArr_bind (fun _ as _ => ?_) (Kp.refl h)
    dsimp only
    split
    · exact Tri.pure (Kp.refl h)
    · refine Tri.loadArr_bind (fun fr es _ => ?_) (Kp.refl h)
      refine Tri.bind (thaw_kp n es h) (fun es' h1 x => ?_) (fun _ x => x.kp)
      refine Tri.loadArr_bind (fun qf as _ => ?_) x.kp
      exact Tri.bind (frozenIf_ext n _ as h1)
        (fun _ h2 y => Tri.allocObj (x.kp.trans (y.snoc _).kp)) (fun _ y => x.kp.trans y.kp)
  | newMap tl => exact Tri.allocObj (Ext.alloc _ _).kp
  | emptyMap => exact Tri.allocObj (Ext.alloc _ _).kp
  | put p k r =>
    by_cases hp : ∃ tl es, h[p]? = some (.map false tl es)
    · obtain ⟨tl, es, hp⟩ := hp
      exact Tri.bind (mput_ndBut k r hp) (fun _ h1 x => Tri.pure (x.1.kp hp (by simp [Obj.flag])))
        (fun _ x => x.kp hp (by simp [Obj.flag]))
    · refine Tri.bind (Q1 := fun _ h' => False) (E1 := fun h' => h' = h) ?_ (fun _ _ x => x.elim) (fun _ x => x ▸ Kp.refl h)
      refine Tri.loadMap_bind (fun fr tl es e => ?_) rfl
      cases fr
      · exact absurd ⟨_, _, e⟩ hp
      · exact Tri.throw rfl
  | putAll p q =>
    by_cases hp : ∃ tl es, h[p]? = some (.map false tl es)
    · obtain ⟨tl, es, hp⟩ := hp
      exact Tri.bind (mputAll_ndBut q hp) (fun _ h1 x => Tri.pure (x.1.kp hp (by simp [Obj.flag])))
        (fun _ x => x.kp hp (by simp [Obj.flag]))
    · refine Tri.bind (Q1 := fun _ h' => h' = h) (E1 := fun h' => h' = h) ?_ (fun _ _ x => Tri.pure (x ▸ Kp.refl h)) (fun _ x => x ▸ Kp.refl h)
      refine Tri.loadMap_bind (fun _ _ as _ => ?_) rfl
      dsimp only
      split
      · exact Tri.pure rfl
      · refine Tri.loadMap_bind (fun fr tl es e => ?_) rfl
        cases fr
        · exact absurd ⟨_, _, e⟩ hp
        · exact Tri.throw rfl
  | remove p k =>
    refine Tri.loadMap_bind (fun fr tl es e => ?_) (Kp.refl h)
    cases fr
    · refine Tri.bind (Q1 := fun _ h' => h' = h) (E1 := fun h' => h' = h) ?_ ?_ (fun _ x => x ▸ Kp.refl h)
      · exact Tri.findNode_bind (fun _ _ _ _ => Tri.pure rfl) (Tri.pure rfl) rfl
      · rintro es' h' rfl
        exact Tri.store_bind (Tri.pure (Kp.set e (by simp [Obj.flag])))
    · exact Tri.throw (Kp.refl h)
  | mapWith p k r =>
    refine Tri.loadMap_bind (fun fr tl es e => ?_) (Kp.refl h)
    dsimp only
    split
    · exact Tri.alloc_bind (Tri.allocObj ((Ext.alloc _ _).snoc _).kp)
    · refine Tri.bind (hasValue_same n k r es h) ?_ (fun _ x => x ▸ Kp.refl h)
      · rintro same h' rfl
        split
        · exact Tri.pure (Kp.refl _)
        · refine Tri.bind (renode_ext es _) (fun es' h1 x => ?_) (fun _ x => x.kp)
          refine Tri.alloc_bind ?_
          have x1 := Ext.trans' _ _ _ x (Ext.alloc h1 (.map false (HMap.tableSizeFor (tl + 1)) es'))
          have hc := get_alloc h1 (.map false (HMap.tableSizeFor (tl + 1)) es')
          refine Tri.bind (mput_ndBut k r hc) ?_ (fun _ y => x1.kp.trans (y.kp hc (by simp [Obj.flag])))
          rintro _ h2 ⟨y, tl', es'', hc2⟩
          have y' := x1.kp.trans (y.kp hc (by simp [Obj.flag]))
          refine Tri.loadMap_bind (fun fr' tl' es'' e => ?_) y'
          exact Tri.store_bind (Tri.pure (y'.trans (Kp.set hc2 (by simp [Obj.flag]))))
  | without p k =>
    refine Tri.loadMap_bind (fun fr tl es e => ?_) (Kp.refl h)
    refine Tri.findNode_bind (fun e' _ v he => ?_) (Tri.pure (Kp.refl h)) (Kp.refl h)
    refine Tri.bind (renode_ext es _) (fun es' h1 x => ?_) (fun _ x => x.kp)
    refine Tri.bind (Q1 := fun _ h' => h' = h1) (E1 := fun h' => h' = h1) ?_ ?_ (fun _ y => y ▸ x.kp)
    · exact Tri.findNode_bind (fun _ _ _ _ => Tri.pure rfl) (Tri.pure rfl) rfl
    · rintro es' h' rfl
      exact Tri.allocObj (x.snoc _).kp
  | merge p q =>
    refine Tri.loadMap_bind (fun _ _ as _ => ?_) (Kp.refl h)
    dsimp only
    split
    · exact Tri.pure (Kp.refl h)
    · refine Tri.loadMap_bind (fun fr tl es e => ?_) (Kp.refl h)
      dsimp only
      split
      · exact Tri.pure (Kp.refl h)
      · refine Tri.bind (renode_ext es _) (fun es' h1 x => ?_) (fun _ x => x.kp)
        refine Tri.alloc_bind ?_
        have x1 := Ext.trans' _ _ _ x (Ext.alloc h1 (.map false (HMap.tableSizeFor (tl + es.length + as.length)) es'))
        have hc := get_alloc h1 (.map false (HMap.tableSizeFor (tl + es.length + as.length)) es')
        refine Tri.bind (mputAll_ndBut q hc) ?_ (fun _ y => x1.kp.trans (y.kp hc (by simp [Obj.flag])))
        rintro _ h2 ⟨y, tl', es'', hc2⟩
        have y' := x1.kp.trans (y.kp hc (by simp [Obj.flag]))
        refine Tri.loadMap_bind (fun fr' tl' es'' e => ?_) y'
        exact Tri.store_bind (Tri.pure (y'.trans (Kp.set hc2 (by simp [Obj.flag]))))
  | mapMap p f =>
    refine Tri.loadMap_bind (fun fr tl es e => ?_) (Kp.refl h)
    refine Tri.bind (Tri.mapEach (Q' := fun _ _ _ => True) Ext.rfl' Ext.trans' (fun _ _ _ _ _ _ => trivial) es
      fun a _ h1 _ => Tri.loadEntry_bind (fun k v _ => Tri.alloc ⟨Ext.alloc _ _, trivial⟩) (Ext.rfl' _))
      (fun _ h1 x => Tri.allocObj (Ext.snoc x.1 _).kp) (fun _ x => x.kp)
  | mapValues p =>
    refine Tri.loadMap_bind (fun fr tl es e => ?_) (Kp.refl h)
    refine Tri.bind (Tri.mapEach (Q' := fun _ _ _ => True) Ext.rfl' Ext.trans' (fun _ _ _ _ _ _ => trivial) es
      fun a _ h1 _ => Tri.loadEntry_bind (fun k v _ => Tri.pure ⟨Ext.rfl' _, trivial⟩) (Ext.rfl' _))
      (fun _ h1 x => Tri.allocObj (Ext.snoc x.1 _).kp) (fun _ x => x.kp)
  | newEntry k r => exact Tri.allocObj (Ext.alloc _ _).kp
  | newBin f bs => exact Tri.allocObj (Ext.alloc _ _).kp
  | sensitive r => exact Tri.allocObj (Ext.alloc _ _).kp
  | native id => exact Tri.allocObj (Ext.alloc _ _).kp
  | freeze r =>
    exact Tri.bind (Q1 := fun _ h' => Kp h h') (E1 := Kp h)
      ⟨fun _ h' e => (freeze_fz n (.inl e)).kp, fun h' e => (freeze_fz n (.inr e)).kp⟩ (fun _ h1 x => Tri.pure x) (fun _ x => x)
  | frozenCopy r => exact (frozenCopy_ext n r h).conseq (fun _ _ x => x.kp) (fun _ x => x.kp)
  | thawedCopy r => exact (thawedCopy_nd n r h).conseq (fun _ _ x => x.kp) (fun _ x => x.kp)

theorem run_kp (n : Nat) (ops : List Op) {h h' : Heap} (e : run n h ops = some h') : Kp h h' := by
  induction ops generalizing h with
  | nil => cases e; exact Kp.refl _
  | cons op ops ih =>
    rw [run] at e
    split at e
    · rename_i hx; exact ((exec_kp n op h).ok _ _ hx).trans (ih e)
    · rename_i hx; exact ((exec_kp n op h).panic _ hx).trans (ih e)
    · cases e

end Verif.Graph
