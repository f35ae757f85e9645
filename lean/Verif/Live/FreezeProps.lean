import Verif.Live.CopyLemmas
/-!
# C112: what `Freeze` and the copies leave as it is
-/
set_option autoImplicit false
set_option linter.unusedVariables false
namespace Verif.Live

/-- Every array has the elements it had, and what was frozen is. -/
def SameEs (h h' : Heap) : Prop := ∀ (p : Nat) (o : Obj), h[p]? = some o → ∃ o' : Obj, h'[p]? = some o' ∧ o'.es = o.es ∧ (o.frozen = true → o'.frozen = true)

theorem SameEs.rfl {h : Heap} : SameEs h h := fun _ o e => ⟨o, e, _root_.rfl, id⟩
theorem SameEs.trans {a b c : Heap} (x : SameEs a b) (y : SameEs b c) : SameEs a c := fun p o e => by
  obtain ⟨o1, e1, h1, f1⟩ := x p o e
  obtain ⟨o2, e2, h2, f2⟩ := y p o1 e1
  exact ⟨o2, e2, h2.trans h1, fun h => f2 (f1 h)⟩

theorem eachHeap_same {f : Ref → Heap → Option Heap} (hf : ∀ r h h', f r h = some h' → SameEs h h') :
    ∀ (rs : List Ref) (h h' : Heap), eachHeap f rs h = some h' → SameEs h h'
  | [], h, h', e => by cases e; exact .rfl
  | r :: rs, h, h', e => by
    simp only [eachHeap, Option.bind_eq_some_iff] at e
    obtain ⟨h1, e1, e2⟩ := e
    exact (hf _ _ _ e1).trans (eachHeap_same hf rs _ _ e2)

theorem set_same {h : Heap} {p : Nat} {o : Obj} (hp : h[p]? = some o) : SameEs h (h.set p { o with frozen := true }) := fun q o' e => by
  by_cases hq : p = q
  · subst hq
    rw [hp] at e; cases e
    exact ⟨_, List.getElem?_set_self (List.getElem?_eq_some_iff.1 hp).1, rfl, fun _ => rfl⟩
  · exact ⟨o', by rw [List.getElem?_set_ne hq]; exact e, rfl, id⟩

theorem freeze_same : ∀ (n : Nat) (r : Ref) (h h' : Heap), freeze n r h = some h' → SameEs h h'
  | n, .atom i, h, h', e => by cases n <;> (cases e; exact .rfl)
  | n, .type p, h, h', e => by cases n <;> (cases e; exact .rfl)
  | 0, .obj p, h, h', e => by cases e
  | n + 1, .obj p, h, h', e => by
    simp only [freeze] at e
    cases ho : h[p]? with
    | none => rw [ho] at e; cases e
    | some o =>
      rw [ho] at e
      dsimp only at e
      split at e
      · cases e; exact .rfl
      · exact (set_same ho).trans (eachHeap_same (freeze_same n) _ _ _ e)

theorem Has.same {h h' : Heap} (hk : SameEs h h') {r : Ref} {t : Tree} (ht : Has h r t) : Has h' r t := by
  refine Has.rec (motive_1 := fun r t _ => Has h' r t) (motive_2 := fun rs ts _ => HasAll h' rs ts) (fun i => .atom i) ?_ ?_ .nil ?_ ht
  · intro p o ts e _ ih
    obtain ⟨o', e', he, _⟩ := hk p o e
    exact .obj e' (he ▸ ih)
  · intro p o ts e _ ih
    obtain ⟨o', e', he, _⟩ := hk p o e
    exact .type e' (he ▸ ih)
  · intro r rs t ts _ _ i1 i2; exact .cons i1 i2

/-- The array, and every array in it at any depth, can be reached from a value without going through types. -/
inductive Inside (h : Heap) : Ref → Nat → Prop where
  | here {p : Nat} : Inside h (.obj p) p
  | elem {p q : Nat} {o : Obj} {e : Ref} : h[p]? = some o → e ∈ o.es → Inside h e q → Inside h (.obj p) q

/-- The frozen arrays have nothing inside that is not frozen, but for the arrays in `G`. -/
def Deep (h : Heap) (G : Nat → Prop) : Prop :=
  ∀ (p : Nat) (o : Obj), h[p]? = some o → o.frozen = true → ¬ G p → ∀ e ∈ o.es, ∀ q, e = .obj q → ∃ o' : Obj, h[q]? = some o' ∧ o'.frozen = true

theorem Deep.mono {h : Heap} {G G' : Nat → Prop} (hd : Deep h G) (hg : ∀ p, G p → G' p) : Deep h G' :=
  fun p o e hf hn => hd p o e hf fun h => hn (hg p h)

/-- `Freeze` of a value, and of several: what they are is frozen then, and no other array is left with something inside that is not. -/
theorem freeze_deep : ∀ (n : Nat) (r : Ref) (h h' : Heap) (G : Nat → Prop), freeze n r h = some h' → Deep h G →
    Deep h' G ∧ ∀ q, r = .obj q → ∃ o' : Obj, h'[q]? = some o' ∧ o'.frozen = true
  | n, .atom i, h, h', G, e, hd => by cases n <;> (cases e; exact ⟨hd, fun q hq => by cases hq⟩)
  | n, .type p, h, h', G, e, hd => by cases n <;> (cases e; exact ⟨hd, fun q hq => by cases hq⟩)
  | 0, .obj p, h, h', G, e, hd => by cases e
  | n + 1, .obj p, h, h', G, e, hd => by
    simp only [freeze] at e
    cases ho : h[p]? with
    | none => rw [ho] at e; cases e
    | some o =>
      rw [ho] at e
      dsimp only at e
      split at e
      · rename_i hf
        cases e
        refine ⟨hd, fun q hq => ?_⟩
        cases hq
        exact ⟨o, ho, hf⟩
      · have each : ∀ (rs : List Ref) (h h' : Heap) (G : Nat → Prop), eachHeap (freeze n) rs h = some h' → Deep h G →
            Deep h' G ∧ ∀ r ∈ rs, ∀ q, r = .obj q → ∃ o' : Obj, h'[q]? = some o' ∧ o'.frozen = true := by
          intro rs
          induction rs with
          | nil => intro h h' G e hd; cases e; exact ⟨hd, fun r hr => (nomatch hr)⟩
          | cons r rs ih =>
            intro h h' G e hd
            simp only [eachHeap, Option.bind_eq_some_iff] at e
            obtain ⟨h1, e1, e2⟩ := e
            obtain ⟨d1, f1⟩ := freeze_deep n r h h1 G e1 hd
            obtain ⟨d2, f2⟩ := ih h1 h' G e2 d1
            refine ⟨d2, fun x hx q hq => ?_⟩
            rcases List.mem_cons.1 hx with rfl | hx
            · obtain ⟨o', h3, h4⟩ := f1 q hq
              obtain ⟨o'', h5, _, h6⟩ := eachHeap_same (freeze_same n) _ _ _ e2 q o' h3
              exact ⟨o'', h5, h6 h4⟩
            · exact f2 x hx q hq
        have hd1 : Deep (h.set p { o with frozen := true }) (fun x => G x ∨ x = p) := by
          intro q o' eq hf hn x hx s hs
          simp only [not_or] at hn
          rw [List.getElem?_set_ne (Ne.symm hn.2)] at eq
          obtain ⟨o1, h1, h2⟩ := hd q o' eq hf hn.1 x hx s hs
          obtain ⟨o2, h3, _, h4⟩ := set_same ho s o1 h1
          exact ⟨o2, h3, h4 h2⟩
        obtain ⟨d, f⟩ := each _ _ _ _ e hd1
        have hp : ∃ o' : Obj, h'[p]? = some o' ∧ o'.es = o.es ∧ o'.frozen = true := by
          obtain ⟨o1, h1, h2, h3⟩ := eachHeap_same (freeze_same n) _ _ _ e p { o with frozen := true }
            (List.getElem?_set_self (List.getElem?_eq_some_iff.1 ho).1)
          exact ⟨o1, h1, h2, h3 rfl⟩
        refine ⟨fun q o' eq hf hn x hx s hs => ?_, fun q hq => by cases hq; obtain ⟨o1, h1, _, h3⟩ := hp; exact ⟨o1, h1, h3⟩⟩
        by_cases hqp : q = p
        · subst hqp
          obtain ⟨o1, h1, h2, _⟩ := hp
          rw [h1] at eq; cases eq
          exact f x (h2 ▸ hx) s hs
        · exact d q o' eq hf (by simp only [not_or]; exact ⟨hn, hqp⟩) x hx s hs

theorem inside_frozen {h : Heap} (hd : Deep h fun _ => False) {r : Ref} {q : Nat} (hi : Inside h r q) :
    (∀ p, r = .obj p → ∃ o : Obj, h[p]? = some o ∧ o.frozen = true) → ∃ o : Obj, h[q]? = some o ∧ o.frozen = true := by
  induction hi with
  | here => intro hr; exact hr _ rfl
  | elem e he _ ih =>
    intro hr
    obtain ⟨o1, h1, h2⟩ := hr _ rfl
    rw [e] at h1; cases h1
    exact ih fun s hs => hd _ _ e h2 not_false _ he s hs

/-- **C112, `Freeze`.**  `Freeze` leaves the contents of all values as they are, also of the types, and then the array and all arrays in it, at any depth,
are frozen, also if arrays contain themselves; provided that this was so of the arrays that were frozen before. -/
theorem C112_freeze {n p : Nat} {h h' : Heap} (e : freeze n (.obj p) h = some h') 
    (hd : ∀ (q : Nat) (o : Obj), h[q]? = some o → o.frozen = true → ∀ s : Nat, .obj s ∈ o.es → ∃ es, h[s]? = some ⟨true, es⟩) :
    (∀ r t, Has h r t → Has h' r t) ∧ (∀ q, Inside h' (.obj p) q → ∃ es, h'[q]? = some ⟨true, es⟩) := by
  have hd' : Deep h fun _ => False := fun q o eq hf _ x hx s hs => by
    subst hs
    obtain ⟨es, h1⟩ := hd q o eq hf s hx
    exact ⟨_, h1, rfl⟩
  obtain ⟨d, f⟩ := freeze_deep n _ h h' _ e hd'
  refine ⟨fun r t ht => ht.same (freeze_same _ _ _ _ e), fun q hq => ?_⟩
  obtain ⟨⟨fr, es⟩, h1, h2⟩ := inside_frozen d hq f
  cases h2
  exact ⟨es, h1⟩

/-- A list with a list and with itself in it -/
example : freeze 5 (.obj 0) [⟨false, [.obj 1, .obj 0]⟩, ⟨false, [.atom 1]⟩] = some [⟨true, [.obj 1, .obj 0]⟩, ⟨true, [.atom 1]⟩] ∧
    Inside [⟨true, [.obj 1, .obj 0]⟩, ⟨true, [.atom 1]⟩] (.obj 0) 1 :=
  ⟨by decide +kernel, .elem (o := ⟨true, [.obj 1, .obj 0]⟩) rfl (.head _) .here⟩

theorem mapHeap_has {f : Ref → Heap → Option (Ref × Heap)} (hx : ∀ r h x, f r h = some x → Ext h x.2)
    (hf : ∀ r h x, f r h = some x → ∀ t, Has h r t → Has x.2 x.1 t) :
    ∀ (rs : List Ref) (h : Heap) (x : List Ref × Heap), mapHeap f rs h = some x → ∀ ts, HasAll h rs ts → HasAll x.2 x.1 ts
  | [], h, x, e, ts, ht => by cases e; exact ht
  | r :: rs, h, x, e, ts, ht => by
    simp only [mapHeap, Option.bind_eq_some_iff, Option.map_eq_some_iff] at e
    obtain ⟨y, e1, z, e2, rfl⟩ := e
    have x1 := hx _ _ _ e1
    have x2 := mapHeap_ext hx _ _ _ e2
    cases ht with
    | cons h1 h2 => exact .cons ((hf _ _ _ e1 _ h1).ext x2) (mapHeap_has hx hf rs y.2 z e2 _ (h2.ext x1))

theorem copy_has (fr : Bool) : ∀ (n : Nat) (r : Ref) (h : Heap) (x : Ref × Heap), copy fr n r h = some x → ∀ t, Has h r t → Has x.2 x.1 t
  | n, .atom i, h, x, e, t, ht => by cases n <;> (cases e; exact ht)
  | n, .type p, h, x, e, t, ht => by cases n <;> (cases e; exact ht)
  | 0, .obj p, h, x, e, t, ht => by cases e
  | n + 1, .obj p, h, x, e, t, ht => by
    simp only [copy] at e
    cases ho : h[p]? with
    | none => rw [ho] at e; cases e
    | some o =>
      rw [ho] at e
      dsimp only at e
      split at e
      · cases e; exact ht
      · simp only [Option.map_eq_some_iff] at e
        obtain ⟨y, e1, rfl⟩ := e
        cases ht with
        | obj e2 h2 =>
          rw [ho] at e2; cases e2
          have := mapHeap_has (copy_ext fr n) (copy_has fr n) _ _ _ e1 _ h2
          exact .obj (o := ⟨fr, y.1⟩) (by simp) (this.ext (.push _))

/-- All arrays inside are new and can be changed. -/
def Fresh (k : Nat) (h : Heap) (r : Ref) : Prop := ∀ q, Inside h r q → k ≤ q ∧ ∃ es, h[q]? = some ⟨false, es⟩

theorem Inside.back {h h' : Heap} (hk : Ext h h') {r : Ref} {q : Nat} (hi : Inside h' r q) : ∀ k, Fresh k h r → Inside h r q := by
  induction hi with
  | here => exact fun k hf => .here
  | elem e he _ ih =>
    intro k hf
    obtain ⟨_, es, h1⟩ := hf _ .here
    have h2 := hk _ _ h1
    rw [e] at h2; cases h2
    exact .elem h1 he (ih k fun q hq => hf q (.elem h1 he hq))

theorem Fresh.ext {k : Nat} {h h' : Heap} {r : Ref} (hk : Ext h h') (hf : Fresh k h r) : Fresh k h' r := fun q hq => by
  obtain ⟨h1, es, h2⟩ := hf q (hq.back hk k hf)
  exact ⟨h1, es, hk _ _ h2⟩

theorem mapHeap_length {f : Ref → Heap → Option (Ref × Heap)} (hx : ∀ r h x, f r h = some x → h.length ≤ x.2.length) :
    ∀ (rs : List Ref) (h : Heap) (x : List Ref × Heap), mapHeap f rs h = some x → h.length ≤ x.2.length
  | [], h, x, e => by cases e; exact Nat.le_refl _
  | r :: rs, h, x, e => by
    simp only [mapHeap, Option.bind_eq_some_iff, Option.map_eq_some_iff] at e
    obtain ⟨y, e1, z, e2, rfl⟩ := e
    exact Nat.le_trans (hx _ _ _ e1) (mapHeap_length hx rs y.2 z e2)

theorem Ext.length {h h' : Heap} (hk : Ext h h') : h.length ≤ h'.length := by
  cases h with
  | nil => simp
  | cons a l =>
    have := hk l.length ((a :: l)[l.length]'(by simp)) (List.getElem?_eq_getElem (by simp))
    have := (List.getElem?_eq_some_iff.1 this).1
    exact this

theorem mapHeap_fresh {f : Ref → Heap → Option (Ref × Heap)} (hx : ∀ r h x, f r h = some x → Ext h x.2)
    (hf : ∀ r h x, f r h = some x → Fresh h.length x.2 x.1) :
    ∀ (rs : List Ref) (h : Heap) (x : List Ref × Heap), mapHeap f rs h = some x → ∀ r ∈ x.1, Fresh h.length x.2 r
  | [], h, x, e => by cases e; exact fun r hr => (nomatch hr)
  | r :: rs, h, x, e => by
    simp only [mapHeap, Option.bind_eq_some_iff, Option.map_eq_some_iff] at e
    obtain ⟨y, e1, z, e2, rfl⟩ := e
    intro s hs
    rcases List.mem_cons.1 hs with rfl | hs
    · exact (hf _ _ _ e1).ext (mapHeap_ext hx rs y.2 z e2)
    · intro q hq
      obtain ⟨h1, h2⟩ := mapHeap_fresh hx hf rs y.2 z e2 s hs q hq
      exact ⟨Nat.le_trans (hx _ _ _ e1).length h1, h2⟩

theorem thaw_fresh : ∀ (n : Nat) (r : Ref) (h : Heap) (x : Ref × Heap), copy false n r h = some x → Fresh h.length x.2 x.1
  | n, .atom i, h, x, e => by cases n <;> (cases e; exact fun q hq => by cases hq)
  | n, .type p, h, x, e => by cases n <;> (cases e; exact fun q hq => by cases hq)
  | 0, .obj p, h, x, e => by cases e
  | n + 1, .obj p, h, x, e => by
    simp only [copy] at e
    cases ho : h[p]? with
    | none => rw [ho] at e; cases e
    | some o =>
      rw [ho] at e
      simp only [Bool.false_and, Bool.false_eq_true, if_false, Option.map_eq_some_iff] at e
      obtain ⟨y, e1, rfl⟩ := e
      have hx := mapHeap_ext (copy_ext false n) _ _ _ e1
      have hf := mapHeap_fresh (copy_ext false n) (thaw_fresh n) _ _ _ e1
      intro q hq
      cases hq with
      | here => exact ⟨hx.length, y.1, by simp⟩
      | elem e2 he hi =>
        have : (y.2 ++ [(⟨false, y.1⟩ : Obj)])[y.2.length]? = some ⟨false, y.1⟩ := by simp
        rw [this] at e2; cases e2
        exact (hf _ he).ext (.push _) q hi

/-- **C112, `ThawedCopy`.**  A thawed copy has the contents of the array; it and all arrays in it, at any depth, are new and can be changed, and nothing
that was there before is changed. -/
theorem C112_thaw {n p : Nat} {h h' : Heap} {c : Ref} (e : copy false n (.obj p) h = some (c, h')) :
    (∀ t, Has h (.obj p) t → Has h' c t) ∧ (∀ (q : Nat) (o : Obj), h[q]? = some o → h'[q]? = some o) ∧
    ∀ q, Inside h' c q → h.length ≤ q ∧ ∃ es, h'[q]? = some ⟨false, es⟩ :=
  ⟨copy_has false n _ _ _ e, copy_ext false n _ _ _ e, thaw_fresh n _ _ _ e⟩

/-- A frozen list with a frozen list in it -/
example : copy false 5 (.obj 0) [⟨true, [.obj 1]⟩, ⟨true, [.atom 1]⟩] =
    some (.obj 3, [⟨true, [.obj 1]⟩, ⟨true, [.atom 1]⟩, ⟨false, [.atom 1]⟩, ⟨false, [.obj 2]⟩]) := by decide +kernel

end Verif.Live
