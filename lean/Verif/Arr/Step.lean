import Verif.Arr.Lemmas
/-! What one call can do to the heap, and the two invariants. -/
set_option linter.unusedSectionVars false
set_option linter.unusedVariables false
set_option autoImplicit false
namespace Verif.Arr
open HMap (KeyOps)

variable {V : Type} [ElemOps V] {grow : Nat → Nat → Nat}

/-- Every slice lies inside its store. -/
structure Bnd (w : World V) : Prop where
  arrs : ∀ (i : Nat) (g : Obj), w.arrs[i]? = some g → Inside w.stores g.sl
  raws : ∀ (i : Nat) (s : Sl), w.raws[i]? = some s → Inside w.stores s

/-- The array that a call changes when it is not frozen. -/
def target : Op V → Option Nat
  | .add a _ | .addAll a _ | .addValues a _ | .insert a _ _ | .set a _ _ | .remove a _ | .removeValue a _ | .pop a
  | .freeze a => some a
  | _ => none

/-- The array behind which a call may write, and how many elements. -/
def extension : Op V → Option (Nat × Nat)
  | .with a _ => some (a, 1)
  | .withValues a xs => some (a, xs.length)
  | _ => none

/-- In which storage the slice of a new array is. -/
inductive Place (w : World V) (op : Op V) (s : Sl) (st : Stores V) (frozen : Bool) : Prop
  /-- new storage -/
  | fresh (h : w.stores.length ≤ s.store) (hf : ∀ k lim, Frame w.stores st k lim)
  /-- the part of a store behind an array, which is written to -/
  | behind (a : Nat) (g : Obj) (n : Nat) (hg : w.arrs[a]? = some g) (hfr : frozen = g.frozen) (hs : s.store = g.sl.store)
      (hc : g.sl.len + n ≤ cap w.stores g.sl) (he : extension op = some (a, n)) (hf : Frame w.stores st g.sl.store (g.sl.off + g.sl.len))
  /-- the storage of a frozen array -/
  | shared (a : Nat) (g : Obj) (hg : w.arrs[a]? = some g) (hfr : g.frozen = true) (hfr' : frozen = true)
      (hs : s.store = g.sl.store) (hst : st = w.stores)
  /-- the storage of a slice that the program has -/
  | wrapped (r : Nat) (t : Sl) (hr : w.raws[r]? = some t) (ho : op = .wrapSlice r) (hs : s = t) (hst : st = w.stores)

inductive Change (w : World V) (op : Op V) : World V → Prop
  | same : Change w op w
  /-- the slice of an array that is not frozen is replaced, the new one is in the same or in new storage -/
  | upd (a : Nat) (g : Obj) (s : Sl) (st : Stores V) (hg : w.arrs[a]? = some g) (hfr : g.frozen = false) (ht : target op = some a)
      (hin : Inside st s) (lim : Nat) (hf : Frame w.stores st g.sl.store lim)
      (hp : s.store = g.sl.store ∨ w.stores.length ≤ s.store) : Change w op (setSlice w a g (s, st))
  | new (s : Sl) (st : Stores V) (frozen : Bool) (ht : target op = none) (hin : Inside st s) (hp : Place w op s st frozen) :
      Change w op (newArr w (s, st) frozen).2
  | froze (a : Nat) (g : Obj) (hg : w.arrs[a]? = some g) (ht : target op = some a) :
      Change w op { w with arrs := w.arrs.set a { g with frozen := true } }
  | rawCopy (s : Sl) (st : Stores V) (ht : target op = none) (hin : Inside st s) (h : w.stores.length ≤ s.store)
      (hf : ∀ k lim, Frame w.stores st k lim) : Change w op { w with stores := st, raws := w.raws ++ [s] }
  | rawShare (a : Nat) (g : Obj) (hg : w.arrs[a]? = some g) (ho : op = .goSlice a) (hfr : g.frozen = false) :
      Change w op { w with raws := w.raws ++ [g.sl] }
  | rawWrite (r : Nat) (s : Sl) (st : Stores V) (hr : w.raws[r]? = some s) (ht : target op = none) (lim : Nat)
      (hf : Frame w.stores st s.store lim) (ho : ∃ i x, op = .rawSet r i x) : Change w op { w with stores := st }

theorem change_onArr {w : World V} {op : Op V} {a : Nat} {f : Obj → Out V × World V}
    (h : ∀ g, w.arrs[a]? = some g → Change w op (f g).2) : Change w op (onArr w a f).2 := by
  unfold onArr
  match hg : w.arrs[a]? with
  | none => exact .same
  | some g => exact h g hg

theorem change_onMutable {w : World V} {op : Op V} {a : Nat} {f : Obj → Out V × World V}
    (h : ∀ g, w.arrs[a]? = some g → g.frozen = false → Change w op (f g).2) : Change w op (onMutable w a f).2 := by
  refine change_onArr fun g hg => ?_
  cases hf : g.frozen
  · simpa [hf] using h g hg hf
  · simpa [hf] using Change.same

theorem change_append {w : World V} {op : Op V} (hw : Bnd w) {a : Nat} {g : Obj} (ht : target op = some a) (hg : w.arrs[a]? = some g) (hfr : g.frozen = false)
    (xs : List (Option V)) (p : Nat) (hp : p ≤ g.sl.len) :
    Change w op (setSlice w a g (append grow w.stores { g.sl with len := p } xs)) := by
  have hin := hw.arrs a g hg
  have hin' : Inside w.stores { g.sl with len := p } := ⟨hin.1, by have := hin.2; simp only; omega⟩
  have hs := append_spec grow xs hin'
  refine .upd a g _ _ hg hfr ht hs.inside _ hs.frame ?_
  rcases hs.place with h | h
  · exact .inl h.1
  · exact .inr (Nat.le_of_eq h.1.symm)

theorem change_removePos {w : World V} {op : Op V} (hw : Bnd w) {a : Nat} {g : Obj} (ht : target op = some a) (hg : w.arrs[a]? = some g) (hfr : g.frozen = false)
    {pos : Int} {v : Option V} {s : Sl} {st : Stores V} (h : removePos w.stores g.sl pos = some (v, s, st)) :
    Change w op (setSlice w a g (s, st)) := by
  obtain ⟨_, _, _, _, h1, h2, h3, _⟩ := removePos_spec (hw.arrs a g hg) h
  exact .upd a g s st hg hfr ht h1 _ h2 (.inl h3)

theorem change_alloc (w : World V) {op : Op V} (ht : target op = none) (xs : List (Option V)) (n : Nat) (frozen : Bool) :
    Change w op (newArr w (alloc w.stores xs n) frozen).2 :=
  .new _ _ _ ht (alloc_inside _ _ _) (.fresh (Nat.le_refl _) fun k lim => alloc_frame _ _ _ _ _)

theorem change_with {w : World V} {op : Op V} (hw : Bnd w) {a : Nat} {g : Obj} (hg : w.arrs[a]? = some g) (xs : List (Option V))
    (ht : target op = none) (he : extension op = some (a, xs.length)) :
    Change w op (newArr w (append grow w.stores g.sl xs) g.frozen).2 := by
  have hs := append_spec grow xs (hw.arrs a g hg)
  refine .new _ _ _ ht hs.inside ?_
  rcases hs.place with h | h
  · exact .behind a g xs.length hg rfl h.1 h.2.2.2 he hs.frame
  · exact .fresh (Nat.le_of_eq h.1.symm) h.2.2

/-- Every call does one of these things. -/
theorem exec_change {w : World V} (hw : Bnd w) (op : Op V) : Change w op (exec grow w op).2 := by
  cases op with
  | values f xs => exact change_alloc _ rfl _ _ _
  | withCapacity n => exact change_alloc _ rfl _ _ _
  | add a x => exact change_onMutable fun g hg hfr => change_append hw rfl hg hfr _ g.sl.len (Nat.le_refl _)
  | addAll a b =>
    refine change_onMutable fun g hg hfr => change_onArr fun h _ => change_append hw rfl hg hfr _ g.sl.len (Nat.le_refl _)
  | addValues a xs => exact change_onMutable fun g hg hfr => change_append hw rfl hg hfr _ g.sl.len (Nat.le_refl _)
  | insert a pos x =>
    refine change_onMutable fun g hg hfr => ?_
    split
    · exact change_append hw rfl hg hfr _ _ (by omega)
    · exact .same
  | set a pos x =>
    refine change_onMutable fun g hg hfr => ?_
    split
    · rename_i hp
      have hin := hw.arrs a g hg
      have h2 := hin.2
      have hf := write_frame (st := w.stores) (s := g.sl) (i := pos.toNat) (xs := [some x]) hin.1
        (by simp only [List.length_singleton]; omega)
      have := Change.upd (op := .set a pos x) a g g.sl _ hg hfr rfl (hf.inside hin) _ hf (.inl rfl)
      have e : setSlice w a g (g.sl, write w.stores g.sl pos.toNat [some x]) =
          { w with stores := write w.stores g.sl pos.toNat [some x] } := by
        have hl := (List.getElem?_eq_some_iff.1 hg)
        obtain ⟨h1, h2⟩ := hl
        simp only [setSlice]
        congr 1
        apply List.ext_getElem?
        intro j
        by_cases e : a = j
        · subst e; rw [List.getElem?_set_self h1, hg]
        · rw [List.getElem?_set_ne e]
      rw [e] at this
      exact this
    · exact .same
  | remove a pos =>
    refine change_onMutable fun g hg hfr => ?_
    split
    · exact change_removePos hw rfl hg hfr (by assumption)
    · exact .same
  | removeValue a x =>
    refine change_onMutable fun g hg hfr => ?_
    split
    · exact change_removePos hw rfl hg hfr (by assumption)
    · exact .same
  | pop a =>
    refine change_onMutable fun g hg hfr => ?_
    split
    · exact change_removePos hw rfl hg hfr (by assumption)
    · exact .same
  | get a pos => exact change_onArr fun g _ => by split <;> exact .same
  | len a => exact change_onArr fun g _ => .same
  | frozen a => exact change_onArr fun g _ => .same
  | indexOf a x => exact change_onArr fun g _ => .same
  | freeze a => exact change_onArr fun g hg => .froze a g hg rfl
  | copy a f =>
    refine change_onArr fun g hg => ?_
    split
    · exact .same
    · exact change_alloc _ rfl _ _ _
  | slice a i j =>
    refine change_onArr fun g hg => ?_
    split
    · exact .same
    · split
      · rename_i hb
        have hin := hw.arrs a g hg
        split
        · exact change_alloc _ rfl _ _ _
        · rename_i hfr
          have hfr : g.frozen = true := by simpa using hfr
          refine .new _ _ _ rfl ⟨hin.1, ?_⟩ (.shared a g hg hfr rfl rfl rfl)
          have h3 : j ≤ ((storeAt w.stores g.sl.store).length - g.sl.off : Nat) := hb.2.2
          have := hin.2
          simp only; omega
      · exact .same
  | «with» a x => exact change_onArr fun g hg => change_with hw hg _ rfl (by simp [extension])
  | withAll a b =>
    refine change_onArr fun g hg => change_onArr fun h hh => ?_
    split
    · exact .same
    · simp only
      generalize hvs : (if (g.frozen && !h.frozen) = true then
        copyCells true (read (alloc w.stores (copyCells false (read w.stores g.sl)) 0).2 h.sl)
        else read (alloc w.stores (copyCells false (read w.stores g.sl)) 0).2 h.sl) = vs
      have hs := append_spec grow vs (alloc_inside w.stores (copyCells false (read w.stores g.sl)) 0)
      generalize append grow (alloc w.stores (copyCells false (read w.stores g.sl)) 0).2
        (alloc w.stores (copyCells false (read w.stores g.sl)) 0).1 vs = r at hs ⊢
      refine .new _ _ _ rfl hs.inside (.fresh ?_ ?_)
      · rcases hs.place with h | h
        · exact Nat.le_of_eq h.1.symm
        · refine Nat.le_trans ?_ (Nat.le_of_eq h.1.symm)
          simp [alloc]
      · intro k lim
        have hf := alloc_frame w.stores (copyCells false (read w.stores g.sl)) 0
        refine ⟨Nat.le_trans (hf k lim).len hs.frame.len, ?_, ?_⟩
        · intro i hi
          have h1 := (hf k lim).len
          rw [hs.frame.size i (by omega), (hf k lim).size i hi]
        · intro t ht hd
          rw [hs.frame.read t ((hf k lim).inside ht) (.inl ?_), (hf k lim).read t ht hd]
          have := ht.1
          simp only [alloc]; omega
  | withValues a xs =>
    refine change_onArr fun g hg => ?_
    split
    · exact .same
    · exact change_with hw hg _ rfl (by simp [extension])
  | map a f => exact change_onArr fun g hg => change_alloc _ rfl _ _ _
  | select a p => exact change_onArr fun g hg => change_alloc _ rfl _ _ _
  | reject a p => exact change_onArr fun g hg => change_alloc _ rfl _ _ _
  | sort a =>
    refine change_onArr fun g hg => ?_
    split
    · exact .same
    · split
      · exact .same
      · exact change_alloc _ rfl _ _ _
  | unique a =>
    refine change_onArr fun g hg => ?_
    split
    · exact .same
    · split
      · exact .same
      · simp only
        split
        · exact .same
        · exact change_alloc _ rfl _ _ _
  | goSlice a =>
    refine change_onArr fun g hg => ?_
    split
    · exact .rawCopy _ _ rfl (alloc_inside _ _ _) (Nat.le_refl _) fun k lim => alloc_frame _ _ _ _ _
    · exact .rawShare a g hg rfl (by simpa using ‹¬ g.frozen = true›)
  | rawSet r i x =>
    simp only [exec]
    split
    · rename_i s hr
      split
      · have hin := hw.raws r s hr
        have := hin.2
        exact .rawWrite r s _ hr rfl _ (write_frame hin.1 (by simp only [List.length_singleton]; omega)) ⟨i, x, rfl⟩
      · exact .same
    · exact .same
  | wrapSlice r =>
    simp only [exec]
    split
    · rename_i s hr
      exact .new _ _ _ rfl (hw.raws r s hr) (.wrapped r s hr rfl rfl rfl)
    · exact .same

theorem Bnd.of_frame {w : World V} (hw : Bnd w) {st : Stores V} {k lim : Nat} (hf : Frame w.stores st k lim) :
    (∀ (i : Nat) (g : Obj), w.arrs[i]? = some g → Inside st g.sl) ∧
    (∀ (i : Nat) (s : Sl), w.raws[i]? = some s → Inside st s) :=
  ⟨fun i g h => hf.inside (hw.arrs i g h), fun i s h => hf.inside (hw.raws i s h)⟩

theorem Place.frame {w : World V} {op : Op V} {s : Sl} {st : Stores V} {fr : Bool} (h : Place w op s st fr) :
    ∃ k lim, Frame w.stores st k lim := by
  cases h with
  | fresh h hf => exact ⟨0, 0, hf 0 0⟩
  | behind a g n hg hfr hs hc he hf => exact ⟨_, _, hf⟩
  | shared a g hg hfr hfr' hs hst => subst hst; exact ⟨0, 0, .refl _ _ _⟩
  | wrapped r t hr ho hs hst => subst hst; exact ⟨0, 0, .refl _ _ _⟩

theorem getElem?_snoc {α : Type} {l : List α} {x y : α} {i : Nat} (h : (l ++ [x])[i]? = some y) :
    l[i]? = some y ∨ (i = l.length ∧ y = x) := by
  by_cases hi : i < l.length
  · rw [List.getElem?_append_left hi] at h; exact .inl h
  · rw [List.getElem?_append_right (by omega)] at h
    by_cases e : i = l.length
    · subst e; simp at h; exact .inr ⟨rfl, h.symm⟩
    · rw [List.getElem?_eq_none (by simp; omega)] at h; cases h

theorem getElem?_set {α : Type} {l : List α} {x y : α} {i j : Nat} (h : (l.set i x)[j]? = some y) :
    (j ≠ i ∧ l[j]? = some y) ∨ (j = i ∧ y = x) := by
  by_cases e : i = j
  · subst e
    have hl : i < l.length := by have := (List.getElem?_eq_some_iff.1 h).1; simpa using this
    rw [List.getElem?_set_self hl] at h; cases h; exact .inr ⟨rfl, rfl⟩
  · rw [List.getElem?_set_ne e] at h; exact .inl ⟨fun x => e x.symm, h⟩

theorem bnd_change {w w' : World V} {op : Op V} (hw : Bnd w) (h : Change w op w') : Bnd w' := by
  cases h with
  | same => exact hw
  | upd a g s st hg hfr ht hin lim hf hp =>
    obtain ⟨h1, h2⟩ := hw.of_frame hf
    refine ⟨fun i g' hi => ?_, h2⟩
    rcases getElem?_set hi with ⟨_, hi⟩ | ⟨_, rfl⟩
    · exact h1 i g' hi
    · exact hin
  | new s st fr ht hin hp =>
    obtain ⟨k, lim, hf⟩ := hp.frame
    obtain ⟨h1, h2⟩ := hw.of_frame hf
    refine ⟨fun i g' hi => ?_, h2⟩
    rcases getElem?_snoc hi with hi | ⟨_, rfl⟩
    · exact h1 i g' hi
    · exact hin
  | froze a g hg ht =>
    refine ⟨fun i g' hi => ?_, hw.raws⟩
    rcases getElem?_set hi with ⟨_, hi⟩ | ⟨_, rfl⟩
    · exact hw.arrs i g' hi
    · exact hw.arrs a g hg
  | rawCopy s st ht hin h hf =>
    obtain ⟨h1, h2⟩ := hw.of_frame (hf 0 0)
    refine ⟨h1, fun i s' hi => ?_⟩
    rcases getElem?_snoc hi with hi | ⟨_, rfl⟩
    · exact h2 i s' hi
    · exact hin
  | rawShare a g hg ho hfr =>
    refine ⟨hw.arrs, fun i s' hi => ?_⟩
    rcases getElem?_snoc hi with hi | ⟨_, rfl⟩
    · exact hw.raws i s' hi
    · exact hw.arrs a g hg
  | rawWrite r s st hr ht lim hf ho =>
    obtain ⟨h1, h2⟩ := hw.of_frame hf
    exact ⟨h1, h2⟩

/-! ### Separation -/

/-- What a program sees of an array: its elements and whether it is frozen. -/
def view (w : World V) (j : Nat) : Option (List (Option V) × Bool) :=
  w.arrs[j]?.map fun g => (read w.stores g.sl, g.frozen)

/-- Only frozen arrays share storage, and the slices the program has got are its own. -/
structure Sep (w : World V) : Prop where
  bnd : Bnd w
  arrs : ∀ (i j : Nat) (g h : Obj), w.arrs[i]? = some g → w.arrs[j]? = some h → i ≠ j → g.sl.store = h.sl.store → g.frozen = true
  raws : ∀ (i r : Nat) (g : Obj) (s : Sl), w.arrs[i]? = some g → w.raws[r]? = some s → g.sl.store ≠ s.store

/-- The array can be extended by `n` elements without harm: that needs new storage, or the array is frozen and no other
array reaches into the spare capacity behind it. -/
def CanExtend (w : World V) (a n : Nat) : Prop :=
  ∀ g, w.arrs[a]? = some g → cap w.stores g.sl < g.sl.len + n ∨
    (g.frozen = true ∧ ∀ (b : Nat) (h : Obj), w.arrs[b]? = some h → h.sl.store = g.sl.store →
      h.sl.off + h.sl.len ≤ g.sl.off + g.sl.len)

/-- The calls that keep arrays apart.  `With` and `WithValues` only in the case above; `GoSlice` only on a frozen array
(then it copies); no `WrapSlice`. -/
def Safe (w : World V) : Op V → Prop
  | .with a _ => CanExtend w a 1
  | .withValues a xs => CanExtend w a xs.length
  | .goSlice a => ∀ g, w.arrs[a]? = some g → g.frozen = true
  | .wrapSlice _ => False
  | _ => True

/-- The changes that keep arrays apart, with the array that changes. -/
inductive SafeChange (w : World V) : Option Nat → World V → Prop
  | same (t : Option Nat) : SafeChange w t w
  | upd (a : Nat) (g : Obj) (s : Sl) (st : Stores V) (hg : w.arrs[a]? = some g) (hfr : g.frozen = false)
      (hin : Inside st s) (lim : Nat) (hf : Frame w.stores st g.sl.store lim)
      (hp : s.store = g.sl.store ∨ w.stores.length ≤ s.store) : SafeChange w (some a) (setSlice w a g (s, st))
  | new (s : Sl) (st : Stores V) (frozen : Bool) (hin : Inside st s)
      (hp : (w.stores.length ≤ s.store ∧ ∀ k lim, Frame w.stores st k lim) ∨
        (frozen = true ∧ ∃ (a : Nat) (g : Obj) (lim : Nat), w.arrs[a]? = some g ∧ g.frozen = true ∧ s.store = g.sl.store ∧
          Frame w.stores st g.sl.store lim ∧
          (st = w.stores ∨ ∀ (b : Nat) (h : Obj), w.arrs[b]? = some h → h.sl.store = g.sl.store → h.sl.off + h.sl.len ≤ lim))) :
      SafeChange w none (newArr w (s, st) frozen).2
  | froze (a : Nat) (g : Obj) (hg : w.arrs[a]? = some g) :
      SafeChange w (some a) { w with arrs := w.arrs.set a { g with frozen := true } }
  | rawCopy (s : Sl) (st : Stores V) (hin : Inside st s) (h : w.stores.length ≤ s.store)
      (hf : ∀ k lim, Frame w.stores st k lim) : SafeChange w none { w with stores := st, raws := w.raws ++ [s] }
  | rawWrite (r : Nat) (s : Sl) (st : Stores V) (hr : w.raws[r]? = some s) (lim : Nat)
      (hf : Frame w.stores st s.store lim) : SafeChange w none { w with stores := st }

theorem SafeChange.sep {w w' : World V} {t : Option Nat} (hw : Sep w) (hb : Bnd w') (h : SafeChange w t w') :
    Sep w' ∧ (∀ j, t ≠ some j → j < w.arrs.length → view w' j = view w j) := by
  cases h with
  | same => exact ⟨hw, fun _ _ _ => rfl⟩
  | upd a g s st hg hfr hin lim hf hp =>
    have other : ∀ {i : Nat} {h : Obj}, i ≠ a → w.arrs[i]? = some h → h.sl.store ≠ g.sl.store ∧ h.sl.store ≠ s.store := by
      intro i h hi hh
      have h1 : h.sl.store ≠ g.sl.store := by
        intro e
        have := hw.arrs a i g h hg hh (Ne.symm hi) e.symm
        rw [hfr] at this; cases this
      refine ⟨h1, ?_⟩
      rcases hp with hp | hp
      · rwa [hp]
      · have := (hw.bnd.arrs i h hh).1; omega
    refine ⟨⟨hb, ?_, ?_⟩, ?_⟩
    · intro i j g' h' hi hj hij e
      rcases getElem?_set hi with ⟨ne, hi'⟩ | ⟨rfl, rfl⟩ <;> rcases getElem?_set hj with ⟨ne', hj'⟩ | ⟨rfl, rfl⟩
      · exact hw.arrs i j g' h' hi' hj' hij e
      · exact absurd e (other ne hi').2
      · exact absurd e.symm (other ne' hj').2
      · exact absurd rfl hij
    · intro i r g' s' hi hr
      rcases getElem?_set hi with ⟨ne, hi⟩ | ⟨rfl, rfl⟩
      · exact hw.raws i r g' s' hi hr
      · rcases hp with hp | hp
        · simp only; rw [hp]; exact hw.raws _ r g s' hg hr
        · have := (hw.bnd.raws r s' hr).1
          simp only; omega
    · intro j hj hl
      have hja : a ≠ j := fun e => hj (by rw [e])
      simp only [view, setSlice]
      rw [List.getElem?_set_ne hja]
      match hh : w.arrs[j]? with
      | none => rfl
      | some h =>
        simp only [Option.map_some]
        rw [hf.read h.sl (hw.bnd.arrs j h hh) (.inl (other (Ne.symm hja) hh).1)]
  | new s st fr hin hp =>
    rcases hp with ⟨h1, h2⟩ | ⟨hfr, a, g, lim, hg, hgf, hs, hf, hl⟩
    · refine ⟨⟨hb, ?_, ?_⟩, ?_⟩
      · intro i j g' h' hi hj hij e
        rcases getElem?_snoc hi with hi | ⟨rfl, rfl⟩ <;> rcases getElem?_snoc hj with hj | ⟨rfl, rfl⟩
        · exact hw.arrs i j g' h' hi hj hij e
        · have := (hw.bnd.arrs i g' hi).1; simp only at e; omega
        · have := (hw.bnd.arrs j h' hj).1; simp only at e; omega
        · exact absurd rfl hij
      · intro i r g' s' hi hr
        rcases getElem?_snoc hi with hi | ⟨rfl, rfl⟩
        · exact hw.raws i r g' s' hi hr
        · have := (hw.bnd.raws r s' hr).1; simp only; omega
      · intro j _ hl
        simp only [view, newArr]
        rw [List.getElem?_append_left hl]
        match hh : w.arrs[j]? with
        | none => rfl
        | some h =>
          simp only [Option.map_some]
          rw [(h2 (h.sl.store + 1) 0).read h.sl (hw.bnd.arrs j h hh) (.inl (by omega))]
    · refine ⟨⟨hb, ?_, ?_⟩, ?_⟩
      · intro i j g' h' hi hj hij e
        rcases getElem?_snoc hi with hi | ⟨rfl, rfl⟩ <;> rcases getElem?_snoc hj with hj | ⟨rfl, rfl⟩
        · exact hw.arrs i j g' h' hi hj hij e
        · simp only at e
          by_cases hia : i = a
          · subst hia; rw [hg] at hi; cases hi; exact hgf
          · exact hw.arrs i a g' g hi hg hia (by rw [e, hs])
        · exact hfr
        · exact absurd rfl hij
      · intro i r g' s' hi hr
        rcases getElem?_snoc hi with hi | ⟨rfl, rfl⟩
        · exact hw.raws i r g' s' hi hr
        · simp only; rw [hs]; exact hw.raws a r g s' hg hr
      · intro j _ hj
        simp only [view, newArr]
        rw [List.getElem?_append_left hj]
        match hh : w.arrs[j]? with
        | none => rfl
        | some h =>
          simp only [Option.map_some]
          rcases hl with rfl | hl
          · rfl
          · rw [hf.read h.sl (hw.bnd.arrs j h hh)]
            by_cases e : h.sl.store = g.sl.store
            · exact .inr (hl j h hh e)
            · exact .inl e
  | froze a g hg =>
    refine ⟨⟨hb, ?_, ?_⟩, ?_⟩
    · intro i j g' h' hi hj hij e
      rcases getElem?_set hi with ⟨ne, hi'⟩ | ⟨rfl, rfl⟩
      · rcases getElem?_set hj with ⟨ne', hj'⟩ | ⟨rfl, rfl⟩
        · exact hw.arrs i j g' h' hi' hj' hij e
        · exact hw.arrs i j g' g hi' hg hij e
      · rfl
    · intro i r g' s' hi hr
      rcases getElem?_set hi with ⟨ne, hi⟩ | ⟨rfl, rfl⟩
      · exact hw.raws i r g' s' hi hr
      · exact hw.raws _ r g s' hg hr
    · intro j hj hl
      have hja : a ≠ j := fun e => hj (by rw [e])
      simp only [view]
      rw [List.getElem?_set_ne hja]
  | rawCopy s st hin h hf =>
    refine ⟨⟨hb, hw.arrs, ?_⟩, ?_⟩
    · intro i r g' s' hi hr
      rcases getElem?_snoc hr with hr | ⟨rfl, rfl⟩
      · exact hw.raws i r g' s' hi hr
      · have := (hw.bnd.arrs i g' hi).1
        omega
    · intro j _ hl
      simp only [view]
      match hh : w.arrs[j]? with
      | none => rfl
      | some h =>
        simp only [Option.map_some]
        rw [(hf (h.sl.store + 1) 0).read h.sl (hw.bnd.arrs j h hh) (.inl (by omega))]
  | rawWrite r s st hr lim hf =>
    refine ⟨⟨hb, hw.arrs, hw.raws⟩, ?_⟩
    intro j _ hl
    simp only [view]
    match hh : w.arrs[j]? with
    | none => rfl
    | some h =>
      simp only [Option.map_some]
      rw [hf.read h.sl (hw.bnd.arrs j h hh) (.inl (hw.raws j r h s hh hr))]

theorem Change.safe {w w' : World V} {op : Op V} (h : Change w op w') (hs : Safe w op) : SafeChange w (target op) w' := by
  cases h with
  | same => exact .same _
  | upd a g s st hg hfr ht hin lim hf hp => rw [ht]; exact .upd a g s st hg hfr hin lim hf hp
  | new s st fr ht hin hp =>
    rw [ht]
    refine .new s st fr hin ?_
    cases hp with
    | fresh h hf => exact .inl ⟨h, hf⟩
    | behind a g n hg hfr hs' hc he hf =>
      have hx : CanExtend w a n := by
        cases op <;> simp only [extension] at he <;> first | (cases he; done) | (cases he; exact hs)
      rcases hx g hg with h | ⟨h1, h2⟩
      · omega
      · exact .inr ⟨hfr.trans h1, a, g, _, hg, h1, hs', hf, .inr h2⟩
    | shared a g hg hfr hfr' hs' hst =>
      subst hst
      exact .inr ⟨hfr', a, g, 0, hg, hfr, hs', .refl _ _ _, .inl rfl⟩
    | wrapped r t hr ho hs' hst => subst ho; exact hs.elim
  | froze a g hg ht => rw [ht]; exact .froze a g hg
  | rawCopy s st ht hin h hf => rw [ht]; exact .rawCopy s st hin h hf
  | rawShare a g hg ho hfr =>
    subst ho
    have := hs g hg
    rw [hfr] at this; cases this
  | rawWrite r s st hr ht lim hf ho => rw [ht]; exact .rawWrite r s st hr lim hf

theorem exec_bnd {w : World V} (hw : Bnd w) (op : Op V) : Bnd (exec grow w op).2 := bnd_change hw (exec_change hw op)

theorem exec_sep {w : World V} (hw : Sep w) (op : Op V) (hs : Safe w op) :
    Sep (exec grow w op).2 ∧ ∀ j, target op ≠ some j → j < w.arrs.length → view (exec grow w op).2 j = view w j :=
  ((exec_change hw.bnd op).safe hs).sep hw (exec_bnd hw.bnd op)

theorem init_bnd : Bnd (World.init : World V) := ⟨fun i g h => by simp [World.init] at h, fun i s h => by simp [World.init] at h⟩

theorem init_sep : Sep (World.init : World V) :=
  ⟨init_bnd, fun i j g h hi => by simp [World.init] at hi, fun i r g s hi => by simp [World.init] at hi⟩

end Verif.Arr
