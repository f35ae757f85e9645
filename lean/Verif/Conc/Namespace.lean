import Verif.Conc.Basic
/-!
# Namespace of a loader that is shared by goroutines
-/
set_option autoImplicit false
namespace Verif.Conc.Namespace

abbrev Name := String

/-- Where a call of `loader.Namespace` (loader/loader.go:249-283) is.  Loaders are known by their identity. -/
inductive Th where
  | notCalled
  | called (n : Name)
  | rlocked (n : Name)
  /-- has read the map: line 255 -/
  | read (n : Name) (v : Option Nat)
  /-- after `RUnlock`; the creator is called: line 262 -/
  | creating (n : Name)
  | created (n : Name) (ns : Nat)
  /-- after `Lock`: line 265 -/
  | wlocked (n : Name) (ns : Nat)
  /-- after `old = l.namespaces.Get(name)`: line 266 -/
  | checked (n : Name) (ns : Nat) (old : Option Nat)
  /-- after `Put`: line 267 -/
  | stored (n : Name) (ns : Nat)
  /-- after `Unlock`, there was one already: line 271 -/
  | comparing (n : Name) (ns old : Nat)
  | returned (n : Name) (r : Option Nat)
  | panicked

structure St where
  namespaces : List (Name × Nat)
  readers : List Nat
  writer : Option Nat
  th : Nat → Th

def St.init : St := { namespaces := [], readers := [], writer := none, th := fun _ => .notCalled }

/-- One action of one call; `me` is the loader, `creator`: is there a creator of namespaces?  (`Get` uses the same lock, which
only makes the calls wait longer.) -/
inductive Step (me : Nat) (creator : Bool) : St → St → Prop where
  | call {s : St} {i : Nat} (n : Name) (h : s.th i = .notCalled) (hn : n ≠ "") :
      Step me creator s { s with th := upd s.th i (.called n) }
  /-- lines 250-252 -/
  | callSelf {s : St} {i : Nat} (h : s.th i = .notCalled) : Step me creator s { s with th := upd s.th i (.returned "" (some me)) }
  | rlock {s : St} {i : Nat} {n : Name} (h : s.th i = .called n) (hw : s.writer = none) :
      Step me creator s { s with th := upd s.th i (.rlocked n), readers := i :: s.readers }
  | read {s : St} {i : Nat} {n : Name} (h : s.th i = .rlocked n) :
      Step me creator s { s with th := upd s.th i (.read n (look n s.namespaces)) }
  | hit {s : St} {i : Nat} {n : Name} {l : Nat} (h : s.th i = .read n (some l)) :
      Step me creator s { s with th := upd s.th i (.returned n (some l)), readers := s.readers.erase i }
  | noCreator {s : St} {i : Nat} {n : Name} (h : s.th i = .read n none) (hc : creator = false) :
      Step me creator s { s with th := upd s.th i (.returned n none), readers := s.readers.erase i }
  | miss {s : St} {i : Nat} {n : Name} (h : s.th i = .read n none) (hc : creator = true) :
      Step me creator s { s with th := upd s.th i (.creating n), readers := s.readers.erase i }
  /-- the creator may return any loader, or none -/
  | create {s : St} {i : Nat} {n : Name} (ns : Nat) (h : s.th i = .creating n) :
      Step me creator s { s with th := upd s.th i (.created n ns) }
  | createNone {s : St} {i : Nat} {n : Name} (h : s.th i = .creating n) :
      Step me creator s { s with th := upd s.th i (.returned n none) }
  | creatorPanics {s : St} {i : Nat} {n : Name} (h : s.th i = .creating n) :
      Step me creator s { s with th := upd s.th i .panicked }
  | lock {s : St} {i : Nat} {n : Name} {ns : Nat} (h : s.th i = .created n ns) (hw : s.writer = none) (hr : s.readers = []) :
      Step me creator s { s with th := upd s.th i (.wlocked n ns), writer := some i }
  | check {s : St} {i : Nat} {n : Name} {ns : Nat} (h : s.th i = .wlocked n ns) :
      Step me creator s { s with th := upd s.th i (.checked n ns (look n s.namespaces)) }
  | put {s : St} {i : Nat} {n : Name} {ns : Nat} (h : s.th i = .checked n ns none) :
      Step me creator s { s with th := upd s.th i (.stored n ns), namespaces := put n ns s.namespaces }
  | unlock {s : St} {i : Nat} {n : Name} {ns : Nat} (h : s.th i = .stored n ns) :
      Step me creator s { s with th := upd s.th i (.returned n (some ns)), writer := none }
  | unlockOld {s : St} {i : Nat} {n : Name} {ns old : Nat} (h : s.th i = .checked n ns (some old)) :
      Step me creator s { s with th := upd s.th i (.comparing n ns old), writer := none }
  /-- `old.Equals(ns)`, which may come out either way: loaders change -/
  | equal {s : St} {i : Nat} {n : Name} {ns old : Nat} (h : s.th i = .comparing n ns old) :
      Step me creator s { s with th := upd s.th i (.returned n (some old)) }
  | differs {s : St} {i : Nat} {n : Name} {ns old : Nat} (h : s.th i = .comparing n ns old) :
      Step me creator s { s with th := upd s.th i .panicked }

abbrev Steps (me : Nat) (creator : Bool) := Relation.ReflTransGen (Step me creator)

def Th.writes : Th → Bool
  | .wlocked .. | .checked .. | .stored .. => true
  | _ => false

/-- What the call knows is in the map -/
def Th.knows (me : Nat) (m : List (Name × Nat)) : Th → Prop
  | .read n (some l) => n ≠ "" ∧ look n m = some l
  | .stored n l => n ≠ "" ∧ look n m = some l
  | .comparing n _ l => n ≠ "" ∧ look n m = some l
  | .checked n _ (some l) => n ≠ "" ∧ look n m = some l
  | .returned n (some l) => if n = "" then l = me else look n m = some l
  | .called n | .rlocked n | .read n none | .creating n | .created n _ | .wlocked n _ | .checked n _ none
  | .returned n none => n ≠ ""
  | _ => True

structure Inv (me : Nat) (s : St) : Prop where
  lock : ∀ i, (s.th i).writes = true ↔ s.writer = some i
  checked : ∀ i n ns, s.th i = .checked n ns none → look n s.namespaces = none
  knows : ∀ i, (s.th i).knows me s.namespaces

theorem Inv.init (me : Nat) : Inv me St.init := by
  refine ⟨?_, ?_, ?_⟩ <;> simp [St.init, Th.writes, Th.knows]

theorem Inv.quiet {me : Nat} {s : St} (h : Inv me s) {i : Nat} {x : Th} {rd : List Nat} {w : Option Nat}
    (hlock : ∀ j, (upd s.th i x j).writes = true ↔ w = some j)
    (hc : ∀ n ns, x = .checked n ns none → look n s.namespaces = none) (hk : x.knows me s.namespaces) :
    Inv me { namespaces := s.namespaces, readers := rd, writer := w, th := upd s.th i x } := by
  refine ⟨hlock, ?_, ?_⟩
  · intro j n ns hj
    by_cases e : j = i
    · subst e; simp only [upd_same] at hj; exact hc _ _ hj
    · simp only [upd_other _ _ e] at hj; exact h.checked j _ _ hj
  · intro j
    by_cases e : j = i
    · subst e; simp only [upd_same]; exact hk
    · simp only [upd_other _ _ e]; exact h.knows j

theorem Inv.lock_same {me : Nat} {s : St} (h : Inv me s) {i : Nat} {x : Th} (hx : x.writes = (s.th i).writes) (j : Nat) :
    (upd s.th i x j).writes = true ↔ s.writer = some j := by
  by_cases e : j = i
  · subst e; rw [upd_same, hx]; exact h.lock j
  · rw [upd_other _ _ e]; exact h.lock j

theorem Inv.lock_drop {me : Nat} {s : St} (h : Inv me s) {i : Nat} {x : Th} (hi : (s.th i).writes = true)
    (hx : x.writes = false) (j : Nat) : (upd s.th i x j).writes = true ↔ (none : Option Nat) = some j := by
  by_cases e : j = i
  · subst e; rw [upd_same, hx]; simp
  · rw [upd_other _ _ e, h.lock j, (h.lock i).1 hi]; simp [Ne.symm e]

theorem Inv.step {me : Nat} {creator : Bool} {s s' : St} (h : Inv me s) (hs : Step me creator s s') : Inv me s' := by
  cases hs with
  | call n hi hn => exact h.quiet (h.lock_same (by rw [hi]; rfl)) (by simp) hn
  | callSelf hi => exact h.quiet (h.lock_same (by rw [hi]; rfl)) (by simp) (by simp [Th.knows])
  | @rlock i n hi hw =>
    have hk := h.knows i; rw [hi] at hk
    exact h.quiet (h.lock_same (by rw [hi]; rfl)) (by simp) hk
  | @read i n hi =>
    have hk := h.knows i; rw [hi] at hk
    refine h.quiet (h.lock_same (by rw [hi]; rfl)) (by simp) ?_
    cases hl : look n s.namespaces with
    | none => exact hk
    | some l => exact ⟨hk, hl⟩
  | @hit i n l hi =>
    have hk := h.knows i; rw [hi] at hk
    refine h.quiet (h.lock_same (by rw [hi]; rfl)) (by simp) ?_
    simp only [Th.knows]; rw [if_neg hk.1]; exact hk.2
  | @noCreator i n hi hc =>
    have hk := h.knows i; rw [hi] at hk
    exact h.quiet (h.lock_same (by rw [hi]; rfl)) (by simp) hk
  | @miss i n hi hc =>
    have hk := h.knows i; rw [hi] at hk
    exact h.quiet (h.lock_same (by rw [hi]; rfl)) (by simp) hk
  | @create i n ns hi =>
    have hk := h.knows i; rw [hi] at hk
    exact h.quiet (h.lock_same (by rw [hi]; rfl)) (by simp) hk
  | @createNone i n hi =>
    have hk := h.knows i; rw [hi] at hk
    exact h.quiet (h.lock_same (by rw [hi]; rfl)) (by simp) hk
  | @creatorPanics i n hi => exact h.quiet (h.lock_same (by rw [hi]; rfl)) (by simp) trivial
  | @lock i n ns hi hw hr =>
    have hk := h.knows i; rw [hi] at hk
    refine h.quiet ?_ (by simp) hk
    intro j
    by_cases e : j = i
    · subst e; simp [Th.writes]
    · rw [upd_other _ _ e, h.lock j, hw]; simp [Ne.symm e]
  | @check i n ns hi =>
    have hk := h.knows i; rw [hi] at hk
    refine h.quiet (h.lock_same (by rw [hi]; rfl)) ?_ ?_
    · intro n' ns' e; simp only [Th.checked.injEq] at e; obtain ⟨rfl, _, e⟩ := e; exact e
    · cases hl : look n s.namespaces with
      | none => exact hk
      | some l => exact ⟨hk, hl⟩
  | @unlock i n ns hi =>
    have hk := h.knows i; rw [hi] at hk
    refine h.quiet (h.lock_drop (by rw [hi]; rfl) rfl) (by simp) ?_
    simp only [Th.knows]; rw [if_neg hk.1]; exact hk.2
  | @unlockOld i n ns old hi =>
    have hk := h.knows i; rw [hi] at hk
    exact h.quiet (h.lock_drop (by rw [hi]; rfl) rfl) (by simp) hk
  | @equal i n ns old hi =>
    have hk := h.knows i; rw [hi] at hk
    refine h.quiet (h.lock_same (by rw [hi]; rfl)) (by simp) ?_
    simp only [Th.knows]; rw [if_neg hk.1]; exact hk.2
  | @differs i n ns old hi => exact h.quiet (h.lock_same (by rw [hi]; rfl)) (by simp) trivial
  | @put i n ns hi =>
    have hk := h.knows i; rw [hi] at hk
    have hc := h.checked i n ns hi
    have hlk : s.writer = some i := (h.lock i).1 (by rw [hi]; rfl)
    have others : ∀ j, j ≠ i → (s.th j).writes = false := by
      intro j e
      cases hj : (s.th j).writes with
      | false => rfl
      | true => rw [h.lock j, hlk] at hj; simp [Ne.symm e] at hj
    have keep : ∀ n1 e, look n1 s.namespaces = some e → look n1 (Conc.put n ns s.namespaces) = some e := by
      intro k1 e he
      rw [look_put, if_neg]
      · exact he
      · rintro rfl; rw [hc] at he; cases he
    refine ⟨h.lock_same (by rw [hi]; rfl), ?_, ?_⟩
    · intro j n1 ns1 hj
      by_cases e : j = i
      · subst e; simp at hj
      · have := others j e
        simp only [upd_other _ _ e] at hj
        rw [hj] at this; cases this
    · intro j
      by_cases e : j = i
      · subst e
        simp only [upd_same]
        exact ⟨hk, by rw [look_put]; simp⟩
      · simp only [upd_other _ _ e]
        have hj := h.knows j
        unfold Th.knows at hj ⊢
        split at hj
        all_goals first
          | exact ⟨hj.1, keep _ _ hj.2⟩
          | (split at hj
             · rename_i e; rw [if_pos e]; exact hj
             · rename_i e; rw [if_neg e]; exact keep _ _ hj)
          | exact hj

theorem Inv.steps {me : Nat} {creator : Bool} {s s' : St} (h : Inv me s) (hs : Steps me creator s s') : Inv me s' :=
  steps_inv (P := Inv me) (fun _ _ => Inv.step) h hs

/-- A namespace stays. -/
theorem namespaces_stay {me : Nat} {creator : Bool} {s s' : St} (hi : Inv me s) (hs : Steps me creator s s') {n : Name}
    {l : Nat} (h : look n s.namespaces = some l) : look n s'.namespaces = some l := by
  refine (steps_inv (P := fun s => Inv me s ∧ look n s.namespaces = some l) ?_ ⟨hi, h⟩ hs).2
  clear h hi hs s s'
  rintro s s' ⟨hi, h⟩ hs
  refine ⟨hi.step hs, ?_⟩
  cases hs with
  | put hj =>
    have := hi.checked _ _ _ hj
    simp only
    rw [look_put, if_neg]
    · exact h
    · rintro rfl; rw [h] at this; cases this
  | _ => exact h

/-- What a call can be at that is made for a namespace that exists -/
def Late (n : Name) (l : Nat) : Th → Prop
  | .notCalled | .called _ | .rlocked _ => True
  | .read n' v => n' = n → v = some l
  | .returned n' r => n' = n → r = some l
  | .creating n' | .created n' _ | .wlocked n' _ | .checked n' .. | .stored n' _ | .comparing n' .. => n' ≠ n
  | .panicked => True

theorem late_steps {me : Nat} {creator : Bool} {s s' : St} (hi : Inv me s) (hs : Steps me creator s s') {n : Name} {l : Nat}
    (hn : n ≠ "") (h : look n s.namespaces = some l) {i : Nat} (hl : Late n l (s.th i)) : Late n l (s'.th i) := by
  refine (steps_inv (P := fun s => Inv me s ∧ look n s.namespaces = some l ∧ Late n l (s.th i)) ?_ ⟨hi, h, hl⟩ hs).2.2
  clear h hi hl hs s s'
  rintro s s' ⟨hi, h, hl⟩ hs
  refine ⟨hi.step hs, namespaces_stay hi (.single hs) h, ?_⟩
  have other : ∀ {j : Nat} {x : Th}, (j = i → Late n l x) → Late n l (upd s.th j x i) := by
    intro j x hx
    by_cases e : i = j
    · subst e; rw [upd_same]; exact hx rfl
    · rw [upd_other _ _ e]; exact hl
  cases hs with
  | call n' hj hn' => exact other fun _ => trivial
  | callSelf hj => refine other fun e => ?_; intro e; exact absurd e.symm hn
  | rlock hj hw => exact other fun _ => trivial
  | read hj => refine other fun e => ?_; rintro rfl; exact h
  | hit hj => refine other fun e => ?_; subst e; rw [hj] at hl; exact hl
  | noCreator hj hf => refine other fun e => ?_; subst e; rw [hj] at hl; intro e; cases hl e
  | miss hj hf => refine other fun e => ?_; subst e; rw [hj] at hl; intro e; cases hl e
  | create ns hj => refine other fun e => ?_; subst e; rw [hj] at hl; exact hl
  | createNone hj => refine other fun e => ?_; subst e; rw [hj] at hl; intro e; exact absurd e hl
  | creatorPanics hj => exact other fun _ => trivial
  | lock hj hw hr => refine other fun e => ?_; subst e; rw [hj] at hl; exact hl
  | check hj => refine other fun e => ?_; subst e; rw [hj] at hl; exact hl
  | put hj => refine other fun e => ?_; subst e; rw [hj] at hl; exact hl
  | unlock hj => refine other fun e => ?_; subst e; rw [hj] at hl; intro e; exact absurd e hl
  | unlockOld hj => refine other fun e => ?_; subst e; rw [hj] at hl; exact hl
  | equal hj => refine other fun e => ?_; subst e; rw [hj] at hl; intro e; exact absurd e hl
  | differs hj => exact other fun _ => trivial

end Verif.Conc.Namespace
