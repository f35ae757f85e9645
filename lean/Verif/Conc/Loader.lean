import Verif.Conc.Basic
import Verif.Value.Eq
/-!
# Get and Namespace of a loader that is shared by goroutines
-/
set_option autoImplicit false
namespace Verif.Conc.Loader
open Verif.Value (Val Str)

/-! ## Get -/

/-- What a finder returns, after `vf.Value`: a value (`Val.nil` if it finds nothing) or `Multiple(m)` (loader/loader.go:42-44). -/
inductive Answer where
  | one (v : Val)
  | multiple (m : List (Str × Val))

/-- Where a call of `loader.Get` (loader.go:226-243) is -/
inductive Th where
  | notCalled
  | called (k : Str)
  /-- after `RLock`: line 231 -/
  | rlocked (k : Str)
  /-- has read the entry: line 232 -/
  | read (k : Str) (v : Option Val)
  /-- after `RUnlock`; the finder is called: line 235 -/
  | asking (k : Str)
  /-- the finder has returned; `add` is called: line 236 -/
  | found (k : Str) (a : Answer)
  /-- after `Lock` in `add`: line 194 -/
  | wlocked (k : Str) (a : Answer)
  /-- the entries that `addEntry` is still to be called with; `v` is what will be returned -/
  | adding (k : Str) (v : Val) (todo : List (Str × Val))
  /-- in `addEntry`, after `old := l.entries.Get(key)`: line 198 -/
  | checked (k : Str) (v : Val) (k' : Str) (v' : Val) (old : Option Val) (todo : List (Str × Val))
  /-- panics in `add`; the deferred `Unlock` is next -/
  | failing
  /-- the answer: `none` is a Go nil -/
  | returned (k : Str) (r : Option Val)
  | panicked

structure St where
  entries : List (Str × Val)
  readers : List Nat
  writer : Option Nat
  th : Nat → Th

def St.init (m : List (Str × Val)) : St := { entries := m, readers := [], writer := none, th := fun _ => .notCalled }

/-- `if vf.Nil == v { v = nil }`: lines 238-240. -/
def strip : Val → Option Val
  | .nil => none
  | v => some v

/-- One action of one call of `Get`; `finder`: is there a finder?  Calls that a finder makes are calls of their own. -/
inductive Step (finder : Bool) : St → St → Prop where
  | call {s : St} {i : Nat} (k : Str) (h : s.th i = .notCalled) : Step finder s { s with th := upd s.th i (.called k) }
  | rlock {s : St} {i : Nat} {k : Str} (h : s.th i = .called k) (hw : s.writer = none) :
      Step finder s { s with th := upd s.th i (.rlocked k), readers := i :: s.readers }
  | read {s : St} {i : Nat} {k : Str} (h : s.th i = .rlocked k) :
      Step finder s { s with th := upd s.th i (.read k (look k s.entries)) }
  /-- `RUnlock`, and the entry is there -/
  | hit {s : St} {i : Nat} {k : Str} {v : Val} (h : s.th i = .read k (some v)) :
      Step finder s { s with th := upd s.th i (.returned k (strip v)), readers := s.readers.erase i }
  | noFinder {s : St} {i : Nat} {k : Str} (h : s.th i = .read k none) (hf : finder = false) :
      Step finder s { s with th := upd s.th i (.returned k none), readers := s.readers.erase i }
  | miss {s : St} {i : Nat} {k : Str} (h : s.th i = .read k none) (hf : finder = true) :
      Step finder s { s with th := upd s.th i (.asking k), readers := s.readers.erase i }
  /-- the finder may return anything -/
  | find {s : St} {i : Nat} {k : Str} (a : Answer) (h : s.th i = .asking k) : Step finder s { s with th := upd s.th i (.found k a) }
  | finderPanics {s : St} {i : Nat} {k : Str} (h : s.th i = .asking k) : Step finder s { s with th := upd s.th i .panicked }
  | lock {s : St} {i : Nat} {k : Str} {a : Answer} (h : s.th i = .found k a) (hw : s.writer = none) (hr : s.readers = []) :
      Step finder s { s with th := upd s.th i (.wlocked k a), writer := some i }
  /-- lines 212-213 -/
  | single {s : St} {i : Nat} {k : Str} {v : Val} (h : s.th i = .wlocked k (.one v)) :
      Step finder s { s with th := upd s.th i (.adding k v [(k, v)]) }
  /-- lines 205-211 -/
  | multiple {s : St} {i : Nat} {k : Str} {m : List (Str × Val)} {v : Val} (h : s.th i = .wlocked k (.multiple m))
      (hv : look k m = some v) : Step finder s { s with th := upd s.th i (.adding k v m) }
  /-- lines 207-209 -/
  | keyMissing {s : St} {i : Nat} {k : Str} {m : List (Str × Val)} (h : s.th i = .wlocked k (.multiple m))
      (hv : look k m = none) : Step finder s { s with th := upd s.th i .failing }
  | check {s : St} {i : Nat} {k : Str} {v : Val} {k' : Str} {v' : Val} {r : List (Str × Val)}
      (h : s.th i = .adding k v ((k', v') :: r)) : Step finder s { s with th := upd s.th i (.checked k v k' v' (look k' s.entries) r) }
  | put {s : St} {i : Nat} {k : Str} {v : Val} {k' : Str} {v' : Val} {r : List (Str × Val)}
      (h : s.th i = .checked k v k' v' none r) :
      Step finder s { s with th := upd s.th i (.adding k v r), entries := put k' v' s.entries }
  | same {s : St} {i : Nat} {k : Str} {v : Val} {k' : Str} {v' old : Val} {r : List (Str × Val)}
      (h : s.th i = .checked k v k' v' (some old) r) (he : Value.eq old v' = true) :
      Step finder s { s with th := upd s.th i (.adding k v r) }
  | differs {s : St} {i : Nat} {k : Str} {v : Val} {k' : Str} {v' old : Val} {r : List (Str × Val)}
      (h : s.th i = .checked k v k' v' (some old) r) (he : Value.eq old v' = false) :
      Step finder s { s with th := upd s.th i .failing }
  | unlock {s : St} {i : Nat} {k : Str} {v : Val} (h : s.th i = .adding k v []) :
      Step finder s { s with th := upd s.th i (.returned k (strip v)), writer := none }
  | unlockFailing {s : St} {i : Nat} (h : s.th i = .failing) :
      Step finder s { s with th := upd s.th i .panicked, writer := none }

abbrev Steps (finder : Bool) := Relation.ReflTransGen (Step finder)

/-- The calls that have the write lock -/
def Th.writes : Th → Bool
  | .wlocked .. | .adding .. | .checked .. | .failing => true
  | _ => false

/-- `v` is the entry, or the entry `Equals` it. -/
def Agree (e v : Val) : Prop := v = e ∨ Value.eq e v = true

/-- The answer for a key agrees with what is stored. -/
def Answers (s : St) (k : Str) (v : Val) : Prop := ∃ e, look k s.entries = some e ∧ Agree e v

structure Inv (finder : Bool) (s : St) : Prop where
  lock : ∀ i, (s.th i).writes = true ↔ s.writer = some i
  checked : ∀ i k v k' v' old r, s.th i = .checked k v k' v' old r → old = look k' s.entries
  read : ∀ i k v, s.th i = .read k v → look k s.entries = v ∨ (v = none ∧ finder = true)
  adding : ∀ i k v r, s.th i = .adding k v r → look k r = some v ∨ Answers s k v
  adding' : ∀ i k v k' v' old r, s.th i = .checked k v k' v' old r → look k ((k', v') :: r) = some v ∨ Answers s k v
  returned : ∀ i k r, s.th i = .returned k r → finder = true → ∃ v, strip v = r ∧ Answers s k v
  fixed : ∀ i k r, s.th i = .returned k r → finder = false → (look k s.entries).bind strip = r
  noAdd : finder = false → ∀ i, (s.th i).writes = false ∧ (∀ k, s.th i ≠ .asking k) ∧ ∀ k a, s.th i ≠ .found k a

theorem Inv.init (finder : Bool) (m : List (Str × Val)) : Inv finder (St.init m) := by
  refine ⟨?_, ?_, ?_, ?_, ?_, ?_, ?_, ?_⟩ <;> simp_all [St.init, Th.writes]

/-- Steps that leave the entries alone -/
theorem Inv.quiet {finder : Bool} {s : St} (h : Inv finder s) {i : Nat} {x : Th} {rd : List Nat} {w : Option Nat}
    (hlock : ∀ j, (upd s.th i x j).writes = true ↔ w = some j)
    (hc : ∀ k v k' v' old r, x = .checked k v k' v' old r → old = look k' s.entries)
    (hr : ∀ k v, x = .read k v → look k s.entries = v ∨ (v = none ∧ finder = true))
    (ha : ∀ k v r, x = .adding k v r → look k r = some v ∨ Answers s k v)
    (ha' : ∀ k v k' v' old r, x = .checked k v k' v' old r → look k ((k', v') :: r) = some v ∨ Answers s k v)
    (hret : ∀ k r, x = .returned k r → finder = true → ∃ v, strip v = r ∧ Answers s k v)
    (hf : ∀ k r, x = .returned k r → finder = false → (look k s.entries).bind strip = r)
    (hn : finder = false → x.writes = false ∧ (∀ k, x ≠ .asking k) ∧ ∀ k a, x ≠ .found k a) :
    Inv finder { entries := s.entries, readers := rd, writer := w, th := upd s.th i x } := by
  refine ⟨hlock, ?_, ?_, ?_, ?_, ?_, ?_, ?_⟩
  · intro j k v k' v' old r hj
    by_cases e : j = i
    · subst e; simp only [upd_same] at hj; exact hc _ _ _ _ _ _ hj
    · simp only [upd_other _ _ e] at hj; exact h.checked j _ _ _ _ _ _ hj
  · intro j k v hj
    by_cases e : j = i
    · subst e; simp only [upd_same] at hj; exact hr _ _ hj
    · simp only [upd_other _ _ e] at hj; exact h.read j _ _ hj
  · intro j k v r hj
    by_cases e : j = i
    · subst e; simp only [upd_same] at hj; exact ha _ _ _ hj
    · simp only [upd_other _ _ e] at hj; exact h.adding j _ _ _ hj
  · intro j k v k' v' old r hj
    by_cases e : j = i
    · subst e; simp only [upd_same] at hj; exact ha' _ _ _ _ _ _ hj
    · simp only [upd_other _ _ e] at hj; exact h.adding' j _ _ _ _ _ _ hj
  · intro j k r hj
    by_cases e : j = i
    · subst e; simp only [upd_same] at hj; exact hret _ _ hj
    · simp only [upd_other _ _ e] at hj; exact h.returned j _ _ hj
  · intro j k r hj
    by_cases e : j = i
    · subst e; simp only [upd_same] at hj; exact hf _ _ hj
    · simp only [upd_other _ _ e] at hj; exact h.fixed j _ _ hj
  · intro hff j
    by_cases e : j = i
    · subst e; simp only [upd_same]; exact hn hff
    · simp only [upd_other _ _ e]; exact h.noAdd hff j

theorem Inv.lock_same {finder : Bool} {s : St} (h : Inv finder s) {i : Nat} {x : Th} (hx : x.writes = (s.th i).writes) (j : Nat) :
    (upd s.th i x j).writes = true ↔ s.writer = some j := by
  by_cases e : j = i
  · subst e; rw [upd_same, hx]; exact h.lock j
  · rw [upd_other _ _ e]; exact h.lock j

theorem Inv.lock_drop {finder : Bool} {s : St} (h : Inv finder s) {i : Nat} {x : Th} (hi : (s.th i).writes = true)
    (hx : x.writes = false) (j : Nat) : (upd s.th i x j).writes = true ↔ (none : Option Nat) = some j := by
  by_cases e : j = i
  · subst e; rw [upd_same, hx]; simp
  · rw [upd_other _ _ e, h.lock j, (h.lock i).1 hi]; simp [Ne.symm e]

theorem Inv.step {finder : Bool} {s s' : St} (h : Inv finder s) (hs : Step finder s s') : Inv finder s' := by
  have hn := h.noAdd
  have hasFinder : ∀ i, (s.th i).writes = true → finder = true := by
    intro i hi
    cases finder with
    | true => rfl
    | false => rw [(hn rfl i).1] at hi; cases hi
  cases hs with
  | @call i k hi => refine h.quiet (h.lock_same (by rw [hi]; rfl)) ?_ ?_ ?_ ?_ ?_ ?_ ?_ <;> simp [Th.writes]
  | @rlock i k hi hw => refine h.quiet (h.lock_same (by rw [hi]; rfl)) ?_ ?_ ?_ ?_ ?_ ?_ ?_ <;> simp [Th.writes]
  | @read i k hi =>
    refine h.quiet (h.lock_same (by rw [hi]; rfl)) ?_ ?_ ?_ ?_ ?_ ?_ ?_ <;> simp [Th.writes]
  | @hit i k v hi =>
    have hr : look k s.entries = some v := by
      rcases h.read i k _ hi with h | ⟨h, _⟩
      · exact h
      · cases h
    refine h.quiet (h.lock_same (by rw [hi]; rfl)) ?_ ?_ ?_ ?_ ?_ ?_ ?_ <;> simp [Th.writes]
    · intro _
      exact ⟨v, rfl, v, hr, Or.inl rfl⟩
    · intro _
      rw [hr]; rfl
  | @noFinder i k hi hf =>
    subst hf
    have hr : look k s.entries = none := by simpa using h.read i k _ hi
    refine h.quiet (h.lock_same (by rw [hi]; rfl)) ?_ ?_ ?_ ?_ ?_ ?_ ?_ <;> simp [Th.writes, hr]
  | @miss i k hi hf =>
    subst hf
    refine h.quiet (h.lock_same (by rw [hi]; rfl)) ?_ ?_ ?_ ?_ ?_ ?_ ?_ <;> simp [Th.writes]
  | @find i k a hi =>
    refine h.quiet (h.lock_same (by rw [hi]; rfl)) ?_ ?_ ?_ ?_ ?_ ?_ ?_ <;> simp [Th.writes]
    cases finder with
    | true => rfl
    | false => exact absurd hi ((hn rfl i).2.1 k)
  | @finderPanics i k hi => refine h.quiet (h.lock_same (by rw [hi]; rfl)) ?_ ?_ ?_ ?_ ?_ ?_ ?_ <;> simp [Th.writes]
  | @lock i k a hi hw hr =>
    refine h.quiet ?_ ?_ ?_ ?_ ?_ ?_ ?_ ?_ <;> simp [Th.writes]
    · intro j
      by_cases e : j = i
      · subst e; simp
      · rw [upd_other _ _ e]
        have := h.lock j
        rw [hw] at this
        simp only [reduceCtorEq, iff_false] at this
        simp only [Ne.symm e, iff_false]
        exact this
    · cases finder with
      | true => rfl
      | false => exact absurd hi ((hn rfl i).2.2 k a)
  | @single i k v hi =>
    refine h.quiet (h.lock_same (by rw [hi]; rfl)) ?_ ?_ ?_ ?_ ?_ ?_ ?_ <;> simp [Th.writes, look]
    exact hasFinder i (by rw [hi]; rfl)
  | @multiple i k m v hi hv =>
    refine h.quiet (h.lock_same (by rw [hi]; rfl)) ?_ ?_ ?_ ?_ ?_ ?_ ?_ <;> simp [Th.writes, hv]
    exact hasFinder i (by rw [hi]; rfl)
  | @keyMissing i k m hi hv =>
    refine h.quiet (h.lock_same (by rw [hi]; rfl)) ?_ ?_ ?_ ?_ ?_ ?_ ?_ <;> simp [Th.writes]
    exact hasFinder i (by rw [hi]; rfl)
  | @check i k v k' v' r hi =>
    have ha := h.adding i _ _ _ hi
    refine h.quiet (h.lock_same (by rw [hi]; rfl)) ?_ ?_ ?_ ?_ ?_ ?_ ?_ <;> simp [Th.writes]
    · rintro _ _ _ _ _ _ rfl rfl rfl rfl rfl rfl; rfl
    · rintro _ _ _ _ _ _ rfl rfl rfl rfl rfl rfl; exact ha
    · exact hasFinder i (by rw [hi]; rfl)
  | @same i k v k' v' old r hi he =>
    have ha := h.adding' i _ _ _ _ _ _ hi
    have hc := h.checked i _ _ _ _ _ _ hi
    refine h.quiet (h.lock_same (by rw [hi]; rfl)) ?_ ?_ ?_ ?_ ?_ ?_ ?_ <;> simp [Th.writes]
    · rcases ha with ha | ha
      · unfold look at ha
        split at ha
        · rename_i e; subst e; cases ha
          exact Or.inr ⟨old, hc.symm, Or.inr he⟩
        · exact Or.inl ha
      · exact Or.inr ha
    · exact hasFinder i (by rw [hi]; rfl)
  | @differs i k v k' v' old r hi he =>
    refine h.quiet (h.lock_same (by rw [hi]; rfl)) ?_ ?_ ?_ ?_ ?_ ?_ ?_ <;> simp [Th.writes]
    exact hasFinder i (by rw [hi]; rfl)
  | @unlock i k v hi =>
    have ha := h.adding i _ _ _ hi
    have hf := hasFinder i (by rw [hi]; rfl)
    subst hf
    refine h.quiet (h.lock_drop (by rw [hi]; rfl) rfl) ?_ ?_ ?_ ?_ ?_ ?_ ?_ <;> simp [Th.writes]
    rcases ha with ha | ha
    · cases ha
    · exact ⟨v, rfl, ha⟩
  | @unlockFailing i hi =>
    refine h.quiet (h.lock_drop (by rw [hi]; rfl) rfl) ?_ ?_ ?_ ?_ ?_ ?_ ?_ <;> simp [Th.writes]
  | @put i k v k' v' r hi =>
    have ha := h.adding' i _ _ _ _ _ _ hi
    have hc : look k' s.entries = none := (h.checked i _ _ _ _ _ _ hi).symm
    have hf := hasFinder i (by rw [hi]; rfl)
    subst hf
    have hlk : s.writer = some i := (h.lock i).1 (by rw [hi]; rfl)
    have others : ∀ j, j ≠ i → (s.th j).writes = false := by
      intro j e
      cases hj : (s.th j).writes with
      | false => rfl
      | true => rw [h.lock j, hlk] at hj; simp [Ne.symm e] at hj
    have keep : ∀ k1 e, look k1 s.entries = some e → look k1 (put k' v' s.entries) = some e := by
      intro k1 e he
      rw [look_put, if_neg]
      · exact he
      · rintro rfl; rw [hc] at he; cases he
    have keepA : ∀ k1 v1, Answers s k1 v1 →
        Answers { s with th := upd s.th i (.adding k v r), entries := put k' v' s.entries } k1 v1 := by
      rintro k1 v1 ⟨e, he, h'⟩
      exact ⟨e, keep k1 e he, h'⟩
    refine ⟨h.lock_same (by rw [hi]; rfl), ?_, ?_, ?_, ?_, ?_, by simp, by simp⟩
    · intro j k v k' v' old r hj
      by_cases e : j = i
      · subst e; simp at hj
      · have := others j e
        simp only [upd_other _ _ e] at hj
        rw [hj] at this; cases this
    · intro j k1 v1 hj
      by_cases e : j = i
      · subst e; simp at hj
      · simp only [upd_other _ _ e] at hj
        cases v1 with
        | none => simp
        | some v1 =>
          rcases h.read j _ _ hj with h' | ⟨h', _⟩
          · exact Or.inl (keep _ _ h')
          · cases h'
    · intro j k1 v1 r1 hj
      by_cases e : j = i
      · subst e
        simp only [upd_same, Th.adding.injEq] at hj
        obtain ⟨rfl, rfl, rfl⟩ := hj
        rcases ha with ha | ha
        · unfold look at ha
          split at ha
          · rename_i e; subst e; cases ha
            exact Or.inr ⟨v, by simp only [look_put, if_true], Or.inl rfl⟩
          · exact Or.inl ha
        · exact Or.inr (keepA _ _ ha)
      · have := others j e
        simp only [upd_other _ _ e] at hj
        rw [hj] at this; cases this
    · intro j k v k' v' old r hj
      by_cases e : j = i
      · subst e; simp at hj
      · have := others j e
        simp only [upd_other _ _ e] at hj
        rw [hj] at this; cases this
    · intro j k1 r1 hj _
      by_cases e : j = i
      · subst e; simp at hj
      · simp only [upd_other _ _ e] at hj
        obtain ⟨v, h1, h2⟩ := h.returned j _ _ hj rfl
        exact ⟨v, h1, keepA _ _ h2⟩

theorem Inv.steps {finder : Bool} {s s' : St} (h : Inv finder s) (hs : Steps finder s s') : Inv finder s' :=
  steps_inv (P := Inv finder) (fun _ _ => Inv.step) h hs

/-- An entry never changes. -/
theorem entries_stay {finder : Bool} {s s' : St} (hi : Inv finder s) (hs : Steps finder s s') {k : Str} {v : Val}
    (h : look k s.entries = some v) : look k s'.entries = some v := by
  refine (steps_inv (P := fun s => Inv finder s ∧ look k s.entries = some v) ?_ ⟨hi, h⟩ hs).2
  clear h hi hs s s'
  rintro s s' ⟨hi, h⟩ hs
  refine ⟨hi.step hs, ?_⟩
  cases hs with
  | put hj =>
    have := hi.checked _ _ _ _ _ _ _ hj
    simp only
    rw [look_put, if_neg]
    · exact h
    · rintro rfl; rw [h] at this; cases this
  | _ => exact h

/-- What a call can be at that is made for a key that has an entry: it does not ask the finder, and it does not panic. -/
def Late (k : Str) (v : Val) : Th → Prop
  | .notCalled | .called _ | .rlocked _ => True
  | .read k' v' => k' = k → v' = some v
  | .returned k' r => k' = k → r = strip v
  | .asking k' => k' ≠ k
  | .found k' _ => k' ≠ k
  | .wlocked k' _ => k' ≠ k
  | .adding k' _ _ => k' ≠ k
  | .checked k' .. => k' ≠ k
  | .failing | .panicked => True

theorem late_steps {finder : Bool} {s s' : St} (hi : Inv finder s) (hs : Steps finder s s') {k : Str} {v : Val}
    (h : look k s.entries = some v) {i : Nat} (hl : Late k v (s.th i)) : Late k v (s'.th i) := by
  refine (steps_inv (P := fun s => Inv finder s ∧ look k s.entries = some v ∧ Late k v (s.th i)) ?_ ⟨hi, h, hl⟩ hs).2.2
  clear h hi hl hs s s'
  rintro s s' ⟨hi, h, hl⟩ hs
  refine ⟨hi.step hs, entries_stay hi (.single hs) h, ?_⟩
  have other : ∀ {j : Nat} {x : Th}, (j = i → Late k v x) → Late k v (upd s.th j x i) := by
    intro j x hx
    by_cases e : i = j
    · subst e; rw [upd_same]; exact hx rfl
    · rw [upd_other _ _ e]; exact hl
  cases hs with
  | read hj => refine other fun e => ?_; rintro rfl; exact h
  | hit hj => refine other fun e => ?_; subst e; rw [hj] at hl; intro e; have := hl e; cases this; rfl
  | noFinder hj hf => refine other fun e => ?_; subst e; rw [hj] at hl; intro e; cases hl e
  | miss hj hf => refine other fun e => ?_; subst e; rw [hj] at hl; intro e; cases hl e
  | find a hj => refine other fun e => ?_; subst e; rw [hj] at hl; exact hl
  | lock hj hw hr => refine other fun e => ?_; subst e; rw [hj] at hl; exact hl
  | single hj => refine other fun e => ?_; subst e; rw [hj] at hl; exact hl
  | multiple hj hv => refine other fun e => ?_; subst e; rw [hj] at hl; exact hl
  | check hj => refine other fun e => ?_; subst e; rw [hj] at hl; exact hl
  | put hj => refine other fun e => ?_; subst e; rw [hj] at hl; exact hl
  | same hj he => refine other fun e => ?_; subst e; rw [hj] at hl; exact hl
  | unlock hj => refine other fun e => ?_; subst e; rw [hj] at hl; intro e; exact absurd e hl
  | _ => exact other fun _ => trivial

end Verif.Conc.Loader
