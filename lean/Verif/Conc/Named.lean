import Verif.Conc.Basic
/-!
# The registry of named types
-/
set_option autoImplicit false
namespace Verif.Conc.Named

abbrev Name := String

/-- A call, by number; a type object is known by its identity. -/
inductive Call where
  /-- `NewNamedType(name, ...)`, which makes the type object `id`: internal/named.go:62-76 -/
  | register (n : Name) (id : Nat)
  /-- `NamedType(name)`: named.go:87-92 -/
  | lookup (n : Name)

inductive Th where
  | notCalled
  /-- has been called; the operation on the `sync.Map` is next -/
  | called (c : Call)
  /-- `LoadOrStore` has answered: line 69-70 -/
  | answered (n : Name) (id : Nat) (loaded : Bool) (t : Nat)
  /-- `Load` has answered: line 88 -/
  | found (n : Name) (t : Option Nat)
  /-- `NewNamedType` returned the type `t` -/
  | registered (n : Name) (id t : Nat)
  /-- `NewNamedType` panicked: line 71-73 -/
  | refused (n : Name) (id : Nat)
  /-- `NamedType` returned -/
  | looked (n : Name) (t : Option Nat)

/-- `namedTypes` is a `sync.Map`, whose operations are atomic.  `RemoveNamedType`, which is meant for tests, is left out. -/
structure St where
  types : List (Name × Nat)
  th : Nat → Th

def St.init (m : List (Name × Nat)) : St := { types := m, th := fun _ => .notCalled }

inductive Step : St → St → Prop where
  | call {s : St} {i : Nat} (c : Call) (h : s.th i = .notCalled) : Step s { s with th := upd s.th i (.called c) }
  /-- `LoadOrStore`: there is a type already -/
  | load {s : St} {i : Nat} {n : Name} {id t : Nat} (h : s.th i = .called (.register n id)) (hl : look n s.types = some t) :
      Step s { s with th := upd s.th i (.answered n id true t) }
  /-- `LoadOrStore`: there is none -/
  | store {s : St} {i : Nat} {n : Name} {id : Nat} (h : s.th i = .called (.register n id)) (hl : look n s.types = none) :
      Step s { types := put n id s.types, th := upd s.th i (.answered n id false id) }
  | get {s : St} {i : Nat} {n : Name} (h : s.th i = .called (.lookup n)) :
      Step s { s with th := upd s.th i (.found n (look n s.types)) }
  | panics {s : St} {i : Nat} {n : Name} {id t : Nat} (h : s.th i = .answered n id true t) :
      Step s { s with th := upd s.th i (.refused n id) }
  | returns {s : St} {i : Nat} {n : Name} {id t : Nat} (h : s.th i = .answered n id false t) :
      Step s { s with th := upd s.th i (.registered n id t) }
  | returnsLookup {s : St} {i : Nat} {n : Name} {t : Option Nat} (h : s.th i = .found n t) :
      Step s { s with th := upd s.th i (.looked n t) }

abbrev Steps := Relation.ReflTransGen Step

/-- Call `i` has stored its type. -/
def Won (s : St) (i : Nat) (n : Name) (id : Nat) : Prop :=
  ∃ t, s.th i = .answered n id false t ∨ s.th i = .registered n id t

structure Inv (m0 : List (Name × Nat)) (s : St) : Prop where
  /-- the types are those of the calls that won -/
  origin : ∀ n t, look n s.types = some t → look n m0 = some t ∨ ∃ i, Won s i n t
  won : ∀ i n id, Won s i n id → look n s.types = some id ∧ look n m0 = none
  unique : ∀ i j n id id', Won s i n id → Won s j n id' → i = j
  own : ∀ i n id t, (s.th i = .answered n id false t ∨ s.th i = .registered n id t) → t = id
  lost : ∀ i n id, (∃ t, s.th i = .answered n id true t) ∨ s.th i = .refused n id → (look n s.types).isSome = true
  keep : ∀ n t, look n m0 = some t → look n s.types = some t

theorem Inv.init (m : List (Name × Nat)) : Inv m (St.init m) := by
  refine ⟨?_, ?_, ?_, ?_, ?_, ?_⟩ <;> simp_all [St.init, Won]

theorem won_upd {s : St} {i j : Nat} {n : Name} {id : Nat} {x : Th} {m : List (Name × Nat)} :
    Won { types := m, th := upd s.th i x } j n id ↔
      if j = i then ∃ t, x = .answered n id false t ∨ x = .registered n id t else Won s j n id := by
  unfold Won
  by_cases e : j = i
  · subst e; simp
  · simp [upd_other _ _ e, e]

/-- Steps that leave the registry alone -/
theorem Inv.quiet {m0 : List (Name × Nat)} {s : St} (h : Inv m0 s) {i : Nat} {x : Th}
    (hw : ∀ n id, Won s i n id ↔ ∃ t, x = .answered n id false t ∨ x = .registered n id t)
    (ho : ∀ n id t, (x = .answered n id false t ∨ x = .registered n id t) → t = id)
    (hl : ∀ n id, (∃ t, x = .answered n id true t) ∨ x = .refused n id → (look n s.types).isSome = true) :
    Inv m0 { s with th := upd s.th i x } := by
  have e : ∀ j n id, Won { s with th := upd s.th i x } j n id ↔ Won s j n id := by
    intro j n id
    rw [won_upd]
    split
    · rename_i hj; subst hj; exact (hw n id).symm
    · exact Iff.rfl
  refine ⟨?_, ?_, ?_, ?_, ?_, h.keep⟩
  · intro n t ht; simp only [e]; exact h.origin n t ht
  · intro j n id; rw [e]; exact h.won j n id
  · intro j k n id id'; rw [e, e]; exact h.unique j k n id id'
  · intro j n id t hj
    by_cases ej : j = i
    · subst ej; simp only [upd_same] at hj; exact ho n id t hj
    · simp only [upd_other _ _ ej] at hj; exact h.own j n id t hj
  · intro j n id hj
    by_cases ej : j = i
    · subst ej; simp only [upd_same] at hj; exact hl n id hj
    · simp only [upd_other _ _ ej] at hj; exact h.lost j n id hj

theorem Inv.step {m0 : List (Name × Nat)} {s s' : St} (h : Inv m0 s) (hs : Step s s') : Inv m0 s' := by
  cases hs with
  | @call i c hi => apply h.quiet <;> simp [Won, hi]
  | @load i n id t hi hl =>
    apply h.quiet <;> simp [Won, hi]
    simp [hl]
  | @get i n hi => apply h.quiet <;> simp [Won, hi]
  | @panics i n id t hi =>
    apply h.quiet <;> simp [Won, hi]
    exact h.lost i n id (Or.inl ⟨t, hi⟩)
  | @returns i n id t hi =>
    apply h.quiet <;> simp [Won, hi]
    exact h.own i n id t (Or.inl hi)
  | @returnsLookup i n t hi => apply h.quiet <;> simp [Won, hi]
  | @store i n id hi hl =>
    have nowin : ∀ id', ¬ Won s i n id' := by simp [Won, hi]
    refine ⟨?_, ?_, ?_, ?_, ?_, ?_⟩
    · intro n' t ht
      rw [look_put] at ht
      split at ht
      · rename_i e; subst e; cases ht
        exact Or.inr ⟨i, by rw [won_upd]; simp⟩
      · rcases h.origin n' t ht with h' | ⟨j, hj⟩
        · exact Or.inl h'
        · refine Or.inr ⟨j, ?_⟩
          rw [won_upd, if_neg]
          · exact hj
          · rintro rfl; simp [Won, hi] at hj
    · intro j n' id' hj
      rw [won_upd] at hj
      rw [look_put]
      split at hj
      · obtain ⟨t, ht⟩ := hj
        simp only [Th.answered.injEq, true_and, reduceCtorEq, or_false] at ht
        obtain ⟨rfl, rfl, _⟩ := ht
        refine ⟨by simp, ?_⟩
        cases hm : look n m0 with
        | none => rfl
        | some t => rw [h.keep n t hm] at hl; cases hl
      · obtain ⟨h1, h2⟩ := h.won j n' id' hj
        refine ⟨?_, h2⟩
        rw [if_neg]
        · exact h1
        · rintro rfl; rw [hl] at h1; cases h1
    · intro j k n' id1 id2 hj hk
      rw [won_upd] at hj hk
      split at hj <;> split at hk
      · rename_i a b; rw [a, b]
      · obtain ⟨t, ht⟩ := hj
        simp only [Th.answered.injEq, true_and, reduceCtorEq, or_false] at ht
        obtain ⟨rfl, rfl, _⟩ := ht
        have := (h.won k n id2 hk).1
        rw [hl] at this; cases this
      · obtain ⟨t, ht⟩ := hk
        simp only [Th.answered.injEq, true_and, reduceCtorEq, or_false] at ht
        obtain ⟨rfl, rfl, _⟩ := ht
        have := (h.won j n id1 hj).1
        rw [hl] at this; cases this
      · exact h.unique j k n' id1 id2 hj hk
    · intro j n' id' t hj
      by_cases ej : j = i
      · subst ej
        simp only [upd_same, Th.answered.injEq, true_and, reduceCtorEq, or_false] at hj
        rw [← hj.2.2, ← hj.2.1]
      · simp only [upd_other _ _ ej] at hj; exact h.own j n' id' t hj
    · intro j n' id' hj
      by_cases ej : j = i
      · subst ej
        simp at hj
      · simp only [upd_other _ _ ej] at hj
        rw [look_put]
        split
        · rfl
        · exact h.lost j n' id' hj
    · intro n' t ht
      have := h.keep n' t ht
      rw [look_put, if_neg]
      · exact this
      · rintro rfl; rw [hl] at this; cases this

theorem Inv.steps {m0 : List (Name × Nat)} {s s' : St} (h : Inv m0 s) (hs : Steps s s') : Inv m0 s' :=
  steps_inv (P := Inv m0) (fun _ _ => Inv.step) h hs

/-- What is registered stays. -/
theorem types_stay {s s' : St} (hs : Steps s s') {n : Name} {t : Nat} (h : look n s.types = some t) : look n s'.types = some t := by
  refine steps_inv (P := fun s => look n s.types = some t) ?_ h hs
  intro s s' h hs
  cases hs with
  | store hi hl =>
    simp only
    rw [look_put, if_neg]
    · exact h
    · rintro rfl; rw [hl] at h; cases h
  | _ => exact h

/-- A call that has not been made when the type `t` is registered only finds `t`. -/
def Late (n : Name) (t : Nat) : Th → Prop
  | .found n' t' => n' = n → t' = some t
  | .looked n' t' => n' = n → t' = some t
  | .answered n' _ loaded t' => n' = n → loaded = true ∧ t' = t
  | .registered n' _ _ => n' ≠ n
  | _ => True

theorem late_steps {s s' : St} (hs : Steps s s') {n : Name} {t : Nat} (h : look n s.types = some t) {i : Nat}
    (hi : Late n t (s.th i)) : Late n t (s'.th i) := by
  refine (steps_inv (P := fun s => look n s.types = some t ∧ Late n t (s.th i)) ?_ ⟨h, hi⟩ hs).2
  clear h hi hs s s'
  rintro s s' ⟨h, hi⟩ hs
  refine ⟨types_stay (.single hs) h, ?_⟩
  have other : ∀ {j : Nat} {x : Th}, (j = i → Late n t x) → Late n t (upd s.th j x i) := by
    intro j x hx
    by_cases e : i = j
    · subst e; rw [upd_same]; exact hx rfl
    · rw [upd_other _ _ e]; exact hi
  cases hs with
  | call c hj => exact other fun e => trivial
  | load hj hl =>
    refine other fun e => ?_
    rintro rfl
    rw [hl] at h; cases h
    exact ⟨rfl, rfl⟩
  | store hj hl =>
    refine other fun e => ?_
    rintro rfl
    rw [hl] at h; cases h
  | get hj => exact other fun e => by rintro rfl; exact h
  | panics hj => exact other fun e => trivial
  | returns hj =>
    refine other fun e => ?_
    subst e
    rw [hj] at hi
    rintro rfl
    exact absurd (hi rfl).1 (by simp)
  | returnsLookup hj =>
    refine other fun e => ?_
    subst e
    rw [hj] at hi
    exact hi

end Verif.Conc.Named
