import Verif.Conc.Basic
/-!
# The shared alias map
-/
set_option autoImplicit false
namespace Verif.Conc.Alias

abbrev Name := String

/-- A type, as far as aliases are concerned. -/
inductive T where
  /-- `alias`: a reference to a type by name (internal/alias.go:11-13) -/
  | ref (n : Name)
  /-- `deferredCall` (alias.go:26-29); what `New` returns is given by `Env.newCall` -/
  | call (c : Nat)
  /-- any other type object; `refs` are the names of the aliases that it contains and that `Resolve` replaces in place -/
  | obj (id : Nat) (refs : List Name)
  deriving DecidableEq

/-- `aliasMap.namedTypes`: alias.go:15-18.  `typeNames`, the inverse of this map, is left out. -/
abbrev AMap := List (Name × T)

/-- `New(t.dType, t.args)` for a deferred call; `none`: it panics. -/
structure Env where
  newCall : Nat → Option T

/-- `aliasAdder.GetType`: alias.go:195-200. -/
def adderGet (backing added : AMap) (n : Name) : Option T :=
  match look n added with
  | some t => some t
  | none => look n backing

/-- `aliasAdder.Replace`: alias.go:202-215; `none`: it panics, as it does for a name that is not known. -/
def replace (E : Env) (backing added : AMap) : T → Option T
  | .call c => E.newCall c
  | .ref n => adderGet backing added n
  | .obj id refs => if refs.all fun n => (adderGet backing added n).isSome then some (.obj id refs) else none

/-- `ns.Map(func(e) { return am.Replace(e.Value()) })`: alias.go:164. -/
def resolveAll (E : Env) (backing added : AMap) : AMap → Option AMap
  | [] => some []
  | (n, t) :: r =>
    match replace E backing added t, resolveAll E backing added r with
    | some t', some r' => some ((n, t') :: r')
    | _, _ => none

/-- `rs.EachEntry(func(e) { c.namedTypes.Put(name, t) })`: alias.go:167-172. -/
def putAll : AMap → AMap → AMap
  | m, [] => m
  | m, (n, t) :: r => putAll (put n t m) r

/-- `aliasMap.update`: alias.go:154-176. -/
def update (E : Env) (base backing added : AMap) : Option AMap :=
  match resolveAll E backing added added with
  | some rs => some (putAll base rs)
  | none => none

/-- Where a call of `AddAliases` (alias.go:51-59) is.  `b`: the map that the adder is backed by, `a`: the types that have been
added. -/
inductive Th where
  | notCalled
  /-- the adder function runs: line 53 -/
  | collecting (b a : AMap)
  /-- at line 55, `lock.Lock()` -/
  | waiting (b a : AMap)
  /-- has the lock -/
  | locked (b a : AMap)
  /-- has read `*mapToReplace`: line 57 -/
  | loaded (b a base : AMap)
  /-- `update` has returned `new` -/
  | updated (b a new : AMap)
  /-- has written `*mapToReplace`; the deferred `Unlock` is next -/
  | written (b a : AMap)
  /-- `update` panics; the deferred `Unlock` is next -/
  | failing
  | returned (b a : AMap)
  | panicked

structure St where
  /-- `*mapToReplace` (a read and a write of it are taken to be atomic; the read at line 52 takes no lock) -/
  cur : AMap
  /-- the call that has the lock -/
  lock : Option Nat
  th : Nat → Th

def St.init (m : AMap) : St := { cur := m, lock := none, th := fun _ => .notCalled }

/-- One action of one call of `AddAliases` -/
inductive Step (E : Env) : St → St → Prop where
  | start {s : St} {i : Nat} (h : s.th i = .notCalled) : Step E s { s with th := upd s.th i (.collecting s.cur []) }
  /-- the adder function calls `Add`: alias.go:191-193 -/
  | add {s : St} {i : Nat} {b a : AMap} (n : Name) (t : T) (h : s.th i = .collecting b a) :
      Step E s { s with th := upd s.th i (.collecting b (put n t a)) }
  | nothing {s : St} {i : Nat} {b : AMap} (h : s.th i = .collecting b []) :
      Step E s { s with th := upd s.th i (.returned b []) }
  | adderPanics {s : St} {i : Nat} {b a : AMap} (h : s.th i = .collecting b a) : Step E s { s with th := upd s.th i .panicked }
  | adderReturns {s : St} {i : Nat} {b a : AMap} (h : s.th i = .collecting b a) (ha : a.length > 0) :
      Step E s { s with th := upd s.th i (.waiting b a) }
  | lock {s : St} {i : Nat} {b a : AMap} (h : s.th i = .waiting b a) (hl : s.lock = none) :
      Step E s { s with th := upd s.th i (.locked b a), lock := some i }
  | load {s : St} {i : Nat} {b a : AMap} (h : s.th i = .locked b a) :
      Step E s { s with th := upd s.th i (.loaded b a s.cur) }
  | update {s : St} {i : Nat} {b a base new : AMap} (h : s.th i = .loaded b a base) (hu : update E base b a = some new) :
      Step E s { s with th := upd s.th i (.updated b a new) }
  | updatePanics {s : St} {i : Nat} {b a base : AMap} (h : s.th i = .loaded b a base) (hu : update E base b a = none) :
      Step E s { s with th := upd s.th i .failing }
  | write {s : St} {i : Nat} {b a new : AMap} (h : s.th i = .updated b a new) :
      Step E s { s with th := upd s.th i (.written b a), cur := new }
  | unlock {s : St} {i : Nat} {b a : AMap} (h : s.th i = .written b a) :
      Step E s { s with th := upd s.th i (.returned b a), lock := none }
  | unlockFailing {s : St} {i : Nat} (h : s.th i = .failing) :
      Step E s { s with th := upd s.th i .panicked, lock := none }

abbrev Steps (E : Env) := Relation.ReflTransGen (Step E)

/-! ## Facts -/

/-- The calls that have the lock -/
def Th.holds : Th → Bool
  | .locked .. | .loaded .. | .updated .. | .written .. | .failing => true
  | _ => false

/-- What the name stands for, seen from a call that adds `a` to `b`: an alias is looked up among the added ones first. -/
def Resolved (E : Env) (b a : AMap) : T → T → Prop
  | .obj id refs, r => r = .obj id refs
  | .call c, r => E.newCall c = some r
  | .ref m, r => look m a = some r ∨ (look m a = none ∧ look m b = some r)

/-- The type `r` was added under the name `n` by a call that has published its types. -/
def AddedBy (E : Env) (s : St) (n : Name) (r : T) : Prop :=
  ∃ i b a t, (s.th i = .written b a ∨ s.th i = .returned b a) ∧ look n a = some t ∧ Resolved E b a t r

theorem replace_resolved {E : Env} {b a : AMap} {t r : T} (h : replace E b a t = some r) : Resolved E b a t r := by
  cases t with
  | call c => exact h
  | ref n =>
    simp only [replace, adderGet] at h
    unfold Resolved
    cases hl : look n a with
    | none => rw [hl] at h; exact Or.inr ⟨hl, h⟩
    | some t => rw [hl] at h; exact Or.inl (hl.trans h)
  | obj id refs =>
    simp only [replace] at h
    split at h
    · cases h; exact rfl
    · cases h

theorem resolveAll_look {E : Env} {b a : AMap} (n : Name) : ∀ {m rs : AMap}, resolveAll E b a m = some rs →
    match look n m with
    | none => look n rs = none
    | some t => ∃ r, look n rs = some r ∧ replace E b a t = some r
  | [], rs, h => by cases h; simp [look]
  | (k, t) :: m, rs, h => by
    unfold resolveAll at h
    split at h
    · rename_i t' r' ht hr
      cases h
      have ih := resolveAll_look n hr
      unfold look
      by_cases hk : n = k
      · simp only [hk, if_true]; exact ⟨t', rfl, ht⟩
      · simp only [hk, if_false]; exact ih
    · cases h

/-- The keys differ. -/
def Distinct (m : AMap) : Prop := (m.map (·.1)).Nodup

theorem putAll_look (n : Name) : ∀ (rs m : AMap), Distinct rs → look n (putAll m rs) = (look n rs).or (look n m)
  | [], m, _ => by simp [putAll, look]
  | (k, t) :: rs, m, hd => by
    have hd' : k ∉ rs.map (·.1) ∧ Distinct rs := List.nodup_cons.1 hd
    rw [putAll, putAll_look n rs _ hd'.2, look_put]
    by_cases hk : n = k
    · subst hk
      have : look n rs = none := by
        cases hl : look n rs with
        | none => rfl
        | some r =>
          refine absurd ?_ hd'.1
          have aux : ∀ rs : AMap, look n rs = some r → n ∈ rs.map (·.1) := by
            intro rs
            induction rs with
            | nil => intro h; cases h
            | cons e rs ih =>
              obtain ⟨k, v⟩ := e
              intro h
              unfold look at h
              by_cases hk : n = k
              · simp [hk]
              · rw [if_neg hk] at h; simp only [List.map_cons, List.mem_cons]; exact Or.inr (ih h)
          exact aux rs hl
      rw [this]
      simp [look]
    · rw [if_neg hk]
      simp [look, hk]

theorem put_keys (n : Name) (t : T) : ∀ m : AMap, (put n t m).map (·.1) = if n ∈ m.map (·.1) then m.map (·.1) else m.map (·.1) ++ [n]
  | [] => by simp [put]
  | (k, v) :: m => by
    unfold put
    by_cases hk : n = k
    · simp [hk]
    · rw [if_neg hk, List.map_cons, put_keys n t m]
      simp only [List.map_cons, List.mem_cons, hk, false_or]
      split <;> simp

theorem put_distinct (n : Name) (t : T) {m : AMap} (h : Distinct m) : Distinct (put n t m) := by
  unfold Distinct at h ⊢
  rw [put_keys]
  split
  · exact h
  · rename_i hn
    rw [List.nodup_append]
    refine ⟨h, by simp, ?_⟩
    intro a ha b hb
    simp only [List.mem_singleton] at hb
    rintro rfl
    subst hb
    exact hn ha

theorem resolveAll_keys {E : Env} {b a : AMap} : ∀ {m rs : AMap}, resolveAll E b a m = some rs → rs.map (·.1) = m.map (·.1)
  | [], rs, h => by cases h; rfl
  | (k, t) :: m, rs, h => by
    unfold resolveAll at h
    split at h
    · rename_i t' r' ht hr
      cases h
      simp [resolveAll_keys hr]
    · cases h

theorem update_look {E : Env} {base b a new : AMap} (hd : Distinct a) (h : update E base b a = some new) (n : Name) :
    match look n a with
    | none => look n new = look n base
    | some t => ∃ r, look n new = some r ∧ replace E b a t = some r := by
  unfold update at h
  split at h
  · rename_i rs hr
    cases h
    have hk := resolveAll_keys hr
    have hd' : Distinct rs := by unfold Distinct; rw [hk]; exact hd
    have hl := resolveAll_look n hr
    rw [putAll_look n rs base hd']
    cases ha : look n a with
    | none => rw [ha] at hl; simp only at hl; simp [hl]
    | some t =>
      rw [ha] at hl
      obtain ⟨r, h1, h2⟩ := hl
      exact ⟨r, by simp [h1], h2⟩
  · cases h

/-- What holds of all reachable states -/
structure Inv (E : Env) (m0 : AMap) (s : St) : Prop where
  /-- only one call has the lock -/
  lock : ∀ i, (s.th i).holds = true ↔ s.lock = some i
  loaded : ∀ i b a base, s.th i = .loaded b a base → base = s.cur
  updated : ∀ i b a new, s.th i = .updated b a new → update E s.cur b a = some new
  distinct : ∀ i b a, (s.th i = .collecting b a ∨ s.th i = .waiting b a ∨ s.th i = .locked b a ∨
    (∃ base, s.th i = .loaded b a base) ∨ (∃ new, s.th i = .updated b a new)) → Distinct a
  /-- what has been published is there -/
  kept : ∀ i b a n t, (s.th i = .written b a ∨ s.th i = .returned b a) → look n a = some t →
    ∃ r, look n s.cur = some r ∧ AddedBy E s n r
  /-- what is there has been published -/
  origin : ∀ n r, look n s.cur = some r → look n m0 = some r ∨ AddedBy E s n r
  /-- names do not disappear -/
  base : ∀ n, (look n m0).isSome = true → (look n s.cur).isSome = true

theorem Inv.init (E : Env) (m : AMap) : Inv E m (St.init m) := by
  refine ⟨?_, ?_, ?_, ?_, ?_, ?_, ?_⟩ <;> simp_all [St.init, Th.holds]

/-- A step that leaves the map alone and publishes nothing -/
theorem AddedBy.mono {E : Env} {s s' : St} {n : Name} {r : T} (h : AddedBy E s n r)
    (hp : ∀ i b a, (s.th i = .written b a ∨ s.th i = .returned b a) → (s'.th i = .written b a ∨ s'.th i = .returned b a)) :
    AddedBy E s' n r := by
  obtain ⟨i, b, a, t, h1, h2, h3⟩ := h
  exact ⟨i, b, a, t, hp i b a h1, h2, h3⟩

/-- Steps of call `i` that change neither the map nor the published types -/
theorem Inv.quiet {E : Env} {m0 : AMap} {s : St} (h : Inv E m0 s) {i : Nat} {x : Th} {lk : Option Nat}
    (hlock : ∀ j, (upd s.th i x j).holds = true ↔ lk = some j)
    (hl : ∀ b a base, x = .loaded b a base → base = s.cur)
    (hu : ∀ b a new, x = .updated b a new → update E s.cur b a = some new)
    (hd : ∀ b a, (x = .collecting b a ∨ x = .waiting b a ∨ x = .locked b a ∨ (∃ base, x = .loaded b a base) ∨
      (∃ new, x = .updated b a new)) → Distinct a)
    (hp : ∀ b a, (s.th i = .written b a ∨ s.th i = .returned b a) → (x = .written b a ∨ x = .returned b a))
    (hp' : ∀ b a, (x = .written b a ∨ x = .returned b a) → (s.th i = .written b a ∨ s.th i = .returned b a) ∨ a = []) :
    Inv E m0 { cur := s.cur, lock := lk, th := upd s.th i x } := by
  have mono : ∀ n r, AddedBy E s n r → AddedBy E { cur := s.cur, lock := lk, th := upd s.th i x } n r := by
    intro n r hb
    refine hb.mono fun j b a hj => ?_
    by_cases e : j = i
    · subst e; simp only [upd_same]; exact hp b a hj
    · simp only [upd_other _ _ e]; exact hj
  refine ⟨hlock, ?_, ?_, ?_, ?_, ?_, h.base⟩
  · intro j b a base hj
    by_cases e : j = i
    · subst e; simp only [upd_same] at hj; exact hl b a base hj
    · simp only [upd_other _ _ e] at hj; exact h.loaded j b a base hj
  · intro j b a new hj
    by_cases e : j = i
    · subst e; simp only [upd_same] at hj; exact hu b a new hj
    · simp only [upd_other _ _ e] at hj; exact h.updated j b a new hj
  · intro j b a hj
    by_cases e : j = i
    · subst e; simp only [upd_same] at hj; exact hd b a hj
    · simp only [upd_other _ _ e] at hj; exact h.distinct j b a hj
  · intro j b a n t hj ht
    by_cases e : j = i
    · subst e
      simp only [upd_same] at hj
      rcases hp' b a hj with hj' | rfl
      · obtain ⟨r, h1, h2⟩ := h.kept j b a n t hj' ht
        exact ⟨r, h1, mono n r h2⟩
      · cases ht
    · simp only [upd_other _ _ e] at hj
      obtain ⟨r, h1, h2⟩ := h.kept j b a n t hj ht
      exact ⟨r, h1, mono n r h2⟩
  · intro n r hr
    exact (h.origin n r hr).imp_right (mono n r)

theorem Inv.lock_same {E : Env} {m0 : AMap} {s : St} (h : Inv E m0 s) {i : Nat} {x : Th} (hx : x.holds = (s.th i).holds) (j : Nat) :
    (upd s.th i x j).holds = true ↔ s.lock = some j := by
  by_cases e : j = i
  · subst e; rw [upd_same, hx]; exact h.lock j
  · rw [upd_other _ _ e]; exact h.lock j

theorem Inv.lock_drop {E : Env} {m0 : AMap} {s : St} (h : Inv E m0 s) {i : Nat} {x : Th} (hi : (s.th i).holds = true)
    (hx : x.holds = false) (j : Nat) : (upd s.th i x j).holds = true ↔ (none : Option Nat) = some j := by
  by_cases e : j = i
  · subst e; rw [upd_same, hx]; simp
  · rw [upd_other _ _ e, h.lock j, (h.lock i).1 hi]; simp [Ne.symm e]

theorem Inv.step {E : Env} {m0 : AMap} {s s' : St} (h : Inv E m0 s) (hs : Step E s s') : Inv E m0 s' := by
  cases hs with
  | @start i hi =>
    refine h.quiet (h.lock_same (by rw [hi]; rfl)) ?_ ?_ ?_ ?_ ?_ <;> simp_all [Distinct]
  | @add i b a n t hi =>
    refine h.quiet (h.lock_same (by rw [hi]; rfl)) ?_ ?_ ?_ ?_ ?_ <;> simp_all
    exact put_distinct n t (h.distinct i b a (Or.inl hi))
  | @nothing i b hi =>
    refine h.quiet (h.lock_same (by rw [hi]; rfl)) ?_ ?_ ?_ ?_ ?_ <;> simp_all
  | @adderPanics i b a hi =>
    refine h.quiet (h.lock_same (by rw [hi]; rfl)) ?_ ?_ ?_ ?_ ?_ <;> simp_all
  | @adderReturns i b a hi ha =>
    refine h.quiet (h.lock_same (by rw [hi]; rfl)) ?_ ?_ ?_ ?_ ?_ <;> simp_all
    exact h.distinct i b a (Or.inl hi)
  | @lock i b a hi hl =>
    refine h.quiet ?_ ?_ ?_ ?_ ?_ ?_ <;> simp_all
    · intro j
      by_cases e : j = i
      · subst e; simp [Th.holds]
      · rw [upd_other _ _ e, h.lock j, hl]; simp [Ne.symm e]
    · exact h.distinct i b a (Or.inr (Or.inl hi))
  | @load i b a hi =>
    refine h.quiet (h.lock_same (by rw [hi]; rfl)) ?_ ?_ ?_ ?_ ?_ <;> simp_all
    exact h.distinct i b a (Or.inr (Or.inr (Or.inl hi)))
  | @update i b a base new hi hu =>
    refine h.quiet (h.lock_same (by rw [hi]; rfl)) ?_ ?_ ?_ ?_ ?_ <;> simp_all
    · rw [← h.loaded i b a base hi]; exact hu
    · exact h.distinct i b a (by simp [hi])
  | @updatePanics i b a base hi hu =>
    refine h.quiet (h.lock_same (by rw [hi]; rfl)) ?_ ?_ ?_ ?_ ?_ <;> simp_all
  | @unlock i b a hi =>
    refine h.quiet (h.lock_drop (by rw [hi]; rfl) rfl) ?_ ?_ ?_ ?_ ?_ <;> simp_all
  | @unlockFailing i hi =>
    refine h.quiet (h.lock_drop (by rw [hi]; rfl) rfl) ?_ ?_ ?_ ?_ ?_ <;> simp_all
  | @write i b a new hi =>
    have hu := h.updated i b a new hi
    have hd := h.distinct i b a (by simp [hi])
    have hup := update_look hd hu
    have hlk : s.lock = some i := (h.lock i).1 (by rw [hi]; rfl)
    have others : ∀ j, j ≠ i → (s.th j).holds = false := by
      intro j e
      cases hj : (s.th j).holds with
      | false => rfl
      | true => rw [h.lock j, hlk] at hj; simp [Ne.symm e] at hj
    have mono : ∀ n r, AddedBy E s n r → AddedBy E { s with th := upd s.th i (.written b a), cur := new } n r := by
      intro n r hb
      refine hb.mono fun j b' a' hj => ?_
      by_cases e : j = i
      · subst e; simp [hi] at hj
      · simp only [upd_other _ _ e]; exact hj
    have new' : ∀ n t, look n a = some t → ∃ r, look n new = some r ∧
        AddedBy E { s with th := upd s.th i (.written b a), cur := new } n r := by
      intro n t ht
      have := hup n
      rw [ht] at this
      obtain ⟨r, h1, h2⟩ := this
      exact ⟨r, h1, i, b, a, t, by simp, ht, replace_resolved h2⟩
    refine ⟨h.lock_same (by rw [hi]; rfl), ?_, ?_, ?_, ?_, ?_, ?_⟩
    · intro j b' a' base hj
      by_cases e : j = i
      · subst e; simp at hj
      · have := others j e
        simp only [upd_other _ _ e] at hj
        rw [hj] at this; cases this
    · intro j b' a' new' hj
      by_cases e : j = i
      · subst e; simp at hj
      · have := others j e
        simp only [upd_other _ _ e] at hj
        rw [hj] at this; cases this
    · intro j b' a' hj
      by_cases e : j = i
      · subst e; simp at hj
      · simp only [upd_other _ _ e] at hj; exact h.distinct j b' a' hj
    · intro j b' a' n t hj ht
      by_cases e : j = i
      · subst e
        simp only [upd_same, Th.written.injEq, reduceCtorEq, or_false] at hj
        obtain ⟨rfl, rfl⟩ := hj
        exact new' n t ht
      · simp only [upd_other _ _ e] at hj
        obtain ⟨r, h1, h2⟩ := h.kept j b' a' n t hj ht
        cases hna : look n a with
        | some t' => exact new' n t' hna
        | none =>
          have := hup n
          rw [hna] at this
          simp only at this
          exact ⟨r, by simp only [this]; exact h1, mono n r h2⟩
    · intro n r hr
      cases hna : look n a with
      | some t' =>
        obtain ⟨r', h1, h2⟩ := new' n t' hna
        simp only at hr
        rw [h1] at hr; cases hr
        exact Or.inr h2
      | none =>
        have := hup n
        rw [hna] at this
        simp only at this hr
        rw [this] at hr
        exact (h.origin n r hr).imp_right (mono n r)
    · intro n hn
      have hb := h.base n hn
      have := hup n
      cases hna : look n a with
      | some t' => rw [hna] at this; obtain ⟨r, h1, _⟩ := this; simp [h1]
      | none => rw [hna] at this; simp only at this ⊢; rw [this]; exact hb

theorem Inv.steps {E : Env} {m0 : AMap} {s s' : St} (h : Inv E m0 s) (hs : Steps E s s') : Inv E m0 s' :=
  steps_inv (P := Inv E m0) (fun _ _ => Inv.step) h hs

theorem published_stays {E : Env} {s s' : St} (hs : Step E s s') {i : Nat} {b a : AMap} (h : s.th i = .written b a ∨ s.th i = .returned b a) :
    s'.th i = .written b a ∨ s'.th i = .returned b a := by
  have key : ∀ (j : Nat) (x : Th), s'.th = upd s.th j x →
      ((s.th j = .written b a ∨ s.th j = .returned b a) → (x = .written b a ∨ x = .returned b a)) →
      s'.th i = .written b a ∨ s'.th i = .returned b a := by
    intro j x hx hj
    rw [hx]
    by_cases e : i = j
    · subst e; rw [upd_same]; exact hj h
    · rw [upd_other _ _ e]; exact h
  cases hs <;> refine key _ _ rfl ?_ <;> simp_all

/-- The map that a call is backed by -/
def Th.backing : Th → Option AMap
  | .collecting b _ | .waiting b _ | .locked b _ | .loaded b _ _ | .updated b _ _ | .written b _ | .returned b _ => some b
  | _ => none

theorem backing_step {E : Env} {s s' : St} (hs : Step E s s') {i : Nat} {b : AMap} (h : (s'.th i).backing = some b) :
    (s.th i).backing = some b ∨ b = s.cur := by
  have key : ∀ (j : Nat) (x : Th), s'.th = upd s.th j x → (x.backing = some b → (s.th j).backing = some b ∨ b = s.cur) →
      (s.th i).backing = some b ∨ b = s.cur := by
    intro j x hx hj
    rw [hx] at h
    by_cases e : i = j
    · subst e; rw [upd_same] at h; exact hj h
    · rw [upd_other _ _ e] at h; exact Or.inl h
  cases hs <;> refine key _ _ rfl ?_ <;> simp_all [Th.backing]

end Verif.Conc.Alias
