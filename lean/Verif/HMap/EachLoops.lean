import Verif.HMap.EachSpec
import Verif.HMap.SpecFacts
/-! Lemmas for C108: what loops of the specification see. -/
set_option autoImplicit false
set_option linter.unusedSectionVars false
set_option linter.unusedSimpArgs false
set_option linter.unusedVariables false
namespace Verif.HMap.Spec
open Verif.HMap

variable {K V S : Type} [KeyOps K] [ValOps V]

theorem Acts.inv {m : MRef} {I : AWorld K V → Cursor K V → Int → Prop} {Q : Op K V → Prop}
    (hstep : ∀ {st c r op c' r'}, I st c r → Q op → Moves m st c r op c' r' → I (step st op).2 c' r')
    {P : Prog K V S} {st c r x st' c' r'} (h : Acts m P st c r x st' c' r') (hq : P.Calls Q) (hi : I st c r) : I st' c' r' := by
  induction h with
  | ret => exact hi
  | call h1 _ ih => exact ih (hq.2 _) (hstep hi hq.1 h1)

theorem Acts.goes {m : MRef} {P : Prog K V S} {st c r x st' c' r'} (h : Acts m P st c r x st' c' r') (hg : P.Goes) : x.2 = true := by
  induction h with
  | ret => exact hg
  | call _ _ ih => exact ih (hg _)

theorem Acts.of_map {T : Type} {f : S → T} {m : MRef} {P : Prog K V S} {st c r x st' c' r'} (h : Acts m (P.map f) st c r x st' c' r') :
    ∃ y, Acts m P st c r y st' c' r' ∧ x = (f y.1, y.2) := by
  induction P generalizing st c r with
  | ret s go => cases h; exact ⟨_, .ret, rfl⟩
  | call op cont ih =>
    cases h with
    | call h1 h2 =>
      obtain ⟨y, h3, h4⟩ := ih _ h2
      exact ⟨y, .call h1 h3, h4⟩

/-! ### States -/

theorem step_panic {st : AWorld K V} {op : Op K V} (h : (step st op).1 = .panic) : (step st op).2 = st := by
  cases op <;> simp only [step, mk, mutate] at h ⊢
  all_goals first
    | cases h; done
    | (repeat' split at h) <;> simp_all

theorem step_other {st : AWorld K V} {op : Op K V} {m : MRef} {x : AMap K V} (h : op.target ≠ some m) (hx : st[m]? = some x) :
    ∃ y, (step st op).2[m]? = some y ∧ y.es = x.es := by
  have app : ∀ {a : AMap K V}, (st ++ [a])[m]? = some x := by
    intro a
    rw [List.getElem?_append_left (List.getElem?_eq_some_iff.1 hx).1, hx]
  have set : ∀ {i : Nat} {a : AMap K V}, i ≠ m → (st.set i a)[m]? = some x := by
    intro i a hne
    rw [List.getElem?_set_ne hne, hx]
  have same : ∀ {s' : AWorld K V}, s'[m]? = some x → ∃ y, s'[m]? = some y ∧ y.es = x.es := fun e => ⟨x, e, rfl⟩
  cases op <;> simp only [step, mk, mutate, Op.target, ne_eq, Option.some.injEq] at h ⊢
  case freeze i =>
    by_cases e : i = m
    · subst e
      simp only [hx]
      exact ⟨{ x with frozen := true }, by rw [List.getElem?_set_self (List.getElem?_eq_some_iff.1 hx).1], rfl⟩
    · split
      · exact same (set e)
      · exact same hx
  all_goals (repeat' split)
  all_goals first
    | exact same hx
    | exact same app
    | exact same (set h)

theorem set_at {st : AWorld K V} {m : MRef} {x y : AMap K V} (h : st[m]? = some x) : (st.set m y)[m]? = some y := by
  rw [List.getElem?_set_self (List.getElem?_eq_some_iff.1 h).1]

theorem DistinctKeys.erase {es : List (K × V)} (h : DistinctKeys es) (k : K) : DistinctKeys (erase es k) := List.Pairwise.filter _ h

theorem DistinctKeys.setv {es : List (K × V)} (h : DistinctKeys es) (k : K) (v : V) :
    DistinctKeys (es.map fun e => if KeyOps.eq k e.1 then (e.1, v) else e) := by
  unfold DistinctKeys
  rw [List.pairwise_map]
  refine List.Pairwise.imp ?_ h
  intro a b h
  split <;> split <;> exact h

theorem insert_some {es : List (K × V)} {k : K} {v : V} (h : (lookup k es).isSome = true) :
    insert es k v = es.map fun e => if KeyOps.eq k e.1 then (e.1, v) else e := by rw [Spec.insert, if_pos h]

/-! ### Only the entry that the loop is at is removed -/

theorem Moves.cur [LawfulKey K] {m : MRef} {k : K} {rest : List (K × V)} (hd : ∀ e ∈ rest, KeyOps.eq k e.1 = false)
    {st : AWorld K V} {c r op c' r'} (hi : c.gone = [] ∧ c.rest = rest ∧ (c.cur = some k ∨ c.cur = none)) (hq : OnlyRemoves m k op)
    (h : Moves m st c r op c' r') : c'.gone = [] ∧ c'.rest = rest ∧ (c'.cur = some k ∨ c'.cur = none) := by
  obtain ⟨cu, go, re⟩ := c
  simp only at hi
  obtain ⟨rfl, rfl, hc⟩ := hi
  cases h with
  | other | refused | nothing => exact ⟨rfl, rfl, hc⟩
  | removed =>
    cases hq rfl
    rcases hc with rfl | rfl
    · simp [Cursor.remove, LawfulKey.refl]
    · cases re with
      | nil => simp [Cursor.remove]
      | cons e re =>
        simp only [List.forall_mem_cons] at hd
        simp [Cursor.remove, hd.1, erase_miss hd.2]
  | _ => cases hq rfl

theorem Loops.onlyRemoves [LawfulKey K] {m : MRef} {actor : S → K → V → Prog K V S} (ha : ∀ s k v, (actor s k v).Calls (OnlyRemoves m k))
    (hg : ∀ s k v, (actor s k v).Goes) {n s st c r x st'} (h : Loops m actor n s st c r x st') (hc : c.gone = []) (hd : DistinctKeys c.rest) :
    x.seen = c.rest.take n ∧ x.more = decide (n < c.rest.length) := by
  induction h with
  | @pause s st c r =>
    obtain ⟨cu, go, re⟩ := c
    simp only at hc; subst hc
    cases re <;> simp [Cursor.next]
  | @ended n s st c r hn =>
    obtain ⟨cu, go, re⟩ := c
    simp only at hc; subst hc
    cases re <;> simp [Cursor.next] at hn ⊢
  | @more n s st c r e c1 s1 st1 c2 r2 x st' hn hacts hl ih =>
    obtain ⟨cu, go, re⟩ := c
    simp only at hc hd; subst hc
    cases re with
    | nil => simp [Cursor.next] at hn
    | cons e' re =>
      simp only [Cursor.next, Option.some.injEq, Prod.mk.injEq] at hn
      obtain ⟨rfl, rfl⟩ := hn
      obtain ⟨h1, h2⟩ := List.pairwise_cons.1 hd
      obtain ⟨i1, i2, _⟩ := Acts.inv (I := fun _ c _ => c.gone = [] ∧ c.rest = re ∧ (c.cur = some e'.1 ∨ c.cur = none))
        (fun hi hq hm => Moves.cur h1 hi hq hm) hacts (ha s e'.1 e'.2) ⟨rfl, rfl, .inl rfl⟩
      obtain ⟨j1, j2⟩ := ih i1 (by rw [i2]; exact h2)
      rw [i2] at j1 j2
      refine ⟨by rw [j1]; rfl, by rw [j2]; simp⟩
  | left hn hacts =>
    have := hacts.goes (hg _ _ _)
    cases this

/-! ### Nothing is removed -/

/-- The keys that will be visited. -/
def Cursor.keys (c : Cursor K V) : List K := (c.gone ++ c.rest).map (·.1)

theorem Moves.keys {m : MRef} {st : AWorld K V} {c r op c' r'} (hq : RemovesNot m op) (h : Moves m st c r op c' r') :
    ∃ l, Cursor.keys c' = Cursor.keys c ++ l := by
  have same : ∃ l, Cursor.keys c = Cursor.keys c ++ l := ⟨[], by simp⟩
  cases h with
  | other | refused | nothing => exact same
  | replaced =>
    refine ⟨[], ?_⟩
    simp only [Cursor.keys, Cursor.set, List.map_append, List.map_map, List.append_nil, List.append_cancel_left_eq]
    refine List.map_congr_left fun e _ => ?_
    simp only [Function.comp]
    split <;> rfl
  | @added k =>
    rw [Cursor.add]
    split
    · exact same
    · exact ⟨[KeyOps.freeze k], by simp only [Cursor.keys, List.map_append, List.append_assoc, List.map_cons, List.map_nil]⟩
  | grown | all => exact ⟨[], by simp [Cursor.keys, Cursor.grow]⟩
  | removed | removedAll => exact absurd rfl hq

theorem Cursor.keys_next {c c1 : Cursor K V} {e : K × V} (h : c.next = some (e, c1)) : Cursor.keys c = e.1 :: Cursor.keys c1 := by
  obtain ⟨cu, go, re⟩ := c
  cases go with
  | cons e' go => simp only [Cursor.next, Option.some.injEq, Prod.mk.injEq] at h; obtain ⟨rfl, rfl⟩ := h; rfl
  | nil =>
    cases re with
    | nil => simp [Cursor.next] at h
    | cons e' re => simp only [Cursor.next, Option.some.injEq, Prod.mk.injEq] at h; obtain ⟨rfl, rfl⟩ := h; rfl

theorem Cursor.keys_none {c : Cursor K V} (h : c.next = none) : Cursor.keys c = [] := by
  obtain ⟨cu, go, re⟩ := c
  cases go <;> cases re <;> simp [Cursor.next] at h ⊢ <;> rfl

theorem Loops.keys {m : MRef} {actor : S → K → V → Prog K V S} (ha : ∀ s k v, (actor s k v).Calls (RemovesNot m))
    (hg : ∀ s k v, (actor s k v).Goes) {n s st c r x st'} (h : Loops m actor n s st c r x st') :
    (Cursor.keys c).take n <+: x.seen.map (·.1) ∧ (x.more = false → Cursor.keys c <+: x.seen.map (·.1)) := by
  induction h with
  | @pause s st c r =>
    refine ⟨by simp, fun hm => ?_⟩
    rw [Cursor.keys_none (by simpa using hm)]
    exact List.nil_prefix
  | ended hn => rw [Cursor.keys_none hn]; simp
  | @more n s st c r e c1 s1 st1 c2 r2 x st' hn hacts hl ih =>
    obtain ⟨l, hl⟩ := Acts.inv (I := fun _ c _ => ∃ l, Cursor.keys c = Cursor.keys c1 ++ l)
      (fun ⟨l, hi⟩ hq hm => by obtain ⟨l', h'⟩ := hm.keys hq; exact ⟨l ++ l', by rw [h', hi, List.append_assoc]⟩)
      hacts (ha s e.1 e.2) ⟨[], by simp⟩
    rw [Cursor.keys_next hn]
    rw [hl] at ih
    simp only [List.take_succ_cons, List.map_cons, List.cons_prefix_cons, true_and]
    refine ⟨?_, fun hm => (List.prefix_append _ _).trans (ih.2 hm)⟩
    refine List.IsPrefix.trans ?_ ih.1
    rw [List.take_append]
    exact List.prefix_append _ _
  | left hn hacts =>
    have := hacts.goes (hg _ _ _)
    cases this

/-! ### Loops end if nothing is removed -/

/-- How many entries are left to visit at most. -/
def Cursor.size (c : Cursor K V) (r : Int) : Nat :=
  if c.cur.isNone && c.rest.isEmpty then c.gone.length else c.gone.length + c.rest.length + r.toNat

theorem Moves.size {m : MRef} {st : AWorld K V} {c r op c' r'} (hq : RemovesNot m op) (h : Moves m st c r op c' r') :
    Cursor.size c' r' ≤ Cursor.size c r := by
  obtain ⟨cu, go, re⟩ := c
  cases h with
  | other | refused | nothing => exact Nat.le_refl _
  | replaced => simp [Cursor.size, Cursor.set]
  | added h1 h2 h3 h4 h5 =>
    subst h5
    cases cu <;> cases re <;> simp [Cursor.size, Cursor.add] <;> omega
  | grown | all =>
    cases cu <;> cases re <;> simp [Cursor.size, Cursor.grow] <;> omega
  | removed | removedAll => exact absurd rfl hq

theorem Cursor.size_next {c c1 : Cursor K V} {e : K × V} {r : Int} (h : c.next = some (e, c1)) : Cursor.size c1 r < Cursor.size c r := by
  obtain ⟨cu, go, re⟩ := c
  cases go with
  | cons e' go =>
    simp only [Cursor.next, Option.some.injEq, Prod.mk.injEq] at h; obtain ⟨rfl, rfl⟩ := h
    cases cu <;> cases re <;> simp [Cursor.size] <;> omega
  | nil =>
    cases re with
    | nil => simp [Cursor.next] at h
    | cons e' re =>
      simp only [Cursor.next, Option.some.injEq, Prod.mk.injEq] at h; obtain ⟨rfl, rfl⟩ := h
      cases cu <;> simp [Cursor.size]

theorem Loops.ends {m : MRef} {actor : S → K → V → Prog K V S} (ha : ∀ s k v, (actor s k v).Calls (RemovesNot m))
    {n s st c r x st'} (h : Loops m actor n s st c r x st') (hn : Cursor.size c r ≤ n) : x.more = false := by
  induction h with
  | @pause s st c r =>
    cases hc : c.next with
    | none => rfl
    | some y => have := Cursor.size_next (r := r) (c := c) (c1 := y.2) (e := y.1) hc; omega
  | ended => rfl
  | @more n s st c r e c1 s1 st1 c2 r2 x st' hc hacts hl ih =>
    have h1 := Cursor.size_next (r := r) hc
    have h2 := Acts.inv (I := fun _ c r' => Cursor.size c r' ≤ Cursor.size c1 r) (fun hi hq hm => Nat.le_trans (hm.size hq) hi) hacts
      (ha s e.1 e.2) (Nat.le_refl _)
    exact ih (by omega)
  | left => rfl

/-! ### Entries are removed, but not the one the loop is at, and none is added -/

/-- The loop is in step with the map: the entries to come are the last ones of the map. -/
structure Live (m : MRef) (keep : List K) (seen : K → Prop) (st : AWorld K V) (c : Cursor K V) : Prop where
  ex : ∃ x A, st[m]? = some x ∧ x.es = A ++ c.rest ∧ DistinctKeys x.es ∧ (∀ k, c.cur = some k → (lookup k x.es).isSome = true) ∧
    (∀ t ∈ keep, (lookup t x.es).isSome = true) ∧ ∀ e ∈ A, seen e.1
  gone : c.gone = []

theorem erase_append (A B : List (K × V)) (k : K) : erase (A ++ B) k = erase A k ++ erase B k := by simp [erase]

theorem Moves.live [LawfulKey K] {m : MRef} {keep : List K} {seen : K → Prop} {k : K} {st : AWorld K V} {c r op c' r'}
    (hi : Live m keep seen st c ∧ c.cur = some k) (hq : Tame m keep k op) (h : Moves m st c r op c' r') :
    Live m keep seen (step st op).2 c' ∧ c'.cur = some k ∧ (c'.rest.map (·.1)).Sublist (c.rest.map (·.1)) := by
  obtain ⟨⟨⟨x, A, h1, h2, h3, h4, h5, h6⟩, h7⟩, h8⟩ := hi
  cases h with
  | other ht =>
    obtain ⟨y, e1, e2⟩ := step_other ht h1
    rw [← e2] at h2 h3 h4 h5
    exact ⟨⟨⟨y, A, e1, h2, h3, h4, h5, h6⟩, h7⟩, h8, .refl _⟩
  | refused hp =>
    rw [step_panic hp]
    exact ⟨⟨⟨x, A, h1, h2, h3, h4, h5, h6⟩, h7⟩, h8, .refl _⟩
  | nothing => exact absurd rfl hq
  | @replaced k' v y e1 e2 e3 =>
    rw [h1] at e1; cases e1
    simp only [step, h1, mutate, e2, Bool.false_eq_true, if_false]
    rw [insert_some e3]
    refine ⟨⟨⟨_, A.map fun e => if KeyOps.eq k' e.1 then (e.1, v) else e, set_at h1, ?_, DistinctKeys.setv h3 _ _, ?_, ?_, ?_⟩, h7⟩, h8, ?_⟩
    · simp only [h2, Cursor.set, List.map_append]
    · intro q hq
      rw [← insert_some e3, lookup_insert]
      split
      · rfl
      · exact h4 q hq
    · intro q hq
      rw [← insert_some e3, lookup_insert]
      split
      · rfl
      · exact h5 q hq
    · intro e he
      obtain ⟨e', he', rfl⟩ := List.mem_map.1 he
      split
      · exact h6 e' he'
      · exact h6 e' he'
    · simp only [Cursor.set, List.map_map]
      rw [List.map_congr_left (g := (·.1))]
      · exact .refl _
      · intro e _
        simp only [Function.comp]
        split <;> rfl
  | @added k' v y _ e1 e2 e3 =>
    rw [h1] at e1; cases e1
    rcases hq rfl with rfl | hk
    · have := h4 _ h8; rw [e3] at this; cases this
    · have := h5 _ hk; rw [e3] at this; cases this
  | @grown k' v y _ e1 e2 e3 =>
    rw [h1] at e1; cases e1
    rcases hq rfl with rfl | hk
    · have := h4 _ h8; rw [e3] at this; cases this
    · have := h5 _ hk; rw [e3] at this; cases this
  | all => exact absurd rfl hq
  | @removed k' y _ e1 e2 e3 =>
    rw [h1] at e1; cases e1
    obtain ⟨q1, q2⟩ := hq rfl
    have hc : c.remove k' = { c with rest := erase c.rest k' } := by
      obtain ⟨cu, go, re⟩ := c
      simp only at h8; subst h8
      simp [Cursor.remove, q1]
    simp only [step, h1, mutate, e2, Bool.false_eq_true, if_false]
    rw [hc]
    refine ⟨⟨⟨_, erase A k', set_at h1, ?_, DistinctKeys.erase h3 k', ?_, ?_, ?_⟩, h7⟩, h8, ?_⟩
    · simp only [h2, erase_append]
    · intro q hq
      simp only at hq
      rw [h8] at hq; cases hq
      rw [lookup_erase, q1]
      exact h4 _ h8
    · intro q hq
      rw [lookup_erase, q2 q hq]
      exact h5 q hq
    · intro e he
      exact h6 e (List.mem_filter.1 he).1
    · exact List.Sublist.map _ List.filter_sublist
  | removedAll => exact absurd rfl hq

theorem Acts.live [LawfulKey K] {m : MRef} {keep : List K} {seen : K → Prop} {k : K} {P : Prog K V S} {st : AWorld K V} {c r x st' c' r'}
    (h : Acts m P st c r x st' c' r') (hq : P.Calls (Tame m keep k)) (hi : Live m keep seen st c) (hk : c.cur = some k) :
    Live m keep seen st' c' ∧ (c'.rest.map (·.1)).Sublist (c.rest.map (·.1)) := by
  have := Acts.inv (I := fun st' c' _ => (Live m keep seen st' c' ∧ c'.cur = some k) ∧ (c'.rest.map (·.1)).Sublist (c.rest.map (·.1)))
    (fun hi hq hm => by obtain ⟨h1, h2, h3⟩ := hm.live hi.1 hq; exact ⟨⟨h1, h2⟩, h3.trans hi.2⟩) h hq ⟨⟨hi, hk⟩, .refl _⟩
  exact ⟨this.1.1, this.2⟩

theorem Live.next [LawfulKey K] {m : MRef} {keep : List K} {seen : K → Prop} {st : AWorld K V} {c c1 : Cursor K V} {e : K × V}
    (h : Live m keep seen st c) (hn : c.next = some (e, c1)) :
    Live m keep (fun k => seen k ∨ k = e.1) st c1 ∧ c1.cur = some e.1 ∧ c.rest = e :: c1.rest ∧ (step st (.get m e.1)).1 = .val (some e.2) := by
  obtain ⟨⟨x, A, h1, h2, h3, h4, h5, h6⟩, h7⟩ := h
  obtain ⟨cu, go, re⟩ := c
  simp only at h7 h2 h4; subst h7
  cases re with
  | nil => simp [Cursor.next] at hn
  | cons e' re =>
    simp only [Cursor.next, Option.some.injEq, Prod.mk.injEq] at hn
    obtain ⟨rfl, rfl⟩ := hn
    have hl : lookup e'.1 x.es = some e'.2 := by
      rw [h2]
      refine lookup_hit ?_ (LawfulKey.refl _)
      intro a ha
      rw [h2] at h3
      have hd := (List.pairwise_append.1 h3).2.2 a ha e' (List.mem_cons_self ..)
      cases hs : KeyOps.eq e'.1 a.1
      · rfl
      · rw [LawfulKey.symm _ _ hs] at hd; cases hd
    refine ⟨⟨⟨x, A ++ [e'], h1, by simp [h2], h3, ?_, h5, ?_⟩, rfl⟩, rfl, rfl, ?_⟩
    · intro q hq
      cases hq
      rw [hl]; rfl
    · intro a ha
      rcases List.mem_append.1 ha with ha | ha
      · exact .inl (h6 a ha)
      · rw [List.mem_singleton.1 ha]; exact .inr rfl
    · simp only [step, h1, hl]

theorem Live.get {m : MRef} {keep : List K} {seen : K → Prop} {st : AWorld K V} {c : Cursor K V} (h : Live m keep seen st c) (k : K) :
    (step st (.get m k)).2 = st := by
  obtain ⟨⟨x, A, h1, _⟩, _⟩ := h
  simp only [step, h1]

theorem Loops.live [LawfulKey K] {m : MRef} {keep : List K} {actor : S → K → V → Prog K V S} (ha : ∀ s k v, (actor s k v).Calls (Tame m keep k))
    {n : Nat} {s : S × Prop} {st : AWorld K V} {c r x st'} (h : Loops m (checked m actor) n s st c r x st')
    {seen : K → Prop} (hi : Live m keep seen st c) (hs : s.2) :
    x.state.2 ∧ (x.seen.map (·.1)).Sublist (c.rest.map (·.1)) ∧
    ((∀ s k v, (actor s k v).Goes) → x.more = false → ∃ y, st'[m]? = some y ∧ ∀ e ∈ y.es, seen e.1 ∨ e.1 ∈ x.seen.map (·.1)) := by
  have acts : ∀ {s : S × Prop} {st : AWorld K V} {c r e c1 s1 go st1 c2 r2} {seen : K → Prop}, Live m keep seen st c → s.2 → c.next = some (e, c1) →
      Acts m (checked m actor s e.1 e.2) st c1 r (s1, go) st1 c2 r2 → Live m keep (fun k => seen k ∨ k = e.1) st1 c2 ∧ s1.2 ∧
        (c2.rest.map (·.1)).Sublist (c1.rest.map (·.1)) ∧ ∃ s0 go', go' = go ∧ ∃ r0 r0', Acts m (actor s.1 e.1 e.2) st c1 r0 (s0, go') st1 c2 r0' := by
    intro s st c r e c1 s1 go st1 c2 r2 seen hi hs hn hacts
    obtain ⟨h1, h2, h3, h4⟩ := hi.next hn
    cases hacts with
    | call hm hc =>
      obtain ⟨y, i1, i2⟩ := Acts.of_map hc
      rw [hi.get] at i1
      cases hm with
      | other =>
        obtain ⟨j1, j2⟩ := i1.live (ha s.1 e.1 e.2) h1 h2
        cases i2
        exact ⟨j1, ⟨hs, h4⟩, j2, _, _, rfl, _, _, i1⟩
      | refused hp => rw [h4] at hp; cases hp
  induction h generalizing seen with
  | @pause s st c r =>
    refine ⟨hs, by simp, fun _ hm => ?_⟩
    obtain ⟨⟨y, A, h1, h2, _, _, _, h6⟩, h7⟩ := hi
    have : c.rest = [] := by
      obtain ⟨cu, go, re⟩ := c
      simp only at h7; subst h7
      cases re with
      | nil => rfl
      | cons => simp [Cursor.next] at hm
    rw [this, List.append_nil] at h2
    exact ⟨y, h1, fun e he => .inl (h6 e (h2 ▸ he))⟩
  | @ended n s st c r hm =>
    refine ⟨hs, by simp, fun _ _ => ?_⟩
    obtain ⟨⟨y, A, h1, h2, _, _, _, h6⟩, h7⟩ := hi
    have : c.rest = [] := by
      obtain ⟨cu, go, re⟩ := c
      simp only at h7; subst h7
      cases re with
      | nil => rfl
      | cons => simp [Cursor.next] at hm
    rw [this, List.append_nil] at h2
    exact ⟨y, h1, fun e he => .inl (h6 e (h2 ▸ he))⟩
  | @more n s st c r e c1 s1 st1 c2 r2 x st' hn hacts hl ih =>
    obtain ⟨j1, j2, j3, _⟩ := acts hi hs hn hacts
    obtain ⟨h1, h2, h3, h4⟩ := hi.next hn
    obtain ⟨k1, k2, k3⟩ := ih j1 j2
    refine ⟨k1, ?_, ?_⟩
    · rw [h3]
      simp only [List.map_cons]
      exact (k2.trans j3).cons_cons _
    · intro hg hm
      obtain ⟨y, l1, l2⟩ := k3 hg hm
      refine ⟨y, l1, fun a ha => ?_⟩
      simp only [List.map_cons, List.mem_cons]
      rcases l2 a ha with (l | l) | l
      · exact .inl l
      · exact .inr (.inl l)
      · exact .inr (.inr l)
  | @left n s st c r e c1 s1 st1 c2 r2 hn hacts =>
    obtain ⟨j1, j2, j3, s0, go', e0, r0, r0', hk⟩ := acts hi hs hn hacts
    obtain ⟨h1, h2, h3, h4⟩ := hi.next hn
    refine ⟨j2, ?_, ?_⟩
    · rw [h3]
      simp
    · intro hg _
      have := hk.goes (hg _ _ _)
      rw [e0] at this; cases this

end Verif.HMap.Spec
