import Verif.HMap.Props
import Verif.HMap.EachRefine
import Verif.HMap.EachLoops
/-!
# C108: loops over a map that is changed in the loop

The specification is `Verif/HMap/EachSpec.lean`.  `each m actor n s w` is what has happened after at most `n` calls of the actor; `more` says whether
there would be another call.  Hence a loop that ends is one for which `more` is false from some `n` on.
-/
set_option autoImplicit false
set_option linter.unusedSectionVars false
namespace Verif.HMap
open Spec

variable {K V S : Type} [KeyOps K] [ValOps V]

namespace Ex
/-- Two maps with the same entry, the second one with more room. -/
def w6 : W := (execAll World.init [.new 1, .put 0 1 (some 5), .new 8, .put 1 1 (some 5)]).2
theorem w6_reachable : Reachable w6 := ⟨_, by simp [Regular], rfl⟩
/-- A map with three entries. -/
def w7 : W := (execAll World.init [.new 3, .put 0 1 (some 5), .put 0 2 (some 6), .put 0 3 none]).2
theorem w7_reachable : Reachable w7 := ⟨_, by simp [Regular], rfl⟩
/-- A map with two entries and room. -/
def w8 : W := (execAll World.init [.new 3, .put 0 0 none, .put 0 1 none]).2
theorem w8_reachable : Reachable w8 := ⟨_, by simp [Regular], rfl⟩
/-- Adds one entry to the map `m`. -/
def adds (m : MRef) : Unit → Nat → Option Nat → Prog Nat (Option Nat) Unit := fun s _ v => .call (.put m 11 v) fun _ => .ret s true
/-- Removes the entry that it is called for, and the next one.  Both this and the next actor first ask for the value of the key. -/
def cuts : List (Out Nat (Option Nat)) → Nat → Option Nat → Prog Nat (Option Nat) (List (Out Nat (Option Nat))) :=
  fun s k _ => .call (.get 0 k) fun o => .call (.remove 0 k) fun _ => .call (.remove 0 (k + 1)) fun _ => .ret (s ++ [o]) true
/-- Adds an entry and replaces the value of another one. -/
def sets : List (Out Nat (Option Nat)) → Nat → Option Nat → Prog Nat (Option Nat) (List (Out Nat (Option Nat))) :=
  fun s k v => .call (.get 0 k) fun o => .call (.put 0 11 v) fun _ => .call (.put 0 3 (some 9)) fun _ => .ret (s ++ [o]) true
/-- Removes the entry that it is called for and adds a new one. -/
def moves : Nat → Nat → Option Nat → Prog Nat (Option Nat) Nat :=
  fun s k v => .call (.remove 0 k) fun _ => .call (.put 0 s v) fun _ => .ret (s + 1) true
/-- Removes the entry that it is called for. -/
def takes : Unit → Nat → Option Nat → Prog Nat (Option Nat) Unit := fun s k _ => .call (.remove 0 k) fun _ => .ret s true
/-- Replaces the value of the entry that it is called for, and removes the third one. -/
def tames : Unit → Nat → Option Nat → Prog Nat (Option Nat) Unit :=
  fun s k _ => .call (.put 0 k (some 8)) fun _ => if k = 3 then .ret s true else .call (.remove 0 3) fun _ => .ret s true
/-- What a loop has seen, and the state of the actor. -/
def seen {T : Type} : Res W (Seen Nat (Option Nat) T) → Option (List (Nat × Option Nat) × Bool × T)
  | .ok x _ => some (x.seen, x.more, x.state)
  | _ => none
theorem of_seen {T : Type} {r : Res W (Seen Nat (Option Nat) T)} {l b t} (h : seen r = some (l, b, t)) :
    ∃ x w', r = .ok x w' ∧ x.seen = l ∧ x.more = b ∧ x.state = t := by
  cases r with
  | ok x w' => simp only [seen, Option.some.injEq, Prod.mk.injEq] at h; exact ⟨x, w', rfl, h⟩
  | _ => cases h
end Ex

theorem each_cursor [LawfulKey K] {w : World K V} {css st} {m : MRef} {a : AMap K V} (h : WR w css st) (hm : st[m]? = some a) :
    ∃ r, (∃ g, w.maps[m]? = some g ∧ r = ((3 * g.table.length / 4 : Nat) : Int) - a.es.length) ∧
      ∀ {S : Type} (actor : S → K → V → Prog K V S), (∀ s k v, (actor s k v).Calls Regular) → ∀ n s,
      ∃ x w' css' st', each m actor n s w = .ok x w' ∧ WR w' css' st' ∧ Loops m actor n s st ⟨none, [], a.es⟩ r x st' := by
  have hml : m < w.maps.length := by rw [← h.lens]; exact (List.getElem?_eq_some_iff.1 hm).1
  obtain ⟨g, cs, h1, h2, h3, h4⟩ := h.each m hml
  rw [hm] at h2; cases h2
  refine ⟨_, ⟨g, h3.map, rfl⟩, ?_⟩
  intro S actor hr n s
  obtain ⟨x, w', css', s', e1, e2, e3⟩ := visit_cursor hr (n := n) (st := s) (cur := g.first) (c := ⟨none, [], kv cs⟩)
    (r := ((3 * g.table.length / 4 : Nat) : Int) - cs.length) h h1 ⟨[], [], cs, rfl, h3.core.seg.head, rfl, rfl⟩ ⟨g, h3.map, rfl⟩
  refine ⟨x, w', css', s', ?_, e2, by simp only [kv_length]; exact e3⟩
  rw [each, M.bind_ok (getMap_run h3.map)]
  exact e1

/-- **C108.**  A loop over a map, whose actor may change that map and others and may choose every call with what the earlier ones returned, never panics
and never gets stuck in the code; what it sees is what the cursor of the specification says, and the maps are afterwards what the calls of the actor make
of insertion-ordered dictionaries.  `r` is how many entries the map has room for when the loop begins. -/
theorem C108_refines_partial [LawfulKey K] (ops : List (Op K V)) (hops : ∀ op ∈ ops, Regular op) {m : MRef} {a : AMap K V}
    (hm : (run [] ops).2[m]? = some a) :
    ∃ r, ∀ (S : Type) (actor : S → K → V → Prog K V S), (∀ s k v, (actor s k v).Calls Regular) → ∀ n s,
      ∃ x w' st', each m actor n s (execAll World.init ops).2 = .ok x w' ∧ Loops m actor n s (run [] ops).2 ⟨none, [], a.es⟩ r x st' ∧
        ∀ ops', (∀ op ∈ ops', Regular op) → (execAll w' ops').1 = (run st' ops').1 := by
  obtain ⟨css, _, h⟩ := run_refines (World.init_WR (K := K) (V := V)) ops hops
  obtain ⟨r, _, hr⟩ := each_cursor h hm
  refine ⟨r, fun S actor ha n s => ?_⟩
  obtain ⟨x, w', css', st', e1, e2, e3⟩ := hr actor ha n s
  refine ⟨x, w', st', e1, e3, fun ops' ho => ?_⟩
  obtain ⟨_, h', _⟩ := run_refines e2 ops' ho
  exact h'

/-- A map that grows in the loop. -/
example : ∃ x w', each 0 (Ex.adds 0) 9 () Ex.w6 = .ok x w' ∧ x.seen = [(1, some 5)] ∧ x.more = false ∧ x.state = () :=
  Ex.of_seen (by decide +kernel)

/-- **C108.**  If the actor doesn't change the map except that it may remove the entry that it is called for, then it is called for the entries that the
map had at the start, each once, in their order, with their values.  It may change other maps, freeze this one, and so on. -/
theorem C108_remove_current [LawfulKey K] {w : World K V} (hw : Reachable w) {m : MRef} {es : List (K × V)} (he : obs w (.entries m) = .list es)
    {actor : S → K → V → Prog K V S} (hr : ∀ s k v, (actor s k v).Calls Regular) (hg : ∀ s k v, (actor s k v).Goes)
    (ha : ∀ s k v, (actor s k v).Calls (OnlyRemoves m k)) (n : Nat) (s : S) :
    ∃ x w', each m actor n s w = .ok x w' ∧ x.seen = es.take n ∧ x.more = decide (n < es.length) := by
  obtain ⟨css, st, h⟩ := hw.rep
  obtain ⟨a, hm, rfl⟩ := h.entries he
  obtain ⟨r, _, h'⟩ := each_cursor h hm
  obtain ⟨x, w', _, _, e1, _, e3⟩ := h' actor hr n s
  exact ⟨x, w', e1, e3.onlyRemoves ha hg rfl (h.distinct hm)⟩

/-- All three entries are visited and removed. -/
example : (∃ x w', each 0 Ex.takes 9 () Ex.w7 = .ok x w' ∧ x.seen = [(1, some 5), (2, some 6), (3, none)] ∧ x.more = false) ∧
    ∃ x w', each 0 Ex.takes 2 () Ex.w7 = .ok x w' ∧ x.seen = [(1, some 5), (2, some 6)] ∧ x.more = true := by
  have h := fun n => C108_remove_current Ex.w7_reachable (m := 0) (es := [(1, some 5), (2, some 6), (3, none)]) (by decide +kernel) (actor := Ex.takes)
    (fun _ _ _ => ⟨trivial, fun _ => trivial⟩) (fun _ _ _ _ => rfl) (fun _ _ _ => ⟨fun _ => rfl, fun _ => trivial⟩) n ()
  exact ⟨h 9, h 2⟩

/-- **C108.**  Changes of other maps aren't noticed by a loop. -/
theorem C108_others [LawfulKey K] {w : World K V} (hw : Reachable w) {m : MRef} {es : List (K × V)} (he : obs w (.entries m) = .list es)
    {actor : S → K → V → Prog K V S} (hr : ∀ s k v, (actor s k v).Calls Regular) (hg : ∀ s k v, (actor s k v).Goes)
    (ha : ∀ s k v, (actor s k v).Calls fun op => ∀ m' k' v' a' ks', op = .put m' k' v' ∨ op = .putAll m' a' ∨ op = .remove m' k' ∨ op = .removeAll m' ks' → m' ≠ m)
    (n : Nat) (s : S) :
    ∃ x w', each m actor n s w = .ok x w' ∧ x.seen = es.take n ∧ x.more = decide (n < es.length) := by
  refine C108_remove_current hw he hr hg (fun s k v => ?_) n s
  have mono : ∀ {P : Prog K V S}, P.Calls (fun op => ∀ m' k' v' a' ks',
      op = .put m' k' v' ∨ op = .putAll m' a' ∨ op = .remove m' k' ∨ op = .removeAll m' ks' → m' ≠ m) → P.Calls (OnlyRemoves m k) := by
    intro P hP
    induction P with
    | ret => trivial
    | call op cont ih =>
      refine ⟨fun ht => ?_, fun o => ih o (hP.2 o)⟩
      exfalso
      have := hP.1 m k v
      cases op with
      | put m' k' v' => cases ht; exact hP.1 m k' v' 0 [] (.inl rfl) rfl
      | putAll m' a' => cases ht; exact hP.1 m k v a' [] (.inr (.inl rfl)) rfl
      | remove m' k' => cases ht; exact hP.1 m k' v 0 [] (.inr (.inr (.inl rfl))) rfl
      | removeAll m' ks' => cases ht; exact hP.1 m k v 0 ks' (.inr (.inr (.inr rfl))) rfl
      | _ => cases ht
  exact mono (ha s k v)

/-- The first map is changed in a loop over the second one. -/
example : ∃ x w', each 1 (Ex.adds 0) 9 () Ex.w6 = .ok x w' ∧ x.seen = [(1, some 5)] ∧ x.more = false :=
  C108_others Ex.w6_reachable (m := 1) (es := [(1, some 5)]) (actor := Ex.adds 0) (by decide +kernel) (fun _ _ _ => ⟨trivial, fun _ => trivial⟩) (fun _ _ _ _ => rfl)
    (fun _ _ _ => ⟨by rintro m' k' v' a' ks' (h | h | h | h) <;> cases h; decide, fun _ => trivial⟩) 9 ()

/-- **C108.**  If the actor removes nothing from the map, then it is called for all keys that the map had at the start, in their order, before it is
called for others; whatever it adds, puts and merges. -/
theorem C108_keys [LawfulKey K] {w : World K V} (hw : Reachable w) {m : MRef} {es : List (K × V)} (he : obs w (.entries m) = .list es)
    {actor : S → K → V → Prog K V S} (hr : ∀ s k v, (actor s k v).Calls Regular) (hg : ∀ s k v, (actor s k v).Goes)
    (ha : ∀ s k v, (actor s k v).Calls (RemovesNot m)) (n : Nat) (s : S) :
    ∃ x w', each m actor n s w = .ok x w' ∧ (es.map (·.1)).take n <+: x.seen.map (·.1) ∧ (x.more = false → es.map (·.1) <+: x.seen.map (·.1)) := by
  obtain ⟨css, st, h⟩ := hw.rep
  obtain ⟨a, hm, rfl⟩ := h.entries he
  obtain ⟨r, _, h'⟩ := each_cursor h hm
  obtain ⟨x, w', _, _, e1, _, e3⟩ := h' actor hr n s
  exact ⟨x, w', e1, e3.keys ha hg⟩

example : ∃ x w', each 1 (Ex.adds 1) 9 () Ex.w6 = .ok x w' ∧ [1] <+: x.seen.map (·.1) ∧ (x.more = false → [1] <+: x.seen.map (·.1)) :=
  C108_keys Ex.w6_reachable (m := 1) (es := [(1, some 5)]) (actor := Ex.adds 1) (by decide +kernel) (fun _ _ _ => ⟨trivial, fun _ => trivial⟩) (fun _ _ _ _ => rfl)
    (fun _ _ _ => ⟨trivial, fun _ => trivial⟩) 9 ()

/-- **C108.**  If the actor removes nothing from the map then the loop ends, although it may add entries whenever it is called: there is a number that
bounds the calls of every such actor. -/
theorem C108_ends [LawfulKey K] {w : World K V} (hw : Reachable w) {m : MRef} {es : List (K × V)} (he : obs w (.entries m) = .list es) :
    ∃ N, ∀ (S : Type) (actor : S → K → V → Prog K V S), (∀ s k v, (actor s k v).Calls Regular) → (∀ s k v, (actor s k v).Calls (RemovesNot m)) →
      ∀ n s, N ≤ n → ∃ x w', each m actor n s w = .ok x w' ∧ x.more = false := by
  obtain ⟨css, st, h⟩ := hw.rep
  obtain ⟨a, hm, rfl⟩ := h.entries he
  obtain ⟨r, _, h'⟩ := each_cursor h hm
  refine ⟨Cursor.size ⟨none, [], a.es⟩ r, fun S actor hr ha n s hn => ?_⟩
  obtain ⟨x, w', _, _, e1, _, e3⟩ := h' actor hr n s
  exact ⟨x, w', e1, e3.ends ha hn⟩

/-- An actor that adds a new entry whenever it is called. -/
example : ∃ N, ∀ n, N ≤ n → ∃ x w', each 1 (fun s k v => .call (.put 1 (k + 10) v) fun _ => .ret s true) n () Ex.w6 = .ok x w' ∧ x.more = false := by
  obtain ⟨N, h⟩ := C108_ends Ex.w6_reachable (m := 1) (es := [(1, some 5)]) (by decide +kernel)
  exact ⟨N, fun n hn => h Unit (fun s k v => .call (.put 1 (k + 10) v) fun _ => .ret s true) (fun _ _ _ => ⟨trivial, fun _ => trivial⟩) (fun _ _ _ => ⟨trivial, fun _ => trivial⟩) n () hn⟩

/-- **C108.**  If the actor neither removes the entry that it is called for nor adds entries, but may replace the values of that entry and of entries that
are never removed, and may remove all others, then it is called only for entries that are in the map with that value at that time, in their order, each
once; and when the loop has ended it has been called for all entries that then are in the map. -/
theorem C108_live [LawfulKey K] {w : World K V} (hw : Reachable w) {m : MRef} {es : List (K × V)} (he : obs w (.entries m) = .list es)
    {keep : List K} (hk : ∀ t ∈ keep, obs w (.containsKey m t) = .bool true)
    {actor : S → K → V → Prog K V S} (hr : ∀ s k v, (actor s k v).Calls Regular) (ha : ∀ s k v, (actor s k v).Calls (Tame m keep k)) (n : Nat) (s : S) :
    ∃ x w', each m (checked m actor) n (s, True) w = .ok x w' ∧ x.state.2 ∧ (x.seen.map (·.1)).Sublist (es.map (·.1)) ∧
      ((∀ s k v, (actor s k v).Goes) → x.more = false → ∃ es', obs w' (.entries m) = .list es' ∧ ∀ e ∈ es', e.1 ∈ x.seen.map (·.1)) := by
  obtain ⟨css, st, h⟩ := hw.rep
  obtain ⟨a, hm, rfl⟩ := h.entries he
  obtain ⟨r, _, h'⟩ := each_cursor h hm
  have hmap : ∀ {T : Type} {f : S → T} {P : Prog K V S}, P.Calls Regular → (P.map f).Calls Regular := by
    intro T f P hP
    induction P with
    | ret => trivial
    | call op cont ih => exact ⟨hP.1, fun o => ih o (hP.2 o)⟩
  obtain ⟨x, w', css', st', e1, e2, e3⟩ := h' (checked m actor) (fun s k v => ⟨trivial, fun o => hmap (hr _ _ _)⟩) n (s, True)
  have hl : Live m keep (fun _ => False) st ⟨none, [], a.es⟩ := by
    refine ⟨⟨a, [], hm, rfl, h.distinct hm, (fun _ hc => nomatch hc), fun t ht => ?_, by simp⟩, rfl⟩
    have := hk t ht
    rw [h.obs (.containsKey m t) trivial] at this
    simpa only [step, hm, Out.bool.injEq] using this
  obtain ⟨i1, i2, i3⟩ := e3.live ha hl trivial
  refine ⟨x, w', e1, i1, i2, fun hg hx => ?_⟩
  obtain ⟨y, j1, j2⟩ := i3 hg hx
  exact ⟨y.es, e2.entries_of j1, fun e he => (j2 e he).resolve_left id⟩

/-- The third entry is removed and not visited. -/
example : (∃ x w', each 0 (checked 0 Ex.tames) 9 ((), True) Ex.w7 = .ok x w' ∧ x.state.2) ∧
    ∃ x w', each 0 Ex.tames 9 () Ex.w7 = .ok x w' ∧ x.seen = [(1, some 5), (2, some 6)] ∧ x.more = false ∧ x.state = () := by
  obtain ⟨x, w', h1, h2, _⟩ := C108_live Ex.w7_reachable (m := 0) (es := [(1, some 5), (2, some 6), (3, none)]) (by decide +kernel) (keep := []) (by simp)
    (actor := Ex.tames) (fun s k v => ⟨trivial, fun _ => by split; exact trivial; exact ⟨trivial, fun _ => trivial⟩⟩)
    (fun s k v => ⟨fun _ => .inl rfl, fun _ => by
      split
      · trivial
      · rename_i h
        exact ⟨fun _ => ⟨by simp only [KeyOps.eq, beq_eq_false_iff_ne]; exact fun e => h e.symm, by simp⟩, fun _ => trivial⟩⟩) 9 ()
  exact ⟨⟨x, w', h1, h2⟩, Ex.of_seen (by decide +kernel)⟩

/-! ### Where loops do what one wouldn't expect -/

/-- **C108** is violated: whether an actor is called for an entry that it adds depends on how much room the map has; two maps with the same entries
behave differently. -/
theorem C108_added_violated : ∃ (w : Ex.W) (m m' : MRef), Reachable w ∧ obs w (.entries m) = obs w (.entries m') ∧
    (∃ x w', each m (Ex.adds m) 9 () w = .ok x w' ∧ x.seen = [(1, some 5)] ∧ x.more = false ∧ x.state = ()) ∧
    ∃ x w', each m' (Ex.adds m') 9 () w = .ok x w' ∧ x.seen = [(1, some 5), (11, some 5)] ∧ x.more = false ∧ x.state = () :=
  ⟨Ex.w6, 0, 1, Ex.w6_reachable, by decide +kernel, Ex.of_seen (by decide +kernel), Ex.of_seen (by decide +kernel)⟩

/-- **C108** is violated: an actor is called for an entry that is no longer in the map, if it has removed the entry before it in the same call.  `Get`
returned nothing for the second entry. -/
theorem C108_removed_violated : ∃ (w : Ex.W), Reachable w ∧
    ∃ x w', each 0 Ex.cuts 9 [] w = .ok x w' ∧ x.seen = [(1, some 5), (2, some 6), (3, none)] ∧ x.more = false ∧
      x.state = [.val (some (some 5)), .val none, .val none] :=
  ⟨Ex.w7, Ex.w7_reachable, Ex.of_seen (by decide +kernel)⟩

/-- **C108** is violated: after an entry has been added, an actor may be called with a value that has been replaced before.  `Get` returned `9` for the
third entry. -/
theorem C108_stale_violated : ∃ (w : Ex.W), Reachable w ∧
    ∃ x w', each 0 Ex.sets 9 [] w = .ok x w' ∧ x.seen = [(1, some 5), (2, some 6), (3, none)] ∧ x.more = false ∧
      x.state = [.val (some (some 5)), .val (some (some 6)), .val (some (some 9))] :=
  ⟨Ex.w7, Ex.w7_reachable, Ex.of_seen (by decide +kernel)⟩

theorem Loops.moves {n : Nat} {s : Nat} {st : AWorld Nat (Option Nat)} {c r x st'} (h : Loops 0 Ex.moves n s st c r x st')
    (hc : c.cur = none ∧ c.gone = [] ∧ 2 ≤ c.rest.length ∧ 0 ≤ r ∧ ∃ A, st = [⟨A ++ c.rest, false⟩] ∧ DistinctKeys (A ++ c.rest) ∧ ∀ e ∈ A ++ c.rest, e.1 < s) :
    x.more = true := by
  induction h with
  | @pause s st c r =>
    obtain ⟨cu, go, re⟩ := c
    obtain ⟨rfl, rfl, h1, -⟩ := hc
    cases re with
    | nil => cases h1
    | cons => rfl
  | @ended n s st c r hn =>
    obtain ⟨cu, go, re⟩ := c
    obtain ⟨rfl, rfl, h1, -⟩ := hc
    cases re with
    | nil => cases h1
    | cons => cases hn
  | @more n s st c r e c1 s1 st1 c2 r2 x st' hn hacts hl ih =>
    refine ih ?_
    obtain ⟨cu, go, re⟩ := c
    obtain ⟨rfl, rfl, h1, h2, A, rfl, h3, h4⟩ := hc
    cases re with
    | nil => cases h1
    | cons e' re =>
      simp only [Cursor.next, Option.some.injEq, Prod.mk.injEq] at hn
      obtain ⟨rfl, rfl⟩ := hn
      obtain ⟨A1, A2, A3⟩ := List.pairwise_append.1 h3
      obtain ⟨A4, A5⟩ := List.pairwise_cons.1 A2
      have hA : ∀ a ∈ A, KeyOps.eq e'.1 a.1 = false := by
        intro a ha
        have := A3 a ha e' (List.mem_cons_self ..)
        simp only [KeyOps.eq, beq_eq_false_iff_ne, ne_eq] at this ⊢
        exact fun h => this h.symm
      have hk : KeyOps.eq e'.1 e'.1 = true := LawfulKey.refl _
      have hse : step [⟨A ++ e' :: re, false⟩] (.remove 0 e'.1) = (.val (some e'.2), [⟨A ++ re, false⟩]) := by
        simp only [step, List.getElem?_cons_zero, mutate, Bool.false_eq_true, if_false, List.set_cons_zero]
        rw [erase_hit hA hk A4, lookup_hit hA hk]
      have hs : ∀ a ∈ A ++ re, KeyOps.eq s a.1 = false := by
        intro a ha
        have : a.1 < s := h4 a (by
          rcases List.mem_append.1 ha with h | h
          · exact List.mem_append_left _ h
          · exact List.mem_append_right _ (List.mem_cons_of_mem _ h))
        simp only [KeyOps.eq, beq_eq_false_iff_ne, ne_eq]
        omega
      have hsp : step [⟨A ++ re, false⟩] (.put 0 s e'.2) = (.val none, [⟨A ++ (re ++ [(s, e'.2)]), false⟩]) := by
        simp only [step, List.getElem?_cons_zero, mutate, Bool.false_eq_true, if_false, List.set_cons_zero]
        rw [insert_miss hs, lookup_miss hs, List.append_assoc]
        rfl
      have hre : re ≠ [] := by
        rintro rfl
        simp at h1
      cases hacts with
      | call hm1 hacts =>
        cases hm1 with
        | other ht => exact absurd rfl ht
        | refused hp => rw [hse] at hp; cases hp
        | @removed _ y _ g1 g2 g3 =>
          simp only [List.getElem?_cons_zero, Option.some.injEq] at g1
          subst g1
          rw [lookup_hit hA hk] at g3
          rw [hse] at hacts
          cases hacts with
          | call hm2 hacts =>
            cases hacts with
            | ret =>
              rw [hsp]
              cases hm2 with
              | other ht => exact absurd rfl ht
              | refused hp => rw [hsp] at hp; cases hp
              | replaced k1 k2 k3 =>
                simp only [List.getElem?_cons_zero, Option.some.injEq] at k1
                subst k1
                rw [lookup_miss hs] at k3; cases k3
              | grown k1 k2 k3 k4 =>
                simp only [Option.isSome_some, if_true] at g3
                omega
              | added k1 k2 k3 k4 k5 =>
                simp only [Option.isSome_some, if_true] at g3
                have hc : (Cursor.remove ⟨some e'.1, [], re⟩ e'.1).add (KeyOps.freeze s, e'.2) = ⟨none, [], re ++ [(s, e'.2)]⟩ := by
                  simp only [Cursor.remove, hk, if_true, Cursor.add]
                  cases re with
                  | nil => exact absurd rfl hre
                  | cons => rfl
                rw [hc]
                refine ⟨rfl, rfl, by simpa using h1, by omega, A, rfl, ?_, ?_⟩
                · rw [← List.append_assoc]
                  refine List.pairwise_append.2 ⟨List.pairwise_append.2 ⟨A1, A5, fun a ha b hb => A3 a ha b (List.mem_cons_of_mem _ hb)⟩,
                    List.pairwise_singleton _ _, fun a ha b hb => ?_⟩
                  rw [List.mem_singleton.1 hb]
                  have := hs a ha
                  simp only [KeyOps.eq, beq_eq_false_iff_ne, ne_eq] at this ⊢
                  exact fun h => this h.symm
                · intro a ha
                  rw [← List.append_assoc] at ha
                  rcases List.mem_append.1 ha with h | h
                  · have := h4 a (by
                      rcases List.mem_append.1 h with h | h
                      · exact List.mem_append_left _ h
                      · exact List.mem_append_right _ (List.mem_cons_of_mem _ h))
                    omega
                  · rw [List.mem_singleton.1 h]; exact Nat.lt_succ_self s
  | left hn hacts =>
    have := hacts.goes (fun _ _ => rfl)
    cases this

/-- **C108** is violated: a loop may go on forever, if the actor removes an entry and adds another one whenever it is called. -/
theorem C108_endless_violated : ∃ (w : Ex.W), Reachable w ∧ ∀ n, ∃ x w', each 0 Ex.moves n 2 w = .ok x w' ∧ x.more = true := by
  refine ⟨Ex.w8, Ex.w8_reachable, fun n => ?_⟩
  obtain ⟨css, st, h⟩ := Ex.w8_reachable.rep
  obtain ⟨a, hm, he⟩ := h.entries (m := 0) (es := [(0, none), (1, none)]) rfl
  obtain ⟨r, ⟨g, h1, h2⟩, h'⟩ := each_cursor h hm
  obtain ⟨x, w', _, _, e1, _, e3⟩ := h' Ex.moves (fun _ _ _ => ⟨trivial, fun _ => ⟨trivial, fun _ => trivial⟩⟩) n 2
  refine ⟨x, w', e1, Loops.moves e3 ⟨rfl, rfl, by rw [he]; decide, ?_, [], ?_, h.distinct hm, by rw [he]; decide⟩⟩
  · have : (Ex.w8.maps[0]?.map fun g => g.table.length) = some 4 := by decide +kernel
    rw [h1] at this
    simp only [Option.map_some, Option.some.injEq] at this
    rw [h2, this, he]
    decide
  · have hl : st.length = 1 := by rw [h.lens]; decide +kernel
    have hp : obs Ex.w8 (.put 0 7 none) = .val none := by decide +kernel
    rw [h.obs (.put 0 7 none) trivial] at hp
    match st, hl, hm with
    | [b], _, hm =>
      cases hm
      obtain ⟨es, f⟩ := a
      cases f with
      | false => rfl
      | true => simp [step, mutate] at hp

end Verif.HMap
