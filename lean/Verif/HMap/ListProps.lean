import Verif.HMap.Props
/-!
# C05: lists with repeated keys

What a map that is built from a list with repeated keys answers, and what becomes of such a list when it is put into another map, as the
collectors of package `streamer` do with the members that were read (`h.PutAll(a.ToMap())`, streamer/basiccollector.go:44-53).
-/
set_option autoImplicit false
set_option linter.unusedSectionVars false
set_option linter.unusedSimpArgs false
namespace Verif.HMap
open Spec

variable {K V : Type} [KeyOps K] [ValOps V]

/-! ### Lemmas -/

/-- `toMap_run` for any list -/
theorem toMap_any {w : World K V} {kvs : List (K × V)} (frozen : Bool) :
    ∃ w' g' cs', toMap kvs frozen w = .ok w.maps.length w' ∧ RepM w' w.maps.length g' cs' ∧ New w w' cs' ∧ kv cs' = kvs ∧
      g'.len = kvs.length := by
  obtain ⟨nodes', tbl', first', last', cs', r1, r2, r3, r4, r5, r6, r7⟩ := toMapLoop_run (w := w) (kvs := kvs)
    (tl := tableSizeFor kvs.length) (tbl := List.replicate (tableSizeFor kvs.length) none) (N := w.nodes.length)
    (core_replicate (tableSizeFor_le _)) (by simp) (tableSizeFor_pos _) (by simp) (Nat.le_refl _)
  refine ⟨⟨nodes', w.maps ++ [⟨tbl', kvs.length, first', last', frozen⟩]⟩, ⟨tbl', kvs.length, first', last', frozen⟩, cs', ?_,
    ⟨by simp, r2⟩, ?_, by simpa using r3, rfl⟩
  · rw [toMap, List.length_replicate, M.bind_ok r1]
    rfl
  · exact ⟨by simp, fun j hj => List.getElem?_append_left hj, r6, r4, r7⟩

/-- The last cell with a key -/
theorem split_last (k : K) (cs : List (Cell K V)) : (∀ c ∈ cs, KeyOps.eq k c.k = false) ∨
    ∃ A c B, cs = A ++ c :: B ∧ KeyOps.eq k c.k = true ∧ ∀ b ∈ B, KeyOps.eq k b.k = false := by
  induction cs with
  | nil => exact .inl (by simp)
  | cons c cs ih =>
    rcases ih with h | ⟨A, d, B, rfl, h1, h2⟩
    · cases e : KeyOps.eq k c.k with
      | false => exact .inl fun d hd => by exact (List.mem_cons.1 hd).elim (fun x => x ▸ e) (h d)
      | true => exact .inr ⟨[], c, cs, rfl, e, h⟩
    · exact .inr ⟨c :: A, d, B, rfl, h1, h2⟩

/-- `mget_run` for any list: the last entry is found. -/
theorem mget_last [LawfulKey K] {w : World K V} {m : MRef} {g : HM} {cs : List (Cell K V)} (h : RepM w m g cs) (k : K) :
    mget m k w = .ok (lookup k (kv cs).reverse) w := by
  unfold mget
  rw [M.bind_ok (getMap_run h.map)]
  by_cases h0 : g.table.length = 0
  · rw [if_pos h0, h.core.empty h0]
    rfl
  · rw [if_neg h0]
    obtain ⟨hd', hhd⟩ := tbl_slot (by omega) h.core.size (KeyOps.hash k)
    rw [M.bind_ok (tblGet_run hhd), M.bind_ok fuel_run]
    rcases split_last k cs with hk | ⟨A, c, B, rfl, hk, hB⟩
    · rw [M.bind_ok (find_miss h.core hk hhd), lookup_miss (by intro e he; exact kv_forall hk e (List.mem_reverse.1 he))]
      rfl
    · rw [M.bind_ok (find_hit h.core hk hB hhd)]
      obtain ⟨n, hn, _, hv⟩ := h.core.seg.mem_node c (by simp)
      dsimp only
      rw [M.bind_ok (getNode_run hn), kv_append, kv_cons, List.reverse_append, List.reverse_cons, List.append_assoc,
        List.singleton_append, lookup_hit (by intro e he; exact kv_forall hB e (List.mem_reverse.1 he)) hk, hv]
      rfl

theorem lookup_insertAll_last [LawfulKey K] (k : K) (es as : List (K × V)) :
    lookup k (insertAll es as) = (lookup k as.reverse).or (lookup k es) := by
  unfold insertAll
  induction as generalizing es with
  | nil => rfl
  | cons a as ih =>
    rw [List.foldl_cons, ih, lookup_insert, List.reverse_cons, lookup_append, lookup_cons, lookup_nil, LawfulKey.comm a.1 k]
    cases lookup k as.reverse <;> cases KeyOps.eq k a.1 <;> simp

/-! ### Theorems -/

/-- **C05, what holds for every list, with repeated keys too.**  `Get` returns the value that was given last for the key and nothing for
other keys; iteration lists all pairs of the list, and `Len` is their number. -/
theorem C05_repeated_keys [LawfulKey K] (w : World K V) (kvs : List (K × V)) (frozen : Bool) :
    ∃ r w', exec w (.ofList kvs frozen) = (.ref r, w') ∧ r = w.maps.length ∧
      obs w' (.entries r) = .list kvs ∧ obs w' (.len r) = .nat kvs.length ∧
      (∀ A B k k' v, kvs = A ++ (k', v) :: B → KeyOps.eq k k' = true → (∀ e ∈ B, KeyOps.eq k e.1 = false) →
        obs w' (.get r k) = .val (some v)) ∧
      (∀ k, (∀ e ∈ kvs, KeyOps.eq k e.1 = false) → obs w' (.get r k) = .val none) := by
  obtain ⟨w', g', cs', a1, a2, a3, a4, a5⟩ := toMap_any (w := w) (kvs := kvs) frozen
  have hx : exec w (.ofList kvs frozen) = (.ref w.maps.length, w') := by
    simp only [exec, Op.refs, List.all_nil, if_true, call]
    rw [M.bind_ok a1]
    rfl
  have hm : w.maps.length < w'.maps.length := by rw [a3.nmaps]; omega
  have hget : ∀ k, obs w' (.get w.maps.length k) = .val (lookup k kvs.reverse) := by
    intro k
    simp only [obs, exec, Op.refs, List.all_cons, List.all_nil, hm, decide_true, Bool.and_true, if_true, call]
    rw [M.bind_ok (mget_last a2 k), a4]
    rfl
  refine ⟨_, w', hx, rfl, ?_, ?_, ?_, ?_⟩
  · simp only [obs, exec, Op.refs, List.all_cons, List.all_nil, hm, decide_true, Bool.and_true, if_true, call]
    rw [M.bind_ok (entries_run a2), a4]
    rfl
  · simp only [obs, exec, Op.refs, List.all_cons, List.all_nil, hm, decide_true, Bool.and_true, if_true, call]
    rw [M.bind_ok (f := fun n => pure (Out.nat n)) (show mlen w.maps.length w' = .ok kvs.length w' by rw [mlen, M.bind_ok (getMap_run a2.map), a5]; rfl)]
    rfl
  · rintro A B k k' v rfl hk hB
    rw [hget, List.reverse_append, List.reverse_cons, List.append_assoc, List.singleton_append,
      lookup_hit (by intro e he; exact hB e (List.mem_reverse.1 he)) hk]
  · intro k hk
    rw [hget, lookup_miss]
    intro e he
    exact hk e (List.mem_reverse.1 he)

/-- The key 2 is given twice. -/
example : (exec (World.init : Ex.W) (.ofList [(2, some 7), (4, none), (2, some 8)] false)).1 = .ref 0 ∧
    obs (exec (World.init : Ex.W) (.ofList [(2, some 7), (4, none), (2, some 8)] false)).2 (.get 0 2) = .val (some (some 8)) ∧
    ([(2, some 7), (4, none), (2, some 8)] : List (Nat × Option Nat)) = [(2, some 7), (4, none)] ++ (2, some 8) :: [] := by
  decide +kernel

/-- **C05, reading a list into a map.**  A list, with repeated keys or not, is made a map and put into the mutable map `m`, as a collector
does with the members of a map that it reads.  Then no two keys of `m` are equal; for a key of the list `Get` returns the value that was
given last, for other keys what it returned before; the keys that were there keep their places, and the others follow in the order of their
first appearance. -/
theorem C05_list_into_map [LawfulKey K] {w : World K V} (hw : Reachable w) {m : Nat} {es : List (K × V)} (he : obs w (.entries m) = .list es)
    {g : HM} (hg : w.maps[m]? = some g) (hz : g.frozen = false) (kvs : List (K × V)) (frozen : Bool) :
    ∃ w' es', execAll w [.ofList kvs frozen, .putAll m w.maps.length] = ([.ref w.maps.length, .unit], w') ∧
      obs w' (.entries m) = .list es' ∧ obs w' (.len m) = .nat es'.length ∧ DistinctKeys es' ∧
      (∀ A B k k' v, kvs = A ++ (k', v) :: B → KeyOps.eq k k' = true → (∀ e ∈ B, KeyOps.eq k e.1 = false) →
        obs w' (.get m k) = .val (some v)) ∧
      (∀ k, (∀ e ∈ kvs, KeyOps.eq k e.1 = false) → obs w' (.get m k) = obs w (.get m k)) ∧
      es' = insertAll es kvs := by
  obtain ⟨css, s, hs⟩ := hw.rep
  have hml : m < w.maps.length := (List.getElem?_eq_some_iff.1 hg).1
  obtain ⟨g0, cs, c1, c2, c3, c4⟩ := hs.each m hml
  have : g0 = g := by have := c3.map; rw [hg] at this; cases this; rfl
  subst this
  have hes : kv cs = es := by
    obtain ⟨a, h1, h2⟩ := hs.entries he
    rw [c2] at h1; cases h1; exact h2
  subst hes
  obtain ⟨w1, g1, cs1, a1, a2, a3, a4, a5⟩ := toMap_any (w := w) (kvs := kvs) frozen
  have hx : exec w (.ofList kvs frozen) = (.ref w.maps.length, w1) := by
    simp only [exec, Op.refs, List.all_nil, if_true, call]
    rw [M.bind_ok a1]
    rfl
  have hl1 : w.maps.length < w1.maps.length := by rw [a3.nmaps]; omega
  have b3 := c3.new a3
  obtain ⟨w2, g2, cs2, d1, d2, d3, d4⟩ : ∃ w2 g2 cs2, putAll m w.maps.length w1 = .ok () w2 ∧ RepM w2 m g2 cs2 ∧ Good g2 cs2 ∧
      kv cs2 = insertAll (kv cs) kvs := by
    by_cases hne : cs1 = []
    · subst hne
      have h0 : kvs = [] := a4.symm
      subst h0
      refine ⟨w1, g0, cs, ?_, b3, c4, rfl⟩
      rw [putAll, M.bind_ok (getMap_run a2.map), if_pos (by rw [a5]; rfl)]
      rfl
    · obtain ⟨w2, g2, cs2, e1, e2, e3, _, e5, _⟩ := putAll_run b3 c4 hz a2 (by rw [a5, ← a4, kv_length]) hne (by
        intro _ x hx hc
        obtain ⟨y, hy, e⟩ := List.mem_map.1 hc
        have := c3.core.lt y hy
        have := a3.own x hx
        omega)
      exact ⟨w2, g2, cs2, e1, e2, e3, by rw [e5, a4]⟩
  have hx2 : exec w1 (.putAll m w.maps.length) = (.unit, w2) := by
    simp only [exec, Op.refs, List.all_cons, List.all_nil, hl1, Nat.lt_trans hml hl1, decide_true, Bool.and_true, if_true, call]
    rw [M.bind_ok d1]
    rfl
  have hm2 := d2.lt
  have hget : ∀ k, obs w2 (.get m k) = .val (lookup k (insertAll (kv cs) kvs)) := by
    intro k
    simp only [obs, exec, Op.refs, List.all_cons, List.all_nil, hm2, decide_true, Bool.and_true, if_true, call]
    rw [M.bind_ok (mget_run d2 d3.distinct k), d4]
    rfl
  refine ⟨w2, _, by simp only [execAll, hx, hx2], ?_, ?_, ?_, ?_, ?_, rfl⟩
  · simp only [obs, exec, Op.refs, List.all_cons, List.all_nil, hm2, decide_true, Bool.and_true, if_true, call]
    rw [M.bind_ok (entries_run d2), d4]
    rfl
  · simp only [obs, exec, Op.refs, List.all_cons, List.all_nil, hm2, decide_true, Bool.and_true, if_true, call]
    rw [M.bind_ok (f := fun n => pure (Out.nat n)) (show mlen m w2 = .ok (insertAll (kv cs) kvs).length w2 by
      rw [mlen, M.bind_ok (getMap_run d2.map), d3.len, ← d4, kv_length]; rfl)]
    rfl
  · rw [← d4]; exact distinct_iff.2 d3.distinct
  · rintro A B k k' v rfl hk hB
    rw [hget, lookup_insertAll_last, List.reverse_append, List.reverse_cons, List.append_assoc, List.singleton_append,
      lookup_hit (by intro e he; exact hB e (List.mem_reverse.1 he)) hk]
    rfl
  · intro k hk
    rw [hget, lookup_insertAll_last, lookup_miss, hs.get_of c2]
    · rfl
    · intro e he
      exact hk e (List.mem_reverse.1 he)

/-- The members `"a": 7, "b": nil, "a": 8` are read into an empty map. -/
example : Reachable (exec (World.init : Ex.W) (.new 2)).2 ∧ obs (exec (World.init : Ex.W) (.new 2)).2 (.entries 0) = .list [] ∧
    (∃ g, (exec (World.init : Ex.W) (.new 2)).2.maps[0]? = some g ∧ g.frozen = false) ∧
    obs (execAll (exec (World.init : Ex.W) (.new 2)).2 [.ofList [(2, some 7), (4, none), (2, some 8)] false, .putAll 0 1]).2 (.entries 0)
      = .list [(2, some 8), (4, none)] :=
  ⟨⟨[.new 2], by simp [Regular], rfl⟩, by decide +kernel, ⟨_, rfl, rfl⟩, by decide +kernel⟩

end Verif.HMap
